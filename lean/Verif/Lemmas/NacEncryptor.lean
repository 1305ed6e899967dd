import Verif.Spec.Nac
/-
The phases of an encryptor.
-/
namespace PyNDN
namespace Nac
namespace Encryptor
open Spec.Nac
open Fetch (Express)

theorem triesOf_snoc (t : List EEv) (e : EEv) : triesOf (t ++ [e]) = tries (e :: t.reverse) := by
  unfold triesOf; rw [List.reverse_append]; rfl

theorem triesOf_express (t : List EEv) (id i) : triesOf (t ++ [.express id i]) = triesOf t + 1 := by rw [triesOf_snoc]; rfl
theorem triesOf_kek (t : List EEv) (d) : triesOf (t ++ [.kek d]) = 0 := by rw [triesOf_snoc]; rfl
theorem triesOf_ck (t : List EEv) (n b) : triesOf (t ++ [.ck n b]) = triesOf t := by rw [triesOf_snoc]; rfl
theorem triesOf_published (t : List EEv) (d) : triesOf (t ++ [.published d]) = triesOf t := by rw [triesOf_snoc]; rfl
theorem triesOf_put (t : List EEv) (d) : triesOf (t ++ [.putData d]) = triesOf t := by rw [triesOf_snoc]; rfl
theorem triesOf_later (t : List EEv) (n) : triesOf (t ++ [.callLater n]) = triesOf t := by rw [triesOf_snoc]; rfl
theorem triesOf_failure (t : List EEv) : triesOf (t ++ [.error .encryptionFailure]) = triesOf t := by rw [triesOf_snoc]; rfl
theorem triesOf_error (t : List EEv) {c : Code} (h : c ≠ .encryptionFailure) : triesOf (t ++ [.error c]) = 0 := by
  rw [triesOf_snoc]
  cases c <;> first | rfl | exact absurd rfl h

/-- Only retries are scheduled. -/
def Retries (l : List Timer) : Prop := ∀ t ∈ l, t = .retry

/-- The phases. -/
inductive Phase (s : Encryptor) : Prop
  | idle (h1 : s.inProgress = false) (h2 : s.pendingId = 0) (h3 : s.outstanding = []) (h4 : Retries s.timers) (h5 : triesOf s.trace = 0)
  | wait (n : Nat) (h1 : s.inProgress = true) (h2 : 0 < s.pendingId) (h3 : s.outstanding = [(s.pendingId, n)]) (h4 : Retries s.timers)
      (h5 : 1 ≤ n ∧ triesOf s.trace + n = 4)
  | nacked (n : Nat) (a b : List Timer) (h1 : s.inProgress = true) (h2 : s.pendingId = 0) (h3 : s.outstanding = [])
      (h4 : s.timers = a ++ .fetch n :: b) (ha : Retries a) (hb : Retries b) (h5 : 1 ≤ n ∧ triesOf s.trace + n = 3)
  | stopped (h1 : s.inProgress = true) (h2 : 0 < s.pendingId) (h3 : s.outstanding = []) (h4 : Retries s.timers) (h5 : triesOf s.trace ≤ 3)

/-- What the phase depends on. -/
theorem Phase.congr {s s' : Encryptor} (h : Phase s) (h1 : s'.inProgress = s.inProgress) (h2 : s'.pendingId = s.pendingId)
    (h3 : s'.outstanding = s.outstanding) (h4 : s'.timers = s.timers) (h5 : triesOf s'.trace = triesOf s.trace) : Phase s' := by
  cases h with
  | idle a b c d e => exact .idle (by rw [h1, a]) (by rw [h2, b]) (by rw [h3, c]) (by rw [h4]; exact d) (by rw [h5, e])
  | wait n a b c d e => exact .wait n (by rw [h1, a]) (by rw [h2]; exact b) (by rw [h3, c, h2]) (by rw [h4]; exact d) (by rw [h5]; exact e)
  | nacked n x y a b c d hx hy e =>
    exact .nacked n x y (by rw [h1, a]) (by rw [h2, b]) (by rw [h3, c]) (by rw [h4]; exact d) hx hy (by rw [h5]; exact e)
  | stopped a b c d e => exact .stopped (by rw [h1, a]) (by rw [h2]; exact b) (by rw [h3, c]) (by rw [h4]; exact d) (by rw [h5]; exact e)

theorem fetchKek_phase (P : EncParams) {s : Encryptor} {n : Nat} {env : Env} (hid : 0 < s.nextId) (hi : s.inProgress = true) (hp : s.pendingId = 0)
    (ho : s.outstanding = []) (ht : Retries s.timers) (hn : 1 ≤ n ∧ triesOf s.trace + n = 3) (hu : Untabled env) :
    Phase (s.fetchKek P n env) := by
  unfold fetchKek
  rw [if_neg (by omega)]
  dsimp only
  cases he : env.express with
  | ok =>
    refine .wait n hi hid ?_ ht ?_
    · show s.outstanding ++ _ = _
      rw [ho]; rfl
    · show 1 ≤ n ∧ triesOf (s.trace ++ [_]) + n = 4
      rw [triesOf_express]
      omega
  | raises t =>
    cases t with
    | true => exact absurd he hu
    | false =>
      refine .idle rfl hp ?_ ht ?_
      · show s.outstanding ++ _ = _
        rw [ho]; rfl
      · exact triesOf_error _ (by decide)

theorem retry_phase (P : EncParams) {s : Encryptor} {env : Env} (hid : 0 < s.nextId) (h : Phase s) (hu : Untabled env) :
    Phase (s.retryFetchingKek P env) := by
  unfold retryFetchingKek
  split
  · exact h
  · next hi =>
    cases h with
    | idle a b c d e => exact fetchKek_phase P hid rfl b c d ⟨by omega, by show triesOf s.trace + 3 = 3; omega⟩ hu
    | wait n a => exact absurd a hi
    | nacked n x y a => exact absurd a hi
    | stopped a => exact absurd a hi

theorem take_one {id k n : Nat} {x : Nat} {rest : List (Nat × Nat)} (h : Fetch.Fetcher.take id [(k, n)] = some (x, rest)) : x = n ∧ rest = [] := by
  unfold Fetch.Fetcher.take at h
  split at h
  · cases h; exact ⟨rfl, rfl⟩
  · cases h

theorem Phase.take {s : Encryptor} (h : Phase s) {id n : Nat} {rest : List (Nat × Nat)} (ht : Fetch.Fetcher.take id s.outstanding = some (n, rest)) :
    rest = [] ∧ s.inProgress = true ∧ Retries s.timers ∧ 1 ≤ n ∧ triesOf s.trace + n = 4 := by
  cases h with
  | idle a b c d e => rw [c] at ht; cases ht
  | wait m a b c d e =>
    rw [c] at ht
    obtain ⟨rfl, rfl⟩ := take_one ht
    exact ⟨rfl, a, d, e⟩
  | nacked n x y a b c => rw [c] at ht; cases ht
  | stopped a b c => rw [c] at ht; cases ht

theorem retries_snoc {l : List Timer} (h : Retries l) : Retries (l ++ [.retry]) := by
  intro t ht
  rcases List.mem_append.mp ht with ht | ht
  · exact h t ht
  · exact List.mem_singleton.mp ht

theorem retries_erase {l : List Timer} (h : Retries l) (i : Nat) : Retries (l.eraseIdx i) :=
  fun t ht => h t (List.mem_of_mem_eraseIdx ht)

/-- The reports that a retrieval failed. -/
def gaveUp (e : EEv) : Prop := e = .error .kekRetrievalTimeout ∨ e = .error .kekRetrievalFailure

theorem nextId_mono (P : EncParams) (s : Encryptor) (a : EAct) : s.nextId ≤ (s.step P a).nextId := by
  have hf : ∀ (s : Encryptor) n env, s.nextId ≤ (s.fetchKek P n env).nextId := by
    intro s n env
    unfold fetchKek
    split
    · exact Nat.le_refl _
    · dsimp only
      split <;> exact Nat.le_succ _
  have hr : ∀ (s : Encryptor) env, s.nextId ≤ (s.retryFetchingKek P env).nextId := by
    intro s env
    unfold retryFetchingKek
    split
    · exact Nat.le_refl _
    · exact hf { s with inProgress := true } 3 env
  cases a with
  | regenerateCk now bits env =>
    unfold step regenerateCk
    dsimp only
    split
    · exact Nat.le_refl _
    · split
      · refine Nat.le_trans ?_ (hr _ env)
        exact Nat.le_refl _
      · split <;> exact Nat.le_refl _
  | data id d env =>
    unfold step onData
    dsimp only
    split
    · split <;> exact Nat.le_refl _
    · exact Nat.le_refl _
  | timeout id env =>
    unfold step onTimeout
    dsimp only
    split
    · split
      · refine Nat.le_trans ?_ (hf _ _ env)
        exact Nat.le_refl _
      · split <;> exact Nat.le_refl _
    · exact Nat.le_refl _
  | nack id env =>
    unfold step onNetworkNack
    dsimp only
    split
    · split
      · exact Nat.le_refl _
      · split <;> exact Nat.le_refl _
    · exact Nat.le_refl _
  | fire i env =>
    unfold step fire
    dsimp only
    split
    · split
      · refine Nat.le_trans ?_ (hr _ env)
        exact Nat.le_refl _
      · refine Nat.le_trans ?_ (hf _ _ env)
        exact Nat.le_refl _
    · exact Nat.le_refl _
  | interest name =>
    unfold step onInterest
    dsimp only
    split <;> exact Nat.le_refl _
  | shutdown =>
    unfold step shutdown
    dsimp only
    split <;> exact Nat.le_refl _

theorem regenerate_phase (P : EncParams) {s : Encryptor} {now : Nat} {bits : Bytes} {env : Env} (hid : 0 < s.nextId) (h : Phase s)
    (hu : Untabled env) : Phase (s.regenerateCk P now bits env) := by
  unfold regenerateCk
  split
  · exact h
  · dsimp only
    split
    · exact retry_phase P hid (h.congr rfl rfl rfl rfl (triesOf_ck _ _ _)) hu
    · split
      · exact h.congr rfl rfl rfl rfl ((triesOf_published _ _).trans (triesOf_ck _ _ _))
      · exact h.congr rfl rfl rfl rfl ((triesOf_failure _).trans (triesOf_ck _ _ _))

theorem step_phase (P : EncParams) {s : Encryptor} {a : EAct} (hid : 0 < s.nextId) (h : Phase s) (hu : ∀ e, envOf a = some e → Untabled e) :
    Phase (s.step P a) := by
  cases a with
  | regenerateCk now bits env => exact regenerate_phase P hid h (hu env rfl)
  | data id d env =>
    unfold step
    dsimp only
    split
    · next n rest ht =>
      obtain ⟨rfl, a, b, c, e⟩ := h.take ht
      unfold onData
      dsimp only
      split
      · refine .idle rfl rfl rfl b ?_
        exact (triesOf_published _ _).trans (triesOf_kek _ _)
      · refine .idle rfl rfl rfl b ?_
        exact (triesOf_failure _).trans (triesOf_kek _ _)
    · exact h
  | timeout id env =>
    unfold step
    dsimp only
    split
    · next n rest ht =>
      obtain ⟨rfl, a, b, c, e⟩ := h.take ht
      unfold onTimeout
      dsimp only
      split
      · exact fetchKek_phase P hid a rfl rfl b ⟨by omega, by show triesOf s.trace + (n - 1) = 3; omega⟩ (hu env rfl)
      · split
        · exact .idle rfl rfl rfl b (triesOf_error _ (by decide))
        · exact .idle rfl rfl rfl (retries_snoc b) ((triesOf_later _ _).trans (triesOf_error _ (by decide)))
    · exact h
  | nack id env =>
    unfold step
    dsimp only
    split
    · next n rest ht =>
      obtain ⟨rfl, a, b, c, e⟩ := h.take ht
      unfold onNetworkNack
      dsimp only
      split
      · exact .nacked (n - 1) s.timers [] a rfl rfl rfl b (by intro t ht; cases ht) ⟨by omega, by
          show triesOf (s.trace ++ [_]) + (n - 1) = 3
          rw [triesOf_later]; omega⟩
      · split
        · exact .idle rfl rfl rfl b (triesOf_error _ (by decide))
        · exact .idle rfl rfl rfl (retries_snoc b) ((triesOf_later _ _).trans (triesOf_error _ (by decide)))
    · exact h
  | fire i env =>
    unfold step
    dsimp only
    split
    · next t ht =>
      have hmem := List.mem_of_getElem? ht
      cases h with
      | idle a b c d e =>
        rw [d t hmem]
        exact retry_phase P hid (.idle a b c (retries_erase d i) e) (hu env rfl)
      | wait n a b c d e =>
        rw [d t hmem]
        exact retry_phase P hid (.wait n a b c (retries_erase d i) e) (hu env rfl)
      | stopped a b c d e =>
        rw [d t hmem]
        exact retry_phase P hid (.stopped a b c (retries_erase d i) e) (hu env rfl)
      | nacked n x y a b c d hx hy e =>
        rw [d] at ht ⊢
        rcases Nat.lt_trichotomy i x.length with hi | hi | hi
        · rw [List.getElem?_append_left hi] at ht
          rw [hx t (List.mem_of_getElem? ht), List.eraseIdx_append_of_lt_length hi]
          exact retry_phase P hid (.nacked n _ y a b c rfl (retries_erase hx i) hy e) (hu env rfl)
        · subst hi
          rw [List.getElem?_append_right (Nat.le_refl _), Nat.sub_self, List.getElem?_cons_zero] at ht
          cases ht
          rw [List.eraseIdx_append_of_length_le (Nat.le_refl _), Nat.sub_self]
          refine fetchKek_phase P hid a b c ?_ e (hu env rfl)
          intro t ht
          rcases List.mem_append.mp ht with ht | ht
          · exact hx t ht
          · exact hy t ht
        · rw [List.getElem?_append_right (by omega)] at ht
          obtain ⟨j, hj⟩ : ∃ j, i - x.length = j + 1 := ⟨i - x.length - 1, by omega⟩
          rw [hj, List.getElem?_cons_succ] at ht
          rw [hy t (List.mem_of_getElem? ht), List.eraseIdx_append_of_length_le (by omega), hj, List.eraseIdx_cons_succ]
          exact retry_phase P hid (.nacked n x _ a b c rfl hx (retries_erase hy j) e) (hu env rfl)
    · exact h
  | interest name =>
    unfold step onInterest
    dsimp only
    split
    · exact h.congr rfl rfl rfl rfl (triesOf_put _ _)
    · exact h
  | shutdown =>
    unfold step shutdown
    dsimp only
    split
    · cases h with
      | idle a b c d e => exact .idle a b (by show List.filter _ s.outstanding = []; rw [c]; rfl) d e
      | wait n a b c d e =>
        refine .stopped a b ?_ d (by show triesOf s.trace ≤ 3; omega)
        show List.filter _ s.outstanding = []
        rw [c]
        simp
      | nacked n x y a b c d hx hy e => exact .nacked n x y a b (by show List.filter _ s.outstanding = []; rw [c]; rfl) d hx hy e
      | stopped a b c d e => exact .stopped a b (by show List.filter _ s.outstanding = []; rw [c]; rfl) d e
    · exact h

theorem start_phase (P : EncParams) (now : Nat) (bits : Bytes) (env : Env) (hu : Untabled env) : Phase (start P now bits env) :=
  regenerate_phase P (by decide) (.idle rfl rfl rfl (by intro t ht; cases ht) rfl) hu

theorem run_snoc (P : EncParams) (now bits env acts a) : run P now bits env (acts ++ [a]) = (run P now bits env acts).step P a := by
  unfold run; rw [List.foldl_append]; rfl

theorem start_nextId (P : EncParams) (now bits env) : 0 < (start P now bits env).nextId :=
  nextId_mono P {} (.regenerateCk now bits env)

theorem run_induction (P : EncParams) (now : Nat) (bits : Bytes) (env : Env) {Q : List EAct → Encryptor → Prop}
    (h0 : Q [] (start P now bits env)) (hs : ∀ acts a, Q acts (run P now bits env acts) → Q (acts ++ [a]) ((run P now bits env acts).step P a))
    (acts : List EAct) : Q acts (run P now bits env acts) := by
  suffices ∀ r : List EAct, Q r.reverse (run P now bits env r.reverse) by
    have := this acts.reverse
    rwa [List.reverse_reverse] at this
  intro r
  induction r with
  | nil => exact h0
  | cons a r ih =>
    rw [List.reverse_cons, run_snoc]
    exact hs _ _ ih

theorem run_nextId (P : EncParams) (now bits env acts) : 0 < (run P now bits env acts).nextId := by
  refine run_induction P now bits env (Q := fun _ s => 0 < s.nextId) (start_nextId P now bits env) (fun _ a h => ?_) acts
  exact Nat.lt_of_lt_of_le h (nextId_mono P _ a)

theorem run_phase (P : EncParams) (now bits env) (acts : List EAct) (hu : UntabledAll env acts) : Phase (run P now bits env acts) := by
  refine run_induction P now bits env (Q := fun acts s => UntabledAll env acts → Phase s) (fun h => start_phase P now bits env h.1)
    (fun acts a ih h => ?_) acts hu
  refine step_phase P (run_nextId P now bits env acts) (ih ⟨h.1, fun x hx => h.2 x (List.mem_append_left _ hx)⟩) (h.2 a (by simp))

end Encryptor
end Nac
end PyNDN
