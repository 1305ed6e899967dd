import Verif.Lemmas.NacDead
import Verif.Props.Command
/-
C69: a decryptor of name-based access control answers at most once, and rightly.
-/
namespace PyNDN
namespace Nac
namespace Decryptor
open Spec.Nac
open Fetch (Express)
open Encrypt (EncryptedContent)
open PSync (dictGet dictSet dictGet_none dictGet_some dictGet_mem)
open KeyChain (KC get_set)

variable {P : DecParams}

/-- C69: no call of `decrypt` is answered twice: onSuccess and onError together are called at most once, and not before the call. -/
theorem C69_once (P : DecParams) (hr : ∀ c, P.raises c = false) (acts : List DAct) (hu : UntabledD acts) (c : Nat) :
    answers (run P acts).trace c ≤ 1 ∧ (0 < answers (run P acts).trace c → ∃ x, .call c x ∈ (run P acts).trace) := by
  have h := run_inv hr acts hu
  refine ⟨h.once c, fun hc => (h.called c).mp ?_⟩
  have := h.early c
  omega

/-- C69, in part: a call that is not answered waits for an Interest, or another caller for the same CK was told of an error.  What is missing
is that the other callers are told too: see C69_dead and C69_forgotten. -/
theorem C69_answered_partial (P : DecParams) (hr : ∀ c, P.raises c = false) (acts : List DAct) (hu : UntabledD acts) {c : Nat} {x : EncryptedContent}
    (hc : .call c x ∈ (run P acts).trace) (ha : answers (run P acts).trace c ≠ 1) :
    WellFormed x ∧ (∀ b, .retrieved (ckOf x) b ∉ (run P acts).trace) ∧
    ((∃ id job, (id, job) ∈ (run P acts).outstanding ∧ Job.ckName job = ckOf x) ∨
      ∃ c' x' code, c' ≠ c ∧ .call c' x' ∈ (run P acts).trace ∧ ckOf x' = ckOf x ∧ .error c' code ∈ (run P acts).trace) := by
  have h := run_inv hr acts hu
  have h0 : answers (run P acts).trace c = 0 := by have := h.once c; omega
  rcases h.rest c ((h.called c).mpr ⟨x, hc⟩) h0 with hh | ⟨n, e, he, hm⟩
  · nomatch hh
  · obtain ⟨y, hy, hyc⟩ := List.mem_map.mp hm
    have hE := h.entry n e he
    obtain ⟨k1, k2, k3⟩ := hE.calls y.1 y.2 hy
    rw [hyc] at k1
    have hxy := h.unique c _ _ hc k1
    rw [← hxy] at k2 k3
    refine ⟨k2, fun b hb => ?_, ?_⟩
    · rw [k3] at hb
      obtain ⟨e', g1, g2⟩ := h.retrieved n b hb
      rw [he] at g1
      cases g1
      rw [(hE.ready b g2).2.1] at hy
      nomatch hy
    · by_cases hp : 0 < e.pendingId
      · obtain ⟨_, _, job, _, _, f1, f2, _⟩ := hE.fetching hp
        exact .inl ⟨_, job, f1, by rw [f2, k3]⟩
      · have hb : e.bits = none := by
          cases hb : e.bits with
          | none => rfl
          | some b => rw [(hE.ready b hb).2.1] at hy; nomatch hy
        obtain ⟨c', x', code, t1, t2, t3⟩ := h.told n e he (by nofun) (by omega) hb
        refine .inr ⟨c', x', code, ?_, t1, by rw [t2, k3], t3⟩
        rintro rfl
        have : 0 < answers (run P acts).trace c' := List.countP_pos_iff.mpr ⟨_, t3, by simp [isAnswer]⟩
        omega

/-- C69: when the CK is retrieved, all who asked for it are answered, and nothing more is asked for; from then on a caller is answered
before `decrypt` returns, without an Interest. -/
theorem C69_retrieved (P : DecParams) (hr : ∀ c, P.raises c = false) (acts : List DAct) (hu : UntabledD acts) {n : Name} {b : Bytes}
    (hb : .retrieved n b ∈ (run P acts).trace) :
    (∀ c x, .call c x ∈ (run P acts).trace → ckOf x = n → answers (run P acts).trace c = 1) ∧
    (∀ id job, (id, job) ∈ (run P acts).outstanding → Job.ckName job ≠ n) ∧
    (∀ b', .retrieved n b' ∈ (run P acts).trace → b' = b) ∧
    ∀ x env, WellFormed x → ckOf x = n → ∃ ev, ((run P acts).step P (.decrypt x env)).trace = (run P acts).trace ++ [.call (run P acts).calls x, ev] ∧
      isAnswer (run P acts).calls ev = true ∧
      ∀ iv plain, x.initialVector = some iv → P.aes.decryptCbc b iv x.payload = some plain → ev = .success (run P acts).calls plain := by
  have h := run_inv hr acts hu
  obtain ⟨e, he, heb⟩ := h.retrieved n b hb
  have hE := (h.entry n e he).ready b heb
  refine ⟨fun c x hc hx => ?_, fun id job hm hj => ?_, fun b' hb' => ?_, fun x env hw hx => ?_⟩
  · by_contra ha
    exact (C69_answered_partial P hr acts hu hc ha).2.1 b (by rw [hx]; exact hb)
  · obtain ⟨e', g1, g2⟩ := h.link id job hm
    rw [hj, he] at g1
    cases g1
    have := (h.idPos _ hm).1
    have := hE.1
    omega
  · obtain ⟨e', g1, g2⟩ := h.retrieved n b' hb'
    rw [he] at g1
    cases g1
    rw [heb] at g2
    cases g2
    rfl
  · refine ⟨answerTo P b ((run P acts).calls, x), ?_, ?_, ?_⟩
    · show (decrypt P x env (run P acts)).1.trace = _
      unfold decrypt
      dsimp only
      rw [if_neg (fun h => h hw.1), if_neg (fun h => hw.2 (Option.isNone_iff_eq_none.mp h))]
      have he' : dictGet x.keyLocator.keyName ({ run P acts with calls := (run P acts).calls + 1 }.emit (.call (run P acts).calls x)).entries = some e := by
        rw [← hx] at he
        exact he
      rw [he']
      dsimp only
      rw [heb]
      dsimp only
      rw [doDecrypt_eq hr]
      show ((run P acts).trace ++ [_]) ++ [_] = _
      rw [List.append_assoc]
      rfl
    · rw [isAnswer_answerTo]
      exact decide_eq_true rfl
    · intro iv plain h1 h2
      unfold answerTo
      dsimp only
      rw [h1]
      dsimp only
      rw [h2]

/-- C69: what onSuccess gets is the decryption of the payload of the call, with the initial vector of the call, and a CK that came as is
told in `Source`: in a packet for the CK that the call names, for a KDK that this member got. -/
theorem C69_correct (P : DecParams) (hr : ∀ c, P.raises c = false) (acts : List DAct) (hu : UntabledD acts) {c : Nat} {plain : Bytes}
    (hs : .success c plain ∈ (run P acts).trace) :
    ∃ x bits iv, .call c x ∈ (run P acts).trace ∧ Source P acts (ckOf x) bits ∧ x.initialVector = some iv ∧
      P.aes.decryptCbc bits iv x.payload = some plain := by
  obtain ⟨x, b, iv, h1, h2, h3⟩ := (run_inv hr acts hu).right c plain hs
  exact ⟨x, b, iv, h1, (run_prov P acts).got _ _ h2, h3⟩

/-- C69: the same for the CKs, whether or not callbacks raise. -/
theorem C69_source (P : DecParams) (acts : List DAct) {n : Name} {b : Bytes} (hb : .retrieved n b ∈ (run P acts).trace) : Source P acts n b :=
  (run_prov P acts).got n b hb

/-- C69, a departure: if no Interest is outstanding for a CK that was asked for and not retrieved, it is never asked for again: nobody who
waits for it, and nobody who asks for it later, is ever answered. -/
theorem C69_dead (P : DecParams) (hr : ∀ c, P.raises c = false) (acts more : List DAct) (hu : UntabledD (acts ++ more)) {n : Name}
    (ha : ∃ c x, .call c x ∈ (run P acts).trace ∧ WellFormed x ∧ ckOf x = n) (hn : ∀ b, .retrieved n b ∉ (run P acts).trace)
    (hi : ∀ id job, (id, job) ∈ (run P acts).outstanding → Job.ckName job ≠ n) :
    (∀ b, .retrieved n b ∉ (run P (acts ++ more)).trace) ∧
    (∀ id job, (id, job) ∈ (run P (acts ++ more)).outstanding → Job.ckName job ≠ n) ∧
    ∀ c x, .call c x ∈ (run P (acts ++ more)).trace → WellFormed x → ckOf x = n →
      answers (run P (acts ++ more)).trace c = answers (run P acts).trace c := by
  have hinv : ∀ l, UntabledD l → Inv P none none (run P l) := fun l hl => run_inv hr l hl
  have h0 := hinv acts fun a ha => hu a (List.mem_append_left _ ha)
  have key : ∀ r : List DAct, UntabledD (acts ++ r.reverse) → Dead n (run P (acts ++ r.reverse)) ∧
      ∀ c x, .call c x ∈ (run P (acts ++ r.reverse)).trace → WellFormed x → ckOf x = n →
        answers (run P (acts ++ r.reverse)).trace c = answers (run P acts).trace c := by
    intro r
    induction r with
    | nil =>
      intro _
      rw [List.reverse_nil, List.append_nil]
      exact ⟨dead_of h0 ha hn hi, fun _ _ _ _ _ => rfl⟩
    | cons a r ih =>
      intro hl
      rw [List.reverse_cons, ← List.append_assoc] at hl ⊢
      have hl' : UntabledD (acts ++ r.reverse) := fun b hb => hl b (List.mem_append_left _ hb)
      obtain ⟨d1, d2⟩ := ih hl'
      have h1 := hinv _ hl'
      have h2 := hinv _ hl
      obtain ⟨s1, s2, s3⟩ := dead_step h1 d1 a
      rw [run_snoc] at h2 ⊢
      refine ⟨s1, fun c x hc hw hx => ?_⟩
      by_cases hold : .call c x ∈ (run P (acts ++ r.reverse)).trace
      · rw [← d2 c x hold hw hx]
        by_cases hz : answers (run P (acts ++ r.reverse)).trace c = 0
        · refine s2 c ?_
          rcases h1.rest c ((h1.called c).mpr ⟨x, hold⟩) hz with hh | ⟨m, e, he, hm⟩
          · nomatch hh
          · obtain ⟨y, hy, hyc⟩ := List.mem_map.mp hm
            obtain ⟨k1, _, k3⟩ := (h1.entry m e he).calls y.1 y.2 hy
            rw [hyc] at k1
            rw [← h1.unique c _ _ hold k1, hx] at k3
            subst k3
            exact ⟨e, he, hm⟩
        · have q1 := h2.once c
          have q2 : answers (run P (acts ++ r.reverse)).trace c ≤ answers ((run P (acts ++ r.reverse)).step P a).trace c := by
            obtain ⟨L, hL⟩ := step_trace P a (run P (acts ++ r.reverse))
            rw [hL, answers_append]
            omega
          omega
      · rcases s3 c x hc hw hx with hh | hh
        · exact absurd hh hold
        · rw [hh]
          refine (h0.early c ?_).symm
          by_contra hlt
          obtain ⟨y, hy⟩ := (h0.called c).mp (by omega)
          obtain ⟨L, hL⟩ := run_trace P acts r.reverse
          have hy' : .call c y ∈ (run P (acts ++ r.reverse)).trace := by rw [hL]; exact List.mem_append_left _ hy
          obtain ⟨L', hL'⟩ := step_trace P a (run P (acts ++ r.reverse))
          have hy'' : .call c y ∈ ((run P (acts ++ r.reverse)).step P a).trace := by rw [hL']; exact List.mem_append_left _ hy'
          rw [h2.unique c _ _ hc hy''] at hold
          exact hold hy'
  have hk := key more.reverse
  rw [List.reverse_reverse] at hk
  obtain ⟨d1, d2⟩ := hk hu
  have h1 := hinv _ hu
  refine ⟨fun b hb => ?_, fun id job hm => dead_job h1 d1 hm, d2⟩
  obtain ⟨e, g1, g2⟩ := h1.retrieved n b hb
  obtain ⟨e', k1, k2, _⟩ := d1
  rw [g1] at k1
  cases k1
  rw [g2] at k2
  nomatch k2

/-! ### How many Interests are sent -/

/-- The Interests that can still follow an outstanding one. -/
def left : Job → Nat
  | .ck _ _ n => n - 1 + 3
  | .kdk _ _ _ _ n => n - 1

def credit (l : List (Nat × Job)) : Nat := (l.map fun x => left x.2).sum

def cost (s : Decryptor) : Nat := interests s.trace + credit s.outstanding

theorem take_credit {id : Nat} {job : Job} : ∀ {l rest : List (Nat × Job)}, Fetch.Fetcher.take id l = some (job, rest) → credit l = left job + credit rest
  | [], _, h => nomatch h
  | (k, a) :: l, rest, h => by
    unfold Fetch.Fetcher.take at h
    split at h
    · cases h; rfl
    · obtain ⟨⟨y1, y2⟩, hy, he⟩ := Option.map_eq_some_iff.mp h
      cases he
      have := take_credit hy
      unfold credit at this ⊢
      simp only [List.map_cons, List.sum_cons] at this ⊢
      omega

theorem credit_append (a b : List (Nat × Job)) : credit (a ++ b) = credit a + credit b := by
  unfold credit
  rw [List.map_append, List.sum_append]

theorem credit_filter (p : Nat × Job → Bool) : ∀ l, credit (l.filter p) ≤ credit l
  | [] => Nat.le_refl _
  | x :: l => by
    have := credit_filter p l
    unfold credit at this ⊢
    rw [List.filter_cons]
    split <;> simp only [List.map_cons, List.sum_cons] <;> omega

theorem dictSet_length {n : Name} {e v : Entry} : ∀ {l : List (Name × Entry)}, dictGet n l = some e → (dictSet n v l).length = l.length
  | [], h => nomatch h
  | (k, x) :: l, h => by
    unfold dictSet
    unfold PSync.dictGet at h
    split
    · rfl
    · next hk =>
      rw [if_neg hk] at h
      rw [List.length_cons, List.length_cons, dictSet_length h]

theorem dictSet_length_new {n : Name} {v : Entry} : ∀ {l : List (Name × Entry)}, dictGet n l = none → (dictSet n v l).length = l.length + 1
  | [], _ => rfl
  | (k, x) :: l, h => by
    unfold dictSet
    unfold PSync.dictGet at h
    split
    · next hk => rw [if_pos hk] at h; nomatch h
    · next hk =>
      rw [if_neg hk] at h
      rw [List.length_cons, List.length_cons, dictSet_length_new h]

/-- A method spends at most `k`, and makes no new ContentKey. -/
structure Spends (k : Nat) (s s' : Decryptor) : Prop where
  le : cost s' ≤ cost s + k
  entries : s'.entries.length = s.entries.length

variable {k : Nat} {s s' s'' : Decryptor}

theorem Spends.mono {k' : Nat} (h : Spends k s s') (hk : k ≤ k') : Spends k' s s' := ⟨by have := h.le; omega, h.entries⟩
theorem Spends.trans {k' : Nat} (h : Spends k s s') (g : Spends k' s' s'') : Spends (k + k') s s'' :=
  ⟨by have := h.le; have := g.le; omega, g.entries.trans h.entries⟩
theorem spends_of {x : Decryptor × Bool} {b : Bool} (e : x = (s', b)) (h : Spends k s x.1) : Spends k s s' := by subst e; exact h
theorem spends_free (h1 : s'.trace = s.trace) (h2 : s'.outstanding = s.outstanding) (h3 : s'.entries.length = s.entries.length) : Spends 0 s s' :=
  ⟨by unfold cost; rw [h1, h2]; exact Nat.le_refl _, h3⟩

theorem spends_update (n : Name) (f : Entry → Entry) (s : Decryptor) : Spends 0 s (updateEntry n f s) := by
  refine spends_free rfl rfl ?_
  unfold updateEntry
  dsimp only
  split
  · next e he => exact dictSet_length he
  · rfl

theorem spends_emit (s : Decryptor) (e : DEv) (he : ∀ id i, e ≠ .express id i) : Spends 0 s (s.emit e) := by
  refine ⟨?_, rfl⟩
  show interests (s.trace ++ [e]) + _ ≤ _
  unfold interests cost interests
  rw [List.countP_append]
  cases e with
  | express id i => exact absurd rfl (he id i)
  | _ => exact Nat.le_refl _

theorem spends_error (c : Nat) (code : Code) (s : Decryptor) : Spends 0 s (error P c code s).1 := spends_emit _ _ (by nofun)

theorem spends_tryDo {m h : Do} (hm : Spends k s (m s).1) (hh : ∀ s, Spends 0 s (h s).1) : Spends k s (tryDo m h s).1 := by
  unfold tryDo
  split
  · next s' e => exact ((spends_of e hm).trans (hh _)).mono (Nat.le_refl _)
  · next s' e => exact spends_of e hm

theorem spends_express (n : Name) (o : Nat) (i : Interest) (job : Job) (env : Env) (s : Decryptor) :
    Spends (1 + left job) s (expressFor P n o i job env s).1 := by
  have h0 : ∀ l : List (Nat × Job), credit l ≤ left job →
      Spends (1 + left job) s { ({ s with nextId := s.nextId + 1 }.emit (.express s.nextId i)) with outstanding := s.outstanding ++ l } := by
    intro l hl
    refine ⟨?_, rfl⟩
    show interests (s.trace ++ [_]) + credit (s.outstanding ++ l) ≤ interests s.trace + credit s.outstanding + _
    rw [credit_append]
    unfold interests
    rw [List.countP_append]
    show _ + 1 + _ ≤ _
    omega
  unfold expressFor
  dsimp only
  split
  · exact (h0 [(s.nextId, job)] (Nat.le_of_eq (Nat.add_zero _))).trans (spends_update _ _ _)
  · next tabled _ =>
    refine (h0 (if tabled then [(s.nextId, job)] else []) ?_).trans (spends_error _ _ _)
    split
    · exact Nat.le_of_eq (Nat.add_zero _)
    · exact Nat.zero_le _

theorem spends_doDecrypt (c : Nat) (x : EncryptedContent) (bits : Bytes) (s : Decryptor) : Spends 0 s (doDecrypt P c x bits s).1 := by
  unfold doDecrypt
  split
  · exact spends_error _ _ _
  · split
    · exact spends_error _ _ _
    · exact spends_emit _ _ (by nofun)

theorem spends_processPending (bits : Bytes) : ∀ (l : List (Nat × EncryptedContent)) (s : Decryptor), Spends 0 s (processPending P bits l s).1
  | [], s => spends_free rfl rfl rfl
  | (c, x) :: l, s => by
    unfold processPending
    have h1 := spends_doDecrypt (P := P) c x bits s
    split
    · next s' e => exact spends_of e h1
    · next s' e => exact (spends_of e h1).trans (spends_processPending bits l s')

theorem spends_kc (s : Decryptor) (kc : KC) : Spends 0 s { s with kc := kc } := spends_free rfl rfl rfl

theorem spends_decryptCk (n : Name) (ck : Data) (key : Name) (o : Nat) (s : Decryptor) : Spends 0 s (decryptCk P n ck key o s).1 := by
  unfold decryptCk
  split
  · exact spends_error _ _ _
  · exact spends_error _ _ _
  · split
    · exact (spends_kc s _).trans (spends_error _ _ _)
    · exact (spends_kc s _).trans (spends_error _ _ _)
    · next p kc _ =>
      dsimp only
      split
      · exact (spends_kc s _).trans (spends_error _ _ _)
      · next bits _ =>
        have h1 : Spends 0 s ((updateEntry n (fun e => { e with bits := some bits }) { s with kc := kc }).emit (.retrieved n bits)) :=
          ((spends_kc s kc).trans (spends_update _ _ _)).trans (spends_emit _ _ (by nofun))
        split
        · next s' e => exact h1.trans (spends_of e (spends_processPending _ _ _))
        · next s' e => exact (h1.trans (spends_of e (spends_processPending _ _ _))).trans (spends_update _ _ _)

theorem spends_onCkData (n : Name) (o : Nat) (d : Data) (env : Env) (s : Decryptor) : Spends 3 s (onCkData P n o d env s).1 := by
  unfold onCkData
  refine spends_tryDo ?_ fun s => spends_error _ _ _
  dsimp only
  refine ((spends_update n (fun e => { e with pendingId := 0 }) s).trans (k' := 3) ?_).mono (Nat.le_refl _)
  show Spends 3 (setPending n 0 s) _
  generalize setPending n 0 s = s0
  split
  · exact (spends_error _ _ _).mono (by omega)
  · split
    · exact ((spends_kc s0 _).trans (spends_decryptCk _ _ _ _ _)).mono (by omega)
    · exact ((spends_kc s0 _).trans (spends_express _ _ _ (.kdk n _ d o 3) _ _)).mono (Nat.le_refl _)
    · exact (spends_kc s0 _).mono (by omega)

theorem spends_onKdkData (n p : Name) (ck : Data) (o : Nat) (d : Data) (env : Env) (s : Decryptor) : Spends 0 s (onKdkData P n p ck o d env s).1 := by
  unfold onKdkData
  refine spends_tryDo ?_ fun s => spends_error _ _ _
  dsimp only
  refine (spends_update n (fun e => { e with pendingId := 0 }) s).trans (k' := 0) ?_
  show Spends 0 (setPending n 0 s) _
  generalize setPending n 0 s = s0
  split
  · exact (spends_kc s0 _).trans (spends_decryptCk _ _ _ _ _)
  · exact (spends_kc s0 _).trans (spends_tryDo (spends_error _ _ _) fun s => spends_error _ _ _)
  · exact (spends_kc s0 _).trans (spends_error _ _ _)

theorem spends_cancelPending : ∀ (l : List (Nat × EncryptedContent)) (s : Decryptor), Spends 0 s (cancelPending P l s).1
  | [], s => spends_free rfl rfl rfl
  | (c, x) :: l, s => by
    unfold cancelPending
    have h1 := spends_error (P := P) c .ckRetrievalFailure s
    split
    · next s' e => exact spends_of e h1
    · next s' e => exact (spends_of e h1).trans (spends_cancelPending l s')

theorem spends_shutdownLoop : ∀ (l : List (Name × Entry)) (s : Decryptor), Spends 0 s (shutdownLoop P l s).1
  | [], s => spends_free rfl rfl rfl
  | (n, e) :: l, s => by
    unfold shutdownLoop
    split
    · have h1 : Spends 0 s { s with outstanding := s.outstanding.filter fun x => x.1 ≠ e.pendingId } :=
        ⟨Nat.add_le_add_left (credit_filter (fun x => x.1 ≠ e.pendingId) s.outstanding) (interests s.trace), rfl⟩
      have h2 := (h1.trans (spends_update n (fun e => { e with pendingId := 0 }) _)).trans (spends_cancelPending (P := P) e.pending (setPending n 0 _))
      dsimp only
      split
      · next s' e => exact spends_of e h2
      · next s' e => exact ((spends_of e h2).trans (spends_update _ _ _)).trans (spends_shutdownLoop l _)
    · exact spends_shutdownLoop l s

theorem bounded_step (P : DecParams) (s : Decryptor) (h : cost s ≤ 6 * s.entries.length) (a : DAct) : cost (s.step P a) ≤ 6 * (s.step P a).entries.length := by
  have fin : ∀ {s'}, Spends 0 s s' → cost s' ≤ 6 * s'.entries.length := fun g => by have := g.le; rw [g.entries]; omega
  have taken : ∀ {id job rest s'}, Fetch.Fetcher.take id s.outstanding = some (job, rest) → ∀ {k}, k ≤ left job → Spends k { s with outstanding := rest } s' →
      cost s' ≤ 6 * s'.entries.length := by
    intro id job rest s' ht k hk g
    refine fin ⟨?_, g.entries⟩
    have h1 : cost s' ≤ interests s.trace + credit rest + k := g.le
    have h2 := take_credit ht
    have h3 : cost s = interests s.trace + credit s.outstanding := rfl
    omega
  cases a with
  | decrypt x env =>
    show cost (decrypt P x env s).1 ≤ 6 * (decrypt P x env s).1.entries.length
    unfold decrypt
    dsimp only
    have h1 : Spends 0 s ({ s with calls := s.calls + 1 }.emit (.call s.calls x)) :=
      (spends_free (s := s) (s' := { s with calls := s.calls + 1 }) rfl rfl rfl).trans (spends_emit { s with calls := s.calls + 1 } (.call s.calls x) (by nofun))
    generalize ({ s with calls := s.calls + 1 }.emit (.call s.calls x)) = s1 at h1
    split
    · exact fin (h1.trans (spends_error _ _ _))
    · split
      · exact fin (h1.trans (spends_error _ _ _))
      · split
        · split
          · exact fin (h1.trans (spends_doDecrypt _ _ _ _))
          · exact fin (h1.trans (spends_update _ _ _))
        · next hn =>
          have g := spends_express (P := P) x.keyLocator.keyName s.calls { name := x.keyLocator.keyName, mustBeFresh := false, maxSuffix := none }
            (.ck x.keyLocator.keyName s.calls 3) env { s1 with entries := dictSet x.keyLocator.keyName { pending := [(s.calls, x)] } s1.entries }
          have e1 := g.entries
          have e2 := g.le
          rw [show ({ s1 with entries := dictSet x.keyLocator.keyName { pending := [(s.calls, x)] } s1.entries } : Decryptor).entries.length = s1.entries.length + 1 from
            dictSet_length_new hn, h1.entries] at e1
          have e3 : cost ({ s1 with entries := dictSet x.keyLocator.keyName { pending := [(s.calls, x)] } s1.entries } : Decryptor) = cost s1 := rfl
          have e4 := h1.le
          unfold fetchCk
          rw [e1]
          have e5 : left (.ck x.keyLocator.keyName s.calls 3) = 5 := rfl
          rw [e5] at e2
          omega
  | data id d env =>
    unfold step
    dsimp only
    split
    · next n o i rest ht => exact taken ht (k := 3) (by dsimp only [left]; omega) (spends_onCkData _ _ _ _ _)
    · next n p ck o i rest ht => exact taken ht (k := 0) (Nat.zero_le _) (spends_onKdkData _ _ _ _ _ _ _)
    · exact h
  | timeout id env =>
    unfold step
    dsimp only
    split
    · next job rest ht =>
      unfold onTimeout
      cases job with
      | ck n o i =>
        dsimp only
        split
        · next hi =>
          refine taken ht (k := 0 + (1 + left (.ck n o (i - 1)))) ?_ ((spends_update _ _ _).trans (spends_express n o _ (.ck n o (i - 1)) env _))
          dsimp only [left]; omega
        · exact taken ht (k := 0 + 0) (Nat.zero_le _) ((spends_update _ _ _).trans (spends_error _ _ _))
      | kdk n p ck o i =>
        dsimp only
        split
        · next hi =>
          refine taken ht (k := 0 + (1 + left (.kdk n p ck o (i - 1)))) ?_ ((spends_update _ _ _).trans (spends_express n o _ (.kdk n p ck o (i - 1)) env _))
          dsimp only [left]; omega
        · exact taken ht (k := 0 + 0) (Nat.zero_le _) ((spends_update _ _ _).trans (spends_error _ _ _))
    · exact h
  | nack id =>
    unfold step
    dsimp only
    split
    · next job rest ht =>
      unfold onNetworkNack
      cases job <;> exact taken ht (k := 0 + 0) (Nat.zero_le _) ((spends_update _ _ _).trans (spends_error _ _ _))
    · exact h
  | shutdown => exact fin (spends_shutdownLoop s.entries s)

/-- C69: the decryptor sends at most six Interests for each CK, however often it is asked for: three for the CK packet and three for the KDK. -/
theorem C69_bounded (P : DecParams) (hr : ∀ c, P.raises c = false) (acts : List DAct) (hu : UntabledD acts) (names : List Name)
    (hn : ∀ c x, .call c x ∈ (run P acts).trace → ckOf x ∈ names) : interests (run P acts).trace ≤ 6 * names.length := by
  have h := run_inv hr acts hu
  have hb : cost (run P acts) ≤ 6 * (run P acts).entries.length :=
    run_induction P (Q := fun _ s => cost s ≤ 6 * s.entries.length) (Nat.zero_le _) (fun acts a ih => bounded_step P _ ih a) acts
  have hl : (run P acts).entries.length ≤ names.length := by
    have := PyNDN.Validator.length_le_of_nodup_subset ((run P acts).entries.map (·.1)) names h.keys fun m hm => by
      obtain ⟨⟨m', e⟩, hx, rfl⟩ := List.mem_map.mp hm
      obtain ⟨c, x, k1, _, k3⟩ := h.known m' e (dictGet_mem h.keys hx)
      dsimp only
      rw [← k3]
      exact hn c x k1
    rw [List.length_map] at this
    exact this
  have : cost (run P acts) = interests (run P acts).trace + credit (run P acts).outstanding := rfl
  omega

end Decryptor
end Nac
end PyNDN
