import Verif.Spec.Producer
import Verif.Lemmas.GroupPackets
import Verif.Lemmas.PSyncUsers
import Verif.Props.ExcludeRange
/-
Lemmas about the producer: what holds after each step, in the manner of weakest preconditions.
-/
namespace PyNDN.Producer
open EncV1 Spec.Producer
open Encrypt (pyRound)
open Group (isoComponent)
open PSync (dictGet dictSet dictDel)
open _root_.PyNDN.Spec.Group (Sealed Stamp KeyOk)
open _root_.PyNDN.Spec.PibSqlite (upd)

/-- `Q` holds after `m` if it does not raise, and `E` if it raises. -/
def Wp (m : M α) (s : St) (Q : α → St → Prop) (E : St → Prop) : Prop :=
  match m s with
  | (.ok a, s') => Q a s'
  | (.error _, s') => E s'

variable {α β : Type} {Q : α → St → Prop} {E : St → Prop} {s : St}

theorem Wp.imp {m : M α} {Q' : α → St → Prop} {E' : St → Prop} (h : Wp m s Q E) (hq : ∀ a s', Q a s' → Q' a s') (he : ∀ s', E s' → E' s') :
    Wp m s Q' E' := by
  unfold Wp at *
  revert h
  rcases m s with ⟨r | r, s'⟩
  · exact fun h => he _ h
  · exact fun h => hq _ _ h

theorem wp_bind {m : M β} {f : β → M α} : Wp (m >>= f) s Q E ↔ Wp m s (fun a s' => Wp (f a) s' Q E) E := by
  show Wp (M.bind m f) s Q E ↔ _
  unfold Wp M.bind
  rcases m s with ⟨r | r, s'⟩ <;> exact Iff.rfl
theorem wp_pure {a : α} : Wp (pure a) s Q E ↔ Q a s := Iff.rfl
theorem wp_raise {e : Err} : Wp (raise e) s Q E ↔ E s := Iff.rfl
theorem wp_lifted {x : Except Err α} : Wp (lifted x) s Q E ↔ (∀ a, x = .ok a → Q a s) ∧ (∀ e, x = .error e → E s) := by
  unfold Wp lifted
  cases x with
  | error e => exact ⟨fun h => ⟨(fun a k => nomatch k), fun _ _ => h⟩, fun h => h.2 e rfl⟩
  | ok a => exact ⟨fun h => ⟨fun b k => by cases k; exact h, fun _ k => nomatch k⟩, fun h => h.1 a rfl⟩
theorem wp_get {Q : St → St → Prop} : Wp get s Q E ↔ Q s s := Iff.rfl
theorem wp_modify {Q : Unit → St → Prop} {f : St → St} : Wp (modify f) s Q E ↔ Q () (f s) := Iff.rfl
theorem wp_hasContentKey {Q : Bool → St → Prop} {t : ℚ} : Wp (hasContentKey t) s Q E ↔ Q (dictGet (hour t) s.db).isSome s := Iff.rfl
theorem wp_getContentKey {Q : Bytes → St → Prop} {t : ℚ} :
    Wp (getContentKey t) s Q E ↔ (∀ k, dictGet (hour t) s.db = some k → Q k s) ∧ (dictGet (hour t) s.db = none → E s) := by
  unfold getContentKey
  rw [wp_bind, wp_get]
  cases h : dictGet (hour t) s.db with
  | none => exact ⟨fun k => ⟨(fun _ k => nomatch k), fun _ => k⟩, fun k => k.2 rfl⟩
  | some v => exact ⟨fun k => ⟨fun _ j => by cases j; exact k, fun k => nomatch k⟩, fun k => k.1 _ rfl⟩
theorem wp_getRequest {Q : KeyRequest → St → Prop} {tc : Int} :
    Wp (getRequest tc) s Q E ↔ (∀ r, dictGet tc s.requests = some r → Q r s) ∧ (dictGet tc s.requests = none → E s) := by
  unfold getRequest
  rw [wp_bind, wp_get]
  cases h : dictGet tc s.requests with
  | none => exact ⟨fun k => ⟨(fun _ k => nomatch k), fun _ => k⟩, fun k => k.2 rfl⟩
  | some v => exact ⟨fun k => ⟨fun _ j => by cases j; exact k, fun k => nomatch k⟩, fun k => k.1 _ rfl⟩
theorem wp_setRequest {Q : Unit → St → Prop} {tc : Int} {r : KeyRequest} :
    Wp (setRequest tc r) s Q E ↔ Q () { s with requests := dictSet tc r s.requests } := Iff.rfl
theorem wp_setAttempts {Q : Unit → St → Prop} {tc : Int} {n : Name} {k : Nat} :
    Wp (setAttempts tc n k) s Q E ↔ (∀ r, dictGet tc s.requests = some r →
      Q () { s with requests := dictSet tc { r with attempts := dictSet n k r.attempts } s.requests }) ∧ (dictGet tc s.requests = none → E s) := by
  unfold setAttempts
  rw [wp_bind, wp_getRequest]
  exact Iff.rfl

/-- The state after an Interest was expressed. -/
def sendS (s : St) (n : Name) (x : Exclude) (t : ℚ) (cb : Option Nat) (again : Bool) : St :=
  { s with
    pending := s.pending ++ [⟨s.next, n, x, t, cb⟩]
    next := s.next + 1
    out := s.out ++ [.sent ⟨s.next, n, x, t, cb⟩ again] }
theorem wp_send {Q : Unit → St → Prop} {n : Name} {x : Exclude} {t : ℚ} {cb : Option Nat} {again : Bool} :
    Wp (sendKeyInterest n x t cb again) s Q E ↔ Q () (sendS s n x t cb again) := Iff.rfl

/-- The state after `_updateKeyRequest`. -/
def updateS (s : St) (tc : Int) (cb : Option Nat) (r : KeyRequest) : St :=
  match cb with
  | some cb =>
    if r.count - 1 = 0 then { s with out := s.out ++ [.keys cb r.keys], requests := dictDel tc (dictSet tc { r with count := r.count - 1 } s.requests) }
    else { s with requests := dictSet tc { r with count := r.count - 1 } s.requests }
  | none => { s with requests := dictSet tc { r with count := r.count - 1 } s.requests }
theorem wp_update {Q : Unit → St → Prop} {tc : Int} {cb : Option Nat} :
    Wp (updateKeyRequest tc cb) s Q E ↔ (∀ r, dictGet tc s.requests = some r → Q () (updateS s tc cb r)) ∧ (dictGet tc s.requests = none → E s) := by
  unfold updateKeyRequest
  rw [wp_bind, wp_getRequest]
  refine and_congr (forall_congr' fun r => forall_congr' fun _ => ?_) Iff.rfl
  rw [wp_bind, wp_setRequest]
  unfold updateS
  dsimp only
  cases cb with
  | none =>
    split
    · rename_i h; nomatch h
    · exact Iff.rfl
  | some cb =>
    dsimp only
    by_cases h : r.count - 1 = 0
    · rw [if_pos h]
      simp only [h]
      exact Iff.rfl
    · rw [if_neg h]
      split
      · rename_i h2 _; exact absurd h2 h
      · exact Iff.rfl

/-! ### Dictionaries -/

theorem keys_set {κ ν : Type} [DecidableEq κ] {k : κ} {v w : ν} : ∀ {d : List (κ × ν)}, dictGet k d = some w → (dictSet k v d).map (·.1) = d.map (·.1)
  | [], h => nomatch h
  | (k', w') :: d, h => by
    unfold dictGet at h
    unfold dictSet
    by_cases e : k' = k
    · rw [if_pos e]; simp [e]
    · rw [if_neg e] at h
      rw [if_neg e, List.map_cons, keys_set h]; rfl

theorem keys_del {κ ν : Type} [DecidableEq κ] (k : κ) (d : List (κ × ν)) : (dictDel k d).map (·.1) = (d.map (·.1)).filter (· ≠ k) := by
  unfold dictDel
  induction d with
  | nil => rfl
  | cons x d ih =>
    by_cases e : x.1 = k
    · rw [List.filter_cons_of_neg (by simp [e]), List.map_cons, List.filter_cons_of_neg (by simp [e]), ih]
    · rw [List.filter_cons_of_pos (by simp [e]), List.map_cons, List.map_cons, List.filter_cons_of_pos (by simp [e]), ih]

theorem mem_keys {κ ν : Type} [DecidableEq κ] {k : κ} {d : List (κ × ν)} : k ∈ d.map (·.1) ↔ ∃ v, dictGet k d = some v := by
  rw [← not_iff_not, ← PSync.dictGet_none]
  cases dictGet k d <;> simp

theorem countP_del {κ : Type} [DecidableEq κ] {l : List κ} (hn : l.Nodup) {k : κ} (hk : k ∈ l) (p : κ → Bool) :
    l.countP p = (l.filter (· ≠ k)).countP p + if p k then 1 else 0 := by
  induction l with
  | nil => nomatch hk
  | cons a l ih =>
    obtain ⟨h1, h2⟩ := List.nodup_cons.mp hn
    by_cases e : a = k
    · subst e
      rw [List.filter_cons_of_neg (by simp), List.filter_eq_self.mpr, List.countP_cons]
      intro b hb
      have : b ≠ a := by rintro rfl; exact h1 hb
      simpa using this
    · rw [List.filter_cons_of_pos (by simpa using e), List.countP_cons, List.countP_cons, ih h2 (List.mem_of_ne_of_mem (Ne.symm e) hk)]
      omega

/-! ### Time stamps -/

theorem pyRound_le {t : ℚ} {k : Int} (h : t ≤ k) : pyRound t ≤ k := by
  have := Encrypt.pyRound_bounds t
  by_contra hc
  have hc' : k + 1 ≤ pyRound t := by omega
  have : ((k + 1 : Int) : ℚ) ≤ pyRound t := by exact_mod_cast hc'
  push_cast at this
  have h2 := Encrypt.pyRound_bounds t
  linarith [h2.1, h2.2]

theorem le_pyRound {t : ℚ} {k : Int} (h : (k : ℚ) ≤ t) : k ≤ pyRound t := by
  exact le_trans (Int.le_floor.mpr h) (Encrypt.pyRound_bounds t).1

theorem iso_ok {x : ℚ} (h : IsoTime (pyRound (x / 1000) * 1000)) :
    ∃ c, isoComponent x = .ok c ∧ Stamp c (pyRound (x / 1000) * 1000) ∧ stampTime c = .ok (pyRound (x / 1000) * 1000) := by
  obtain ⟨s, h1, h2, h3⟩ := iso_roundtrip _ h
  refine ⟨.generic (asciiBytes s), ?_, ⟨h.1, s, h1, rfl⟩, ?_⟩
  · unfold isoComponent
    rw [h1]; rfl
  · show (utf8Decode (asciiBytes s) >>= fun v => fromIsoString v) = _
    rw [h2]; exact h3

theorem iso_int {ms : Int} (h : IsoTime ms) : pyRound ((ms : ℚ) / 1000) * 1000 = ms := by
  have : ((ms : ℚ) / 1000) = ((ms / 1000 : Int) : ℚ) := by
    have h2 : ms = ms / 1000 * 1000 := by have := h.1; omega
    have h3 : (ms : ℚ) = ((ms / 1000 : Int) : ℚ) * 1000 := by exact_mod_cast h2
    rw [h3]; field_simp
  rw [this, Group.pyRound_int]
  have := h.1
  omega

theorem stamp_int {ms : Int} (h : IsoTime ms) : ∃ c, isoComponent ms = .ok c ∧ Stamp c ms ∧ stampTime c = .ok ms := by
  have := iso_ok (x := ms) (by rw [iso_int h]; exact h)
  rwa [iso_int h] at this

theorem stamp_slot {t : ℚ} (h : InYears t) : ∃ c, isoComponent t = .ok c ∧ StampOf c t := by
  obtain ⟨h1, h2⟩ := h
  have a : (-30610224000 : Int) ≤ pyRound (t / 1000) := le_pyRound (by push_cast; linarith)
  have b : pyRound (t / 1000) ≤ 253402300799 := pyRound_le (by push_cast; linarith)
  obtain ⟨c, k1, k2, _⟩ := iso_ok (x := t) ⟨by omega, by omega, by omega⟩
  exact ⟨c, k1, k2⟩

theorem hour_iso {t : ℚ} (h : InYears t) : IsoTime (hour t * 3600000) := by
  obtain ⟨h1, h2⟩ := h
  have a : (-30610224000000 : Int) ≤ pyRound t := le_pyRound (by push_cast; linarith)
  have b : pyRound t ≤ 253402300799000 := pyRound_le (by push_cast; linarith)
  unfold hour
  refine ⟨by omega, by omega, by omega⟩

theorem stamp_hour {t : ℚ} (h : InYears t) : ∃ c, isoComponent (rounded t) = .ok c ∧ Stamp c (hour t * 3600000) := by
  obtain ⟨c, h1, h2, _⟩ := stamp_int (hour_iso h)
  exact ⟨c, h1, h2⟩

theorem hour_congr {t u : ℚ} (h : pyRound t = pyRound u) : hour t = hour u := by unfold hour; rw [h]

/-! ### Encryption -/

theorem asymmetric_eq (cipher : Bytes) (n : Name) : asymmetric cipher n = { algorithmType := some 3, keyLocator := { type := some 1, keyName := n }, payload := some cipher } := rfl

theorem ok_of_bind {x : Except Err β} {f : β → Except Err α} {b : α} (h : (x >>= f) = .ok b) : ∃ a, x = .ok a ∧ f a = .ok b := by
  cases x with
  | error e => nomatch h
  | ok a => exact ⟨a, rfl, h⟩

theorem encryptDataRsa_sealed {R : Rsa} {A : Nac.Aes} {data d : Data} {plain key : Bytes} {k : Name} {rnd : Random}
    (h1 : rnd.nonce.length = 16) (h2 : rnd.iv.length = 16) (h : encryptDataRsa R A data plain k key rnd = .ok d) :
    d.name = data.name ++ forC :: k ∧ d.metaInfo = data.metaInfo ∧ ∃ w, d.content = some w ∧ Sealed R A k key plain w := by
  unfold encryptDataRsa at h
  dsimp only at h
  cases hr : R.encrypt key plain rnd.pad1 with
  | raises e => rw [hr] at h; nomatch h
  | ok cipher =>
    rw [hr] at h
    dsimp only at h
    obtain ⟨w, hw, h3⟩ := ok_of_bind h
    cases h3
    exact ⟨rfl, rfl, w, rfl, .inl ⟨_, cipher, hr, hw⟩⟩
  | tooLong =>
    rw [hr] at h
    dsimp only at h
    obtain ⟨nc, hnc, h3⟩ := ok_of_bind h
    unfold encryptSymmetric at hnc
    rw [if_neg (by rw [h2]; simp)] at hnc
    cases hnc
    cases hr2 : R.encrypt key rnd.nonce rnd.pad2 with
    | raises e => rw [hr2] at h3; nomatch h3
    | tooLong => rw [hr2] at h3; nomatch h3
    | ok cipher =>
      rw [hr2] at h3
      dsimp only at h3
      obtain ⟨v, hv, h4⟩ := ok_of_bind h3
      obtain ⟨w, hw, h5⟩ := ok_of_bind h4
      cases h5
      exact ⟨rfl, rfl, _, rfl, .inr ⟨_, cipher, _, _, w, v, ⟨_, hr⟩, h1, h2, hr2, hw, hv, rfl⟩⟩

/-- The state after a packet was made. -/
def packetS (s : St) (tc : Int) (cb : Option Nat) (r : KeyRequest) (d : Data) : St :=
  updateS { s with requests := dictSet tc { r with keys := r.keys ++ [d] } s.requests } tc cb { r with keys := r.keys ++ [d] }

theorem wp_encrypt {P : Params} {Q : Bool → St → Prop} {key : Bytes} {name : Name} {t : ℚ} {cb : Option Nat} {rnd : Random}
    (hnone : dictGet (pyRound t) s.requests = none → E s) (hiso : ∀ e, isoComponent (rounded t) = .error e → E s) (hkey : dictGet (hour t) s.db = none → E s)
    (herr : ∀ r stamp k e, dictGet (pyRound t) s.requests = some r → isoComponent (rounded t) = .ok stamp → dictGet (hour t) s.db = some k →
      encryptDataRsa P.rsa P.aes { name := P.space ++ [cKeyC, stamp] } k name key rnd = .error e → Q false { s with out := s.out ++ [.error (pyRound t)] })
    (hsign : ∀ d e, P.sign d = .error e → E s)
    (hok : ∀ r stamp k d d', dictGet (pyRound t) s.requests = some r → isoComponent (rounded t) = .ok stamp → dictGet (hour t) s.db = some k →
      encryptDataRsa P.rsa P.aes { name := P.space ++ [cKeyC, stamp] } k name key rnd = .ok d → P.sign d = .ok d' →
      Q true (packetS s (pyRound t) cb r d')) :
    Wp (encryptContentKey P key name t cb rnd) s Q E := by
  unfold encryptContentKey
  dsimp only
  rw [wp_bind, wp_getRequest]
  refine ⟨fun r hr => ?_, hnone⟩
  rw [wp_bind, wp_lifted]
  refine ⟨fun stamp hs => ?_, fun e he => hiso e he⟩
  rw [wp_bind, wp_getContentKey]
  refine ⟨fun k hk => ?_, hkey⟩
  cases he : encryptDataRsa P.rsa P.aes { name := P.space ++ [cKeyC, stamp] } k name key rnd with
  | error e =>
    dsimp only
    rw [wp_bind, wp_modify, wp_pure]
    exact herr r stamp k e hr hs hk he
  | ok d =>
    dsimp only
    rw [wp_bind, wp_lifted]
    refine ⟨fun d' hd => ?_, fun e he => hsign d e he⟩
    rw [wp_bind, wp_getRequest]
    refine ⟨fun r2 hr2 => ?_, fun h => by rw [hr] at h; nomatch h⟩
    rw [hr] at hr2
    cases hr2
    rw [wp_bind, wp_setRequest, wp_bind, wp_update]
    refine ⟨fun r3 hr3 => ?_, fun h => ?_⟩
    · rw [Group.dictGet_set, if_pos rfl] at hr3
      cases hr3
      rw [wp_pure]
      exact hok r stamp k d d' hr hs hk he hd
    · rw [Group.dictGet_set, if_pos rfl] at h
      nomatch h

end PyNDN.Producer
