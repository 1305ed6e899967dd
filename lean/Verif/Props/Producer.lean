import Verif.Lemmas.ProducerRetry
import Verif.Lemmas.ProducerGiven
import Verif.Lemmas.ProducerExclude
/-
C77: the producer.
-/
namespace PyNDN.Producer
open Spec EncV1 Spec.Producer
open Encrypt (pyRound)
open Group (isoComponent)
open PSync (dictGet dictSet dictDel)
open _root_.PyNDN.Spec.ExcludeRange (Ordered Plain le)

variable {P : Params} {ops : List Op} {db : List (Int × Bytes)}

theorem reachable (hs : Sound P) (db : List (Int × Bytes)) (hf : ∀ op ∈ ops, Fine op) :
    Agree P (fun h => dictGet h db) ops (run P (new P db) ops).1 ∧
    ∃ T, J P (keysAfter (fun h => dictGet h db) ops) (fun t c => ∃ env, Op.create t (some c) env ∈ ops) T
      (fun c => creations c (fun h => dictGet h db) ops) (run P (new P db) ops).2 := by
  have h0 : J P (fun h => dictGet h db) (fun t c => ∃ env, Op.create t (some c) env ∈ ops) (fun _ => (0, none)) (fun _ => 0) (new P db) :=
    J.new P _ db _ 0 [] (fun _ => rfl) (fun _ _ h => nomatch h) (fun _ => le_refl _)
  obtain ⟨h1, T, h2⟩ := h0.run hs hf fun t c env h => ⟨env, h⟩
  refine ⟨h1, T, ?_⟩
  have : (fun c => 0 + creations c (fun h => dictGet h db) ops) = fun c => creations c (fun h => dictGet h db) ops := by funext c; omega
  rw [← this]
  exact h2

/-- C77: there is one content key per hour, made by the first call for the hour and never changed, not by failures and not by restarts; a data packet holds
the content encrypted with the content key of its hour, under the names of the time and of this key. -/
theorem C77_content_keys (hs : Sound P) (db : List (Int × Bytes)) (hf : ∀ op ∈ ops, Fine op) :
    Agree P (fun h => dictGet h db) ops (run P (new P db) ops).1 ∧
    ∀ h, dictGet h (run P (new P db) ops).2.db = keysAfter (fun h => dictGet h db) ops h := by
  obtain ⟨h1, T, h2⟩ := reachable hs db hf
  exact ⟨h1, h2.db⟩

/-- C77: each call of onEncryptedKeys is for a call of `createContentKey` with it, and gives at most one packet per node, each with the content key of the
time slot, encrypted with an E-KEY that was received for a node and whose period ends after the time slot. -/
theorem C77_sealed (hs : Sound P) (db : List (Int × Bytes)) (hf : ∀ op ∈ ops, Fine op) {cb : Nat} {l : List Data} (hl : Out.keys cb l ∈ (run P (new P db) ops).2.out) :
    ∃ t env, Op.create t (some cb) env ∈ ops ∧ l.length ≤ P.dataType.length ∧
      ∀ c ∈ l, Packet P (keysAfter (fun h => dictGet h db) ops) (run P (new P db) ops).2.out t c := by
  obtain ⟨_, T, h2⟩ := reachable hs db hf
  obtain ⟨t, ⟨env, h3⟩, h4, h5⟩ := h2.outs cb l hl
  exact ⟨t, env, h3, by rw [← nodes_length]; exact h4, h5⟩

/-- C77: onEncryptedKeys is called at most once for each call that made a content key. -/
theorem C77_once (hs : Sound P) (db : List (Int × Bytes)) (hf : ∀ op ∈ ops, Fine op) (cb : Nat) :
    calls cb (run P (new P db) ops).2.out ≤ creations cb (fun h => dictGet h db) ops := by
  obtain ⟨_, T, h2⟩ := reachable hs db hf
  exact le_trans (Nat.le_add_right _ _) (h2.once cb)

/-- C77: for each node and time slot there are at most `repeatAttempts` Interests after timeouts for each Interest that is not after a timeout. -/
theorem C77_retries (P : Params) (db : List (Int × Bytes)) (ops : List Op) (timeCount : Int) (n : Name) :
    sends true timeCount n (run P (new P db) ops).2.out ≤ P.maxRepeat * sends false timeCount n (run P (new P db) ops).2.out := by
  have h0 : R P (new P db) := ⟨fun _ _ => Nat.zero_le _, (fun _ _ _ _ h => nomatch h)⟩
  exact (R.run h0).bound timeCount n

/-- C77: if the answers match their Interests, the Interests exclude only the E-KEYs that begin at the time stamp of the time slot or later, and those that do
not begin later than one that was received for this node and time slot and was too old. -/
theorem C77_excluded (db : List (Int × Bytes)) (hf : ∀ op ∈ ops, Fine op) (hm : Matched (run P (new P db) ops).2.out) {p : Pending} {again : Bool}
    (hp : Out.sent p again ∈ (run P (new P db) ops).2.out) {c : Component} (hc : Plain c) (he : Excluded p.exclude c) : MayExclude (run P (new P db) ops).2.out p c := by
  have h0 : XM (new P db) := fun _ => ⟨(fun _ _ h => nomatch h), (fun _ h => nomatch h)⟩
  exact ((XM.run h0 hf hm).sent p again hp).2 c hc he

theorem hour_of (t : ℚ) : t - 1 / 2 ≤ pyRound t ∧ hour t * 3600000 ≤ pyRound t ∧ pyRound t < (hour t + 1) * 3600000 := by
  refine ⟨?_, ?_, ?_⟩
  · have h1 := Int.floor_le t
    have h2 := Int.lt_floor_add_one t
    unfold pyRound
    dsimp only
    split
    · linarith
    · split
      · push_cast; linarith
      · split
        · linarith
        · push_cast; linarith
  · unfold hour
    omega
  · unfold hour
    omega

theorem full (hs : Sound P) (hd : P.dataType ≠ []) (db : List (Int × Bytes)) (hf : ∀ op ∈ ops, Fine op) (hh : ∀ op ∈ ops, Honest P op) :
    (∀ r ∈ (run P (new P db) ops).1, ¬ r.Fails) ∧ ∃ T, F P (keysAfter (fun h => dictGet h db) ops) T (fun c => creations c (fun h => dictGet h db) ops) 0 0 (run P (new P db) ops).2 := by
  have h0 : J P (fun h => dictGet h db) (fun t c => ∃ env, Op.create t (some c) env ∈ ops) (fun _ => (0, none)) (fun _ => 0) (new P db) :=
    J.new P _ db _ 0 [] (fun _ => rfl) (fun _ _ h => nomatch h) (fun _ => le_refl _)
  obtain ⟨h1, T, h2⟩ := F.run hs hd h0 (F.new P db _) hf hh fun t c env h => ⟨env, h⟩
  refine ⟨h1, T, ?_⟩
  have : (fun c => 0 + creations c (fun h => dictGet h db) ops) = fun c => creations c (fun h => dictGet h db) ops := by funext c; omega
  rw [← this]
  exact h2

/-- C77: if all Data are E-KEYs that can be used, then nothing raises, and when no Interest is pending, onEncryptedKeys was called exactly once for each call
that made a content key.  Partial: not if one of the Data is not such an E-KEY (C77_lost). -/
theorem C77_called_partial (hs : Sound P) (hd : P.dataType ≠ []) (db : List (Int × Bytes)) (hf : ∀ op ∈ ops, Fine op) (hh : ∀ op ∈ ops, Honest P op) :
    (∀ r ∈ (run P (new P db) ops).1, ∀ e, r ≠ .raised e) ∧
    ((run P (new P db) ops).2.pending = [] → ∀ cb, calls cb (run P (new P db) ops).2.out = creations cb (fun h => dictGet h db) ops) := by
  obtain ⟨h1, T, h2⟩ := full hs hd db hf hh
  refine ⟨fun r hr e he => h1 r hr (by rw [he]; trivial), fun hp cb => h2.done hp cb⟩

/-- C77: if all Data are E-KEYs that can be used, then, when no Interest is pending, each E-KEY that was received, and did not end before the time slot, has
its packet among those given to onEncryptedKeys.  Partial: not if one of the Data is not such an E-KEY (C77_lost). -/
theorem C77_given_partial (hs : Sound P) (hd : P.dataType ≠ []) (db : List (Int × Bytes)) (hf : ∀ op ∈ ops, Fine op) (hh : ∀ op ∈ ops, Honest P op)
    (hp : (run P (new P db) ops).2.pending = []) {p : Pending} {d : Data} {b e : Int} {cb : Nat} (hm : Out.answered p d ∈ (run P (new P db) ops).2.out)
    (hper : Period d.name b e) (hlt : p.timeSlot < e) (hc : p.cb = some cb) :
    ∃ l c, Out.keys cb l ∈ (run P (new P db) ops).2.out ∧ c ∈ l ∧ MadeWith P p.timeSlot d c := by
  have h0 : J P (fun h => dictGet h db) (fun t c => ∃ env, Op.create t (some c) env ∈ ops) (fun _ => (0, none)) (fun _ => 0) (new P db) :=
    J.new P _ db _ 0 [] (fun _ => rfl) (fun _ _ h => nomatch h) (fun _ => le_refl _)
  obtain ⟨T, K, N, h1, h2⟩ := G.run hs hd h0 (F.new P db _) (fun _ h => nomatch h) hf hh fun t c env h => ⟨env, h⟩
  rcases h2 _ hm with h3 | h3
  · cases h3
  rcases h3 p d b e rfl hper hlt with ⟨r, c, k1, k2, _, _⟩ | ⟨cb', l, c, k1, k2, k3, k4⟩
  · refine absurd ?_ (h1.nz _ r k1 (by rw [k2, hc]; rfl))
    rw [h1.cnt _ r k1, hp]
    simp [open']
  · rw [hc] at k1
    cases k1
    exact ⟨l, c, k2, k3, k4⟩

/-- C77: the hour of a time, to the nearest millisecond. -/
theorem C77_hour (t : ℚ) : (hour t : ℚ) * 3600000 ≤ t + 1 / 2 ∧ t - 1 / 2 < ((hour t : ℚ) + 1) * 3600000 := by
  obtain ⟨h1, h2, h3⟩ := hour_of t
  have h4 : ((hour t * 3600000 : Int) : ℚ) ≤ pyRound t := by exact_mod_cast h2
  have h5 : ((pyRound t : Int) : ℚ) < ((hour t + 1) * 3600000 : Int) := by exact_mod_cast h3
  have h6 := (Encrypt.pyRound_bounds t).2
  push_cast at h4 h5
  exact ⟨by linarith, by linarith⟩

/-- C77: the answer to an E-KEY that is too old is another Interest, which excludes also this E-KEY and those that do not begin later. -/
theorem C77_next (hs : Sound P) (hd : P.dataType ≠ []) (db : List (Int × Bytes)) (hf : ∀ op ∈ ops, Fine op) (hh : ∀ op ∈ ops, Honest P op)
    (hm : Matched (run P (new P db) ops).2.out) {id : Nat} {p : Pending} (hp : (run P (new P db) ops).2.pending.find? (fun p => p.id = id) = some p) {d : Data} {env : Env} {rest : Name}
    {c1 c2 : Component} {b e : Int} (hn : d.name = rest ++ [c1, c2]) (h1 : stampTime c1 = .ok b) (h2 : stampTime c2 = .ok e) (hle : (e : ℚ) ≤ p.timeSlot) (hc1 : Plain c1)
    (hex : ¬ Excluded p.exclude c1) :
    ∃ q, (step P (run P (new P db) ops).2 (.data id d env)).2.out = (run P (new P db) ops).2.out ++ [.answered p d, .sent q false] ∧
      q.name = p.name ∧ q.timeSlot = p.timeSlot ∧ ∀ c, Plain c → (Excluded q.exclude c ↔ Excluded p.exclude c ∨ le c c1) := by
  obtain ⟨_, T, hF⟩ := full hs hd db hf hh
  have h0 : XM (new P db) := fun _ => ⟨(fun _ _ h => nomatch h), (fun _ h => nomatch h)⟩
  have hx := (XM.run h0 hf hm).pend p (List.mem_of_find?_eq_some hp)
  obtain ⟨r, a, hr, _⟩ := hF.live p (List.mem_of_find?_eq_some hp)
  generalize run P (new P db) ops = S at *
  obtain ⟨rs, s⟩ := S
  dsimp only at *
  obtain ⟨y, k1, k2, k3⟩ := ExcludeRange.C75_before_partial hx.1 hc1 ⟨c1, hc1, .inl rfl, hex⟩
  have hw : Wp (do
      modify fun s => { s with out := s.out ++ [.answered p d] }
      handleCoveringKey P p d env) { s with pending := s.pending.filter fun q => q.id ≠ id }
      (fun _ s' => ∃ q : Pending, s'.out = s.out ++ [.answered p d, .sent q false] ∧ q.name = p.name ∧ q.timeSlot = p.timeSlot ∧
        ∀ c, Plain c → (Excluded q.exclude c ↔ Excluded p.exclude c ∨ le c c1)) (fun _ => False) := by
    rw [wp_bind, wp_modify]
    unfold handleCoveringKey
    rw [wp_bind, wp_getRequest]
    refine ⟨fun r' hr' => ?_, fun h => by rw [hr] at h; nomatch h⟩
    have hl2 : lastTwo d.name = .ok (c1, c2) := by
      unfold lastTwo
      rw [hn]
      simp
    rw [hl2, wp_bind, wp_lifted]
    refine ⟨?_, fun _ h => nomatch h⟩
    rintro ⟨_, _⟩ h3
    cases h3
    dsimp only
    rw [h1, h2, wp_bind, wp_lifted]
    refine ⟨fun b' h4 => ?_, fun _ h => nomatch h⟩
    rw [wp_bind, wp_lifted]
    refine ⟨fun e' h5 => ?_, fun _ h => nomatch h⟩
    cases h5
    rw [if_pos hle, k1, wp_bind, wp_lifted]
    refine ⟨fun y' h6 => ?_, fun _ h => nomatch h⟩
    cases h6
    rw [wp_bind, wp_setAttempts]
    refine ⟨fun r'' _ => ?_, fun h => by rw [hr] at h; nomatch h⟩
    rw [wp_send]
    refine ⟨⟨s.next, p.name, y, p.timeSlot, p.cb⟩, ?_, rfl, rfl, k3⟩
    simp [sendS]
  show ∃ q, (answer id _ s).2.out = _ ∧ _
  unfold answer
  rw [hp]
  dsimp only
  rcases res_wp (f := fun _ => Res.none) hw with ⟨_, _, h⟩ | ⟨_, h⟩
  · exact h
  · exact h.elim

end PyNDN.Producer
