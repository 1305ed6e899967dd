import Verif.Model.HmacSign
import Verif.Lemmas.Read
import Verif.Props.KeySign
/-
Helper lemmas for C87: the signed portion tells what a Data packet says.
-/
namespace PyNDN
open Spec

theorem peekType_seen {inp off e e' t t'} {v : Bytes} {l} (h : At inp off e ((t, v) :: l)) (he : off < e') :
    (peekType t' e').run inp off = .ok (t == t', off) := by
  obtain ⟨rest, hd⟩ := h.head
  exact peekType_tlv h.bound.1 he hd

theorem readNestedTlvsStart_wrong {inp off e t t'} {v : Bytes} {l} (h : At inp off e ((t, v) :: l)) (ht : t ≠ t') :
    (readNestedTlvsStart t').run inp off = .error .value := by
  obtain ⟨rest, hd⟩ := h.head
  rw [tlv_append] at hd
  unfold readNestedTlvsStart
  rw [Dec.bind_error (readTypeAndLength_wrong h.bound.1 ht hd)]

theorem decodeSignatureInfo_wrong {inp off e t} {v : Bytes} {l} (h : At inp off e ((t, v) :: l)) (ht : t ≠ 22) :
    decodeSignatureInfo.run inp off = .error .value := by
  unfold decodeSignatureInfo
  rw [Dec.bind_ok (getOffset_run _ _), Dec.bind_error (readNestedTlvsStart_wrong h ht)]

theorem At.of_slice {w : Bytes} {b e : Nat} {l : List (Nat × Bytes)} (h : slice w b e = flat l) (hne : flat l ≠ [])
    (hl : (flat l).length < 2 ^ 64) (ht : ∀ p ∈ l, p.1 < 2 ^ 64) : At w b (b + (flat l).length) l := by
  refine ⟨⟨w.drop e, ?_⟩, rfl, fieldsOk_of_len hl ht⟩
  unfold slice at h
  have hbe : b ≤ e := by
    refine Classical.byContradiction fun hc => hne ?_
    rw [← h, List.drop_eq_nil_iff, List.length_take]
    omega
  rw [← h]
  have h1 := List.take_append_drop e w
  have h2 : (w.take e ++ w.drop e).drop b = (w.take e).drop b ++ w.drop e := by
    by_cases hb : b ≤ (w.take e).length
    · exact List.drop_append_of_le_length hb
    · exfalso
      refine hne ?_
      rw [← h, List.drop_eq_nil_iff]
      omega
  rw [h1] at h2
  exact h2

/-- Whatever the bytes are: if the decoder says that the signed portion is that of a Data packet, it gives what this packet says. -/
theorem data_of_signed {d r old : Data} {w : Bytes} {b e : Nat} {v : Bytes} (hd : DataOk d)
    (hv : encodeSignatureInfo d.signature.info [] = .ok (tlv 22 v))
    (hl : (flat (signedFields d v)).length < 2 ^ 64) (h : decodeData old w = .ok (r, b, e)) (hs : slice w b e = flat (signedFields d v)) :
    d.name = r.name ∧ SameMetaInfo d.metaInfo r.metaInfo ∧ d.content.getD [] = r.content.getD [] ∧
      SameSigInfo d.signature.info r.signature.info := by
  obtain ⟨v', _, hv', hdec⟩ := data_spec d hd
  have hvv : v' = v := by
    have h1 := hv' []
    rw [hv, flat_one, List.append_nil] at h1
    injection h1 with h1
    exact (KeyChain.tlv_inj' h1).symm
  subst hvv
  have hat : At w b _ (signedFields d v') := At.of_slice hs (by
    unfold signedFields
    rw [flat_cons]
    intro hc
    have h1 := congrArg List.length (List.append_eq_nil_iff.1 hc).1
    have h2 := tlv_length 7 (flat (nameFields d.name))
    have h3 := varNumberBytes_length_pos 7
    rw [List.length_nil] at h1
    dsimp only at h1
    omega) hl (by simp [signedFields])
  obtain ⟨hn, hm, hsi⟩ := hd
  unfold decodeData runDec at h
  split at h
  · rename_i x o hx
    obtain ⟨r', b', e'⟩ := x
    cases h
    unfold decodeDataFrom at hx
    obtain ⟨E, o1, h1, hx⟩ := Dec.bind_eq_ok.mp hx
    rw [Dec.bind_ok (getOffset_run _ _)] at hx
    obtain ⟨⟨n, n1, n2⟩, o2, h2, hx⟩ := Dec.bind_eq_ok.mp hx
    dsimp only at hx
    obtain ⟨mi, o3, h3, hx⟩ := Dec.bind_eq_ok.mp hx
    obtain ⟨ct, o4, h4, hx⟩ := Dec.bind_eq_ok.mp hx
    obtain ⟨si, o5, h5, hx⟩ := Dec.bind_eq_ok.mp hx
    rw [Dec.bind_ok (getOffset_run _ _)] at hx
    obtain ⟨sv, o6, h6, hx⟩ := Dec.bind_eq_ok.mp hx
    obtain ⟨_, o7, h7, hx⟩ := Dec.bind_eq_ok.mp hx
    rw [Dec.pure_run] at hx
    cases hx
    obtain ⟨p2, _, _, q1, q2, _⟩ := name_At hn hat
    rw [q1] at h2
    cases h2
    -- the meta info
    have hE : o2 < E := by
      refine Classical.byContradiction fun hc => ?_
      unfold optionally at h3
      rw [Dec.bind_ok (peekType_end (by omega))] at h3
      cases h3
      unfold readOptionalBlobTlv at h4
      rw [Dec.bind_ok (peekType_end (by omega))] at h4
      cases h4
      rw [decodeSignatureInfo_wrong q2 (by decide)] at h5
      cases h5
    obtain ⟨mi', o3', q3, q4, q5⟩ := decodeMetaInfo_At (old := old.metaInfo) hm q2
    unfold optionally at h3
    rw [Dec.bind_ok (peekType_seen q2 hE)] at h3
    have h3' : (decodeMetaInfo old.metaInfo).run w o2 = .ok (mi, o3) := h3
    rw [q3] at h3'
    cases h3'
    -- the content
    have hE2 : o3 < E := by
      refine Classical.byContradiction fun hc => ?_
      unfold readOptionalBlobTlv at h4
      rw [Dec.bind_ok (peekType_end (by omega))] at h4
      cases h4
      rw [decodeSignatureInfo_wrong q5 (by decide)] at h5
      cases h5
    obtain ⟨o4', q6, q7⟩ := readBlobTlv_At q5
    unfold readOptionalBlobTlv at h4
    rw [Dec.bind_ok (peekType_seen q5 hE2)] at h4
    have h4' : (do let v ← readBlobTlv 21; return some v : Dec (Option Bytes)).run w o3 = .ok (ct, o4) := h4
    rw [Dec.bind_ok q6] at h4'
    cases h4'
    obtain ⟨si', o5', q8, q9, q10⟩ := hdec _ _ _ _ q7
    rw [q8] at h5
    cases h5
    exact ⟨rfl, q4, rfl, q9⟩
  · cases h

/-! ### Names -/

theorem decodeNameComponent_bounds {w : Bytes} {off o : Nat} {c : Component} (h : decodeNameComponent.run w off = .ok (c, o)) :
    off < w.length ∧ off < o := by
  refine ⟨?_, Progress.decodeNameComponent _ _ _ _ h⟩
  unfold decodeNameComponent at h
  rw [Dec.bind_ok (getOffset_run _ _)] at h
  obtain ⟨t, o1, h1, _⟩ := Dec.bind_eq_ok.mp h
  obtain ⟨bs, h2, h3, _⟩ := readVarNumber_inv h1
  have h4 := varNumForm_pos h2
  refine Classical.byContradiction fun hc => ?_
  rw [List.drop_eq_nil_of_le (by omega)] at h3
  have h5 := (List.append_eq_nil_iff.1 h3.symm).1
  rw [h5] at h4
  exact absurd h4 (by decide)

/-- The body of the loop of `decodeNameFrom`. -/
def nameBody (s : Name × Nat) : Dec (Name × Nat) := do
  let signedPortionEndOffset ← getOffset
  let c ← decodeNameComponent
  return (s.1 ++ [c], signedPortionEndOffset)

theorem nameBody_ok {w : Bytes} {s s' : Name × Nat} {off o : Nat} (h : (nameBody s).run w off = .ok (s', o)) :
    ∃ c, decodeNameComponent.run w off = .ok (c, o) ∧ s' = (s.1 ++ [c], off) := by
  unfold nameBody at h
  rw [Dec.bind_ok (getOffset_run _ _)] at h
  obtain ⟨c, o1, h1, h2⟩ := Dec.bind_eq_ok.mp h
  rw [Dec.pure_run] at h2
  cases h2
  exact ⟨c, h1, rfl⟩

/-- One turn of the loop, or its end. -/
theorem nameLoop_step {w : Bytes} {E fuel off o : Nat} {s s' : Name × Nat} (h : (loopWhile E nameBody fuel s).run w off = .ok (s', o)) :
    (s' = s ∧ E ≤ off) ∨ ∃ f c o1, decodeNameComponent.run w off = .ok (c, o1) ∧ f < fuel ∧
      (loopWhile E nameBody f (s.1 ++ [c], off)).run w o1 = .ok (s', o) := by
  cases fuel with
  | zero =>
    unfold loopWhile at h
    rw [Dec.bind_ok (getOffset_run _ _)] at h
    split at h
    · cases h
    · rw [Dec.pure_run] at h
      cases h
      exact .inl ⟨rfl, by omega⟩
  | succ f =>
    unfold loopWhile at h
    rw [Dec.bind_ok (getOffset_run _ _)] at h
    split at h
    · obtain ⟨s1, o1, h1, h2⟩ := Dec.bind_eq_ok.mp h
      obtain ⟨c, h3, h4⟩ := nameBody_ok h1
      rw [h4] at h2
      exact .inr ⟨f, c, o1, h3, by omega, h2⟩
    · rw [Dec.pure_run] at h
      cases h
      exact .inl ⟨rfl, by omega⟩

theorem nameLoop_last {w : Bytes} {E : Nat} : ∀ (fuel off o : Nat) (s s' : Name × Nat),
    (loopWhile E nameBody fuel s).run w off = .ok (s', o) → s' = s ∨ (off ≤ s'.2 ∧ s'.2 < w.length) := by
  intro fuel
  induction fuel using Nat.strongRecOn with
  | ind fuel ih =>
    intro off o s s' h
    rcases nameLoop_step h with ⟨h1, _⟩ | ⟨f, c, o1, h1, hf, h2⟩
    · exact .inl h1
    · obtain ⟨b1, b2⟩ := decodeNameComponent_bounds h1
      rcases ih f hf _ _ _ _ h2 with h3 | h3
      · rw [h3]
        exact .inr ⟨Nat.le_refl _, b1⟩
      · exact .inr ⟨by omega, h3.2⟩

/-- If the loop sees the components of `n`, and the last component begins after them, then they are all but the last. -/
theorem nameLoop_at {w : Bytes} {E stop : Nat} (n : Name) (hc : CanonicalName n) : ∀ (fuel off o : Nat) (s s' : Name × Nat),
    At w off stop (nameFields n) → s.2 ≤ off → (n = [] → s.2 < off) → (loopWhile E nameBody fuel s).run w off = .ok (s', o) →
    s'.2 = stop → ∃ c, s'.1 = s.1 ++ n ++ [c] := by
  induction n with
  | nil =>
    intro fuel off o s s' ha h1 h2 h h3
    have hs : off = stop := ha.nil
    have h2 := h2 rfl
    rcases nameLoop_step h with ⟨h4, _⟩ | ⟨f, c, o1, h4, hf, h5⟩
    · rw [h4] at h3
      omega
    · have hb := decodeNameComponent_bounds h4
      rcases nameLoop_last _ _ _ _ _ h5 with h6 | h6
      · exact ⟨c, by rw [h6, List.append_nil]⟩
      · omega
  | cons c n ih =>
    intro fuel off o s s' ha h1 _ h h3
    obtain ⟨o2, q1, q2⟩ := decodeNameComponent_At (hc c (by simp)) ha
    have hlt := At.lt ha
    rcases nameLoop_step h with ⟨h4, _⟩ | ⟨f, c', o1, h4, hf, h5⟩
    · rw [h4] at h3
      omega
    · rw [q1] at h4
      cases h4
      have hb := decodeNameComponent_bounds q1
      obtain ⟨x, hx⟩ := ih (fun c hc' => hc c (by simp [hc'])) _ _ _ _ _ q2 (Nat.le_of_lt hb.2) (fun _ => hb.2) h5 h3
      exact ⟨x, by rw [hx]; simp⟩

theorem canonical_lt {c : Component} (h : Canonical c) : (key c).1 < 2 ^ 64 := by
  obtain ⟨t, v⟩ := c
  unfold Canonical at h
  cases t with
  | other k => exact h.2.2.2
  | implicit => exact (by decide : (1 : Nat) < 2 ^ 64)
  | params => exact (by decide : (2 : Nat) < 2 ^ 64)
  | generic => exact (by decide : (8 : Nat) < 2 ^ 64)

/-- Whatever the bytes are: if the signed portion of a decoded name is the components of `n`, then they are all but the last. -/
theorem name_of_signed {w : Bytes} {r n : Name} {off o b e : Nat} (hc : CanonicalName n) (hl : (flat (nameFields n)).length < 2 ^ 64)
    (h : decodeNameFrom.run w off = .ok ((r, b, e), o)) (hs : slice w b e = flat (nameFields n)) : r.dropLast = n := by
  unfold decodeNameFrom at h
  obtain ⟨E, o1, h1, h⟩ := Dec.bind_eq_ok.mp h
  rw [Dec.bind_ok (getOffset_run _ _)] at h
  obtain ⟨⟨r', e'⟩, o2, h2, h⟩ := Dec.bind_eq_ok.mp h
  dsimp only at h
  obtain ⟨_, o3, _, h⟩ := Dec.bind_eq_ok.mp h
  rw [Dec.pure_run] at h
  cases h
  unfold whileBefore at h2
  rw [Dec.bind_ok (getOffset_run _ _)] at h2
  replace h2 : (loopWhile E nameBody (E - b) ([], b)).run w b = .ok ((r, e), o2) := h2
  by_cases hn : n = []
  · subst hn
    rcases nameLoop_step h2 with ⟨h4, _⟩ | ⟨f, c, o1, h4, hf, h5⟩
    · cases h4; rfl
    · have hb := decodeNameComponent_bounds h4
      rcases nameLoop_last _ _ _ _ _ h5 with h6 | h6
      · cases h6; rfl
      · exfalso
        have h7 := congrArg List.length hs
        unfold slice at h7
        rw [List.length_drop, List.length_take] at h7
        have h8 : (flat (nameFields [])).length = 0 := rfl
        dsimp only at h6
        omega
  · have hne : flat (nameFields n) ≠ [] := by
      cases n with
      | nil => exact absurd rfl hn
      | cons c n =>
        intro hx
        have hx : flat (key c :: nameFields n) = [] := hx
        rw [flat_cons] at hx
        have h1 := congrArg List.length (List.append_eq_nil_iff.1 hx).1
        have h2 := tlv_length (key c).1 (key c).2
        have h3 := varNumberBytes_length_pos (key c).1
        rw [List.length_nil] at h1
        omega
    have hat : At w b _ (nameFields n) := At.of_slice hs hne hl (by
      intro p hp
      obtain ⟨c, h1, rfl⟩ := List.mem_map.1 hp
      exact canonical_lt (hc c h1))
    have hst : e = b + (flat (nameFields n)).length := by
      have h7 := congrArg List.length hs
      unfold slice at h7
      rw [List.length_drop, List.length_take] at h7
      have h8 : 0 < (flat (nameFields n)).length := List.length_pos_iff.2 hne
      rcases nameLoop_last _ _ _ _ _ h2 with h6 | h6
      · cases h6
        omega
      · dsimp only at h6
        omega
    obtain ⟨c, h9⟩ := nameLoop_at n hc _ _ _ _ _ hat (Nat.le_refl _) (fun h => absurd h hn) h2 hst
    dsimp only at h9
    rw [h9, List.nil_append, List.dropLast_concat]

/-- The name of an Interest is decoded by `decodeNameFrom`. -/
theorem decodeInterest_name {r old : Interest} {w : Bytes} {b e : Nat} (h : decodeInterest old w = .ok (r, b, e)) :
    ∃ off o, decodeNameFrom.run w off = .ok ((r.name, b, e), o) := by
  unfold decodeInterest at h
  split at h
  · rename_i x hx
    cases h
    unfold runDec at hx
    split at hx
    · rename_i a o hy
      cases hx
      unfold decodeInterestV02 at hy
      obtain ⟨E, o1, _, hy⟩ := Dec.bind_eq_ok.mp hy
      obtain ⟨⟨m, b', e'⟩, o2, h2, hy⟩ := Dec.bind_eq_ok.mp hy
      dsimp only at hy
      obtain ⟨_, _, _, hy⟩ := Dec.bind_eq_ok.mp hy
      obtain ⟨_, _, _, hy⟩ := Dec.bind_eq_ok.mp hy
      obtain ⟨_, _, _, hy⟩ := Dec.bind_eq_ok.mp hy
      obtain ⟨_, _, _, hy⟩ := Dec.bind_eq_ok.mp hy
      obtain ⟨_, _, _, hy⟩ := Dec.bind_eq_ok.mp hy
      obtain ⟨_, _, _, hy⟩ := Dec.bind_eq_ok.mp hy
      split at hy
      · cases hy
      · obtain ⟨_, _, _, hy⟩ := Dec.bind_eq_ok.mp hy
        rw [Dec.pure_run] at hy
        cases hy
        exact ⟨_, _, h2⟩
    · cases hx
  · split at h
    · rename_i x hx
      cases h
      unfold runDec at hx
      split at hx
      · rename_i a o hy
        cases hx
        unfold decodeInterestV03 at hy
        obtain ⟨E, o1, _, hy⟩ := Dec.bind_eq_ok.mp hy
        obtain ⟨⟨m, b', e'⟩, o2, h2, hy⟩ := Dec.bind_eq_ok.mp hy
        dsimp only at hy
        obtain ⟨_, _, _, hy⟩ := Dec.bind_eq_ok.mp hy
        obtain ⟨_, _, _, hy⟩ := Dec.bind_eq_ok.mp hy
        obtain ⟨_, _, _, hy⟩ := Dec.bind_eq_ok.mp hy
        obtain ⟨_, _, _, hy⟩ := Dec.bind_eq_ok.mp hy
        obtain ⟨_, _, _, hy⟩ := Dec.bind_eq_ok.mp hy
        obtain ⟨_, _, _, hy⟩ := Dec.bind_eq_ok.mp hy
        obtain ⟨_, _, _, hy⟩ := Dec.bind_eq_ok.mp hy
        obtain ⟨_, _, _, hy⟩ := Dec.bind_eq_ok.mp hy
        rw [Dec.pure_run] at hy
        cases hy
        exact ⟨_, _, h2⟩
      · cases hx
    · cases h

/-- The same for an Interest. -/
theorem interest_of_signed {r old : Interest} {w : Bytes} {n : Name} {b e : Nat} (hc : CanonicalName n) (hl : (flat (nameFields n)).length < 2 ^ 64)
    (h : decodeInterest old w = .ok (r, b, e)) (hs : slice w b e = flat (nameFields n)) : r.name.dropLast = n := by
  obtain ⟨_, _, h1⟩ := decodeInterest_name h
  exact name_of_signed hc hl h1 hs

/-- The signed portion ends in the packet. -/
theorem interest_end {r old : Interest} {w : Bytes} {b e : Nat} (h : decodeInterest old w = .ok (r, b, e)) : e ≤ w.length := by
  obtain ⟨off, o, h⟩ := decodeInterest_name h
  unfold decodeNameFrom at h
  obtain ⟨E, o1, h1, h⟩ := Dec.bind_eq_ok.mp h
  rw [Dec.bind_ok (getOffset_run _ _)] at h
  obtain ⟨⟨r', e'⟩, o2, h2, h⟩ := Dec.bind_eq_ok.mp h
  dsimp only at h
  obtain ⟨_, o3, _, h⟩ := Dec.bind_eq_ok.mp h
  rw [Dec.pure_run] at h
  cases h
  unfold whileBefore at h2
  rw [Dec.bind_ok (getOffset_run _ _)] at h2
  replace h2 : (loopWhile E nameBody (E - b) ([], b)).run w b = .ok ((r.name, e), o2) := h2
  rcases nameLoop_last _ _ _ _ _ h2 with h6 | h6
  · injection h6 with _ h6
    rw [h6]
    unfold readNestedTlvsStart at h1
    obtain ⟨l, o4, h7, h1⟩ := Dec.bind_eq_ok.mp h1
    rw [Dec.bind_ok (getOffset_run _ _), Dec.pure_run] at h1
    cases h1
    obtain ⟨_, _, _, _, _, _, h8⟩ := readTypeAndLength_inv h7
    omega
  · exact Nat.le_of_lt h6.2

end PyNDN
