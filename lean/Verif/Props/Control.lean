import Verif.Lemmas.Interest
import Verif.Lemmas.Utf8
import Verif.Props.Decode
/-
C25: NFD control messages.  C26: link-layer packets and Nacks.  C27: delegation sets.
-/
namespace PyNDN
open Spec

/-! ## C27 -/

theorem remove_eq (name : Name) (s : DelegationSet) :
    DelegationSet.remove name s = (s.filter (fun d => d.name ≠ name), s.any fun d => d.name = name) := by
  induction s with
  | nil => rfl
  | cons d s ih =>
    unfold DelegationSet.remove
    rw [ih]
    by_cases h : d.name = name
    · have : d.name.equals name = true := (name_equals_iff _ _).mpr h
      simp only [this, if_true]
      simp [h]
    · have : d.name.equals name = false := by
        cases hh : d.name.equals name with
        | false => rfl
        | true => exact absurd ((name_equals_iff _ _).mp hh) h
      simp [h, this]

theorem delegation_compare_neg (a b : Delegation) : a.compare b < 0 ↔ delegationLt a b := by
  unfold Delegation.compare delegationLt
  by_cases h1 : a.preference < b.preference
  · simp [h1]
  by_cases h2 : a.preference > b.preference
  · rw [if_neg h1, if_pos h2]
    constructor
    · intro h; omega
    · rintro (h | ⟨h, _⟩) <;> omega
  · rw [if_neg h1, if_neg h2]
    have h3 : a.preference = b.preference := by omega
    rcases C11_total a.name b.name with h | h | h
    · rw [h]; simp [h3, (C11_compare_lt _ _).mp h]
    · rw [h]
      have : ¬ nameLt a.name b.name := by
        intro hh; rw [(C11_compare_lt _ _).mpr hh] at h; omega
      simp [h3, this]
    · rw [h]
      have : ¬ nameLt a.name b.name := by
        intro hh; rw [(C11_compare_lt _ _).mpr hh] at h; omega
      simp [h3, this]

theorem delegationLt_trans {a b c : Delegation} (h1 : delegationLt a b) (h2 : delegationLt b c) :
    delegationLt a c := by
  unfold delegationLt at *
  rcases h1 with h1 | ⟨h1, h1'⟩ <;> rcases h2 with h2 | ⟨h2, h2'⟩
  · left; omega
  · left; omega
  · left; omega
  · exact Or.inr ⟨by omega, lex_trans h1' h2'⟩

theorem delegationLt_irrefl (a : Delegation) : ¬ delegationLt a a := by
  unfold delegationLt nameLt
  rintro (h | ⟨_, h⟩)
  · omega
  · exact lex_irrefl _ h

theorem mem_insertSorted (new d : Delegation) (s : DelegationSet) :
    d ∈ DelegationSet.insertSorted new s ↔ d = new ∨ d ∈ s := by
  induction s with
  | nil => simp [DelegationSet.insertSorted]
  | cons x s ih =>
    unfold DelegationSet.insertSorted
    split
    · simp
    · simp [ih, or_left_comm]

/-- Sorted: no entry comes before an earlier one in the order. -/
def DelegationsSorted (s : DelegationSet) : Prop := s.Pairwise fun a b => ¬ delegationLt b a

/-- At most one entry per name. -/
def DelegationsUnique (s : DelegationSet) : Prop := s.Pairwise fun a b => a.name ≠ b.name

/-- A trichotomy up to the wire form of the names. -/
theorem delegation_not_lt_trans {a b c : Delegation} (h1 : ¬ delegationLt b a) (h2 : ¬ delegationLt c b) :
    ¬ delegationLt c a := by
  intro h
  have e1 : ∀ x y : Delegation, ¬ delegationLt x y → ¬ delegationLt y x →
      x.preference = y.preference ∧ nameFields x.name = nameFields y.name := by
    intro x y g1 g2
    unfold delegationLt at g1 g2
    rw [not_or, not_and] at g1 g2
    have hp : x.preference = y.preference := by omega
    refine ⟨hp, ?_⟩
    rcases C11_total x.name y.name with hh | hh | hh
    · exact absurd ((C11_compare_lt _ _).mp hh) (g1.2 hp)
    · exact (C11_compare_zero_fields _ _).mp hh
    · exact absurd ((C11_compare_gt _ _).mp hh) (g2.2 hp.symm)
  by_cases hab : delegationLt a b
  · exact h2 (delegationLt_trans h hab)
  · obtain ⟨p1, p2⟩ := e1 a b hab h1
    unfold delegationLt nameLt at *
    rw [← p2] at h2
    rw [← p1] at h2
    exact h2 h

theorem insertSorted_sorted (new : Delegation) (s : DelegationSet) (h : DelegationsSorted s) :
    DelegationsSorted (DelegationSet.insertSorted new s) := by
  induction s with
  | nil => simp [DelegationSet.insertSorted, DelegationsSorted]
  | cons x s ih =>
    obtain ⟨h1, h2⟩ := List.pairwise_cons.mp h
    unfold DelegationSet.insertSorted
    split
    · next hc =>
      have hx : ¬ delegationLt x new := by
        intro hh; rw [← delegation_compare_neg] at hh; omega
      refine List.pairwise_cons.mpr ⟨?_, h⟩
      intro d hd
      rcases List.mem_cons.mp hd with rfl | hd
      · exact hx
      · exact delegation_not_lt_trans hx (h1 d hd)
    · next hc =>
      refine List.pairwise_cons.mpr ⟨?_, ih h2⟩
      intro d hd
      rcases (mem_insertSorted _ _ _).mp hd with rfl | hd
      · intro hh
        have hlt := (delegation_compare_neg x d).mp (by omega)
        exact delegationLt_irrefl _ (delegationLt_trans hlt hh)
      · exact h1 d hd

theorem insertSorted_unique (new : Delegation) (s : DelegationSet) (h : DelegationsUnique s)
    (hn : ∀ d ∈ s, d.name ≠ new.name) : DelegationsUnique (DelegationSet.insertSorted new s) := by
  induction s with
  | nil => simp [DelegationSet.insertSorted, DelegationsUnique]
  | cons x s ih =>
    obtain ⟨h1, h2⟩ := List.pairwise_cons.mp h
    unfold DelegationSet.insertSorted
    split
    · refine List.pairwise_cons.mpr ⟨fun d hd => (hn d hd).symm, h⟩
    · refine List.pairwise_cons.mpr ⟨?_, ih h2 (fun d hd => hn d (List.mem_cons_of_mem _ hd))⟩
      intro d hd
      rcases (mem_insertSorted _ _ _).mp hd with rfl | hd
      · exact hn x (by simp)
      · exact h1 d hd

/-- The delegation set after a sequence of calls, latest first. -/
def delegationsAfter : List DelegationOp → DelegationSet
  | [] => []
  | .add p n :: earlier => (delegationsAfter earlier).add p n
  | .remove n :: earlier => (DelegationSet.remove n (delegationsAfter earlier)).1
  | .clear :: _ => []

/-- After any sequence of calls the entries are sorted by preference, then name, with at most one entry
per name, and the entry for a name has the preference that was added last for it. -/
theorem C27_set (ops : List DelegationOp) :
    DelegationsSorted (delegationsAfter ops) ∧ DelegationsUnique (delegationsAfter ops) ∧
    ∀ p n, (⟨p, n⟩ : Delegation) ∈ delegationsAfter ops ↔ preferenceAfter n ops = some p := by
  induction ops with
  | nil => simp [delegationsAfter, DelegationsSorted, DelegationsUnique, preferenceAfter]
  | cons op ops ih =>
    obtain ⟨h1, h2, h3⟩ := ih
    cases op with
    | clear => simp [delegationsAfter, DelegationsSorted, DelegationsUnique, preferenceAfter]
    | remove n =>
      simp only [delegationsAfter, remove_eq]
      refine ⟨h1.filter _, h2.filter _, fun p m => ?_⟩
      simp only [List.mem_filter, h3, preferenceAfter]
      by_cases hm : n = m
      · simp [hm]
      · have : m ≠ n := fun h => hm h.symm
        simp [hm, this]
    | add q n =>
      simp only [delegationsAfter, DelegationSet.add, remove_eq]
      refine ⟨insertSorted_sorted _ _ (h1.filter _), insertSorted_unique _ _ (h2.filter _) ?_, fun p m => ?_⟩
      · intro d hd; simp at hd; exact hd.2
      · rw [mem_insertSorted]
        simp only [List.mem_filter, h3, preferenceAfter, Delegation.mk.injEq]
        by_cases hm : n = m
        · subst hm; simp [eq_comm]
        · have : m ≠ n := fun h => hm h.symm
          simp [hm, this]

/-- `remove` reports whether there was an entry with the name. -/
theorem C27_remove_reports (name : Name) (s : DelegationSet) :
    (DelegationSet.remove name s).2 = true ↔ ∃ d ∈ s, d.name = name := by
  rw [remove_eq]; simp

theorem findFrom_spec (name : Name) (s : DelegationSet) : ∀ i : Int,
    (DelegationSet.findFrom name s i = -1 ∧ ∀ d ∈ s, d.name ≠ name) ∨
    ∃ k : Nat, DelegationSet.findFrom name s i = i + k ∧ (∃ d, s[k]? = some d ∧ d.name = name) ∧
      ∀ j d, j < k → s[j]? = some d → d.name ≠ name := by
  induction s with
  | nil => intro i; exact Or.inl ⟨rfl, by simp⟩
  | cons x s ih =>
    intro i
    unfold DelegationSet.findFrom
    by_cases hx : x.name = name
    · rw [if_pos ((name_equals_iff _ _).mpr hx)]
      exact Or.inr ⟨0, by simp, ⟨x, rfl, hx⟩, by intro j d hj; omega⟩
    · rw [if_neg (fun hh => hx ((name_equals_iff _ _).mp hh))]
      rcases ih (i + 1) with ⟨g1, g2⟩ | ⟨k, g1, ⟨d, g2, g3⟩, g4⟩
      · refine Or.inl ⟨g1, fun d hd => ?_⟩
        rcases List.mem_cons.mp hd with rfl | hd
        · exact hx
        · exact g2 d hd
      · refine Or.inr ⟨k + 1, by rw [g1]; push_cast; omega, ⟨d, by simpa using g2, g3⟩, ?_⟩
        intro j d hj hd
        cases j with
        | zero => simp at hd; subst hd; exact hx
        | succ j => exact g4 j d (by omega) (by simpa using hd)

/-- `find` gives the index of the first entry with the name, or -1 when there is none. -/
theorem C27_find (name : Name) (s : DelegationSet) :
    (s.find name = -1 ∧ ∀ d ∈ s, d.name ≠ name) ∨
    ∃ k : Nat, s.find name = k ∧ (∃ d, s[k]? = some d ∧ d.name = name) ∧
      ∀ j d, j < k → s[j]? = some d → d.name ≠ name := by
  rcases findFrom_spec name s 0 with h | ⟨k, h1, h2⟩
  · exact Or.inl h
  · exact Or.inr ⟨k, by unfold DelegationSet.find; rw [h1]; omega, h2⟩

/-- Encoding and decoding keeps the entries and their order, whatever they are. -/
theorem C27_wire (s : DelegationSet) (h : DelegationsOk s) :
    ∃ wire, encodeDelegationSet s = .ok wire ∧ wire = flat (delegationFields s) ∧
      (wire.length < 2 ^ 64 → decodeDelegationSet wire = .ok s) := by
  refine ⟨_, by unfold encodeDelegationSet; rw [encodeDelegationSetTo_spec s h, List.append_nil], rfl, ?_⟩
  intro hl
  unfold decodeDelegationSet runDec
  have hat : At (flat (delegationFields s)) 0 (flat (delegationFields s)).length (delegationFields s) :=
    ⟨⟨[], by simp⟩, by simp, fieldsOk_of_len hl (delegationFields_types s)⟩
  rw [decodeDelegationSetFrom_At h hat]

example : delegationsAfter [.add 1 [⟨.generic, [66]⟩], .remove [⟨.generic, [67]⟩], .add 5 [⟨.generic, [66]⟩],
    .add 2 [⟨.generic, [65]⟩], .add 2 [⟨.generic, [67]⟩], .clear, .add 0 []] =
    [⟨1, [⟨.generic, [66]⟩]⟩, ⟨2, [⟨.generic, [65]⟩]⟩] := by decide

/-- The set of the example can be encoded. -/
example : DelegationsOk [⟨1, [⟨.generic, [66]⟩]⟩, ⟨300, []⟩] := by
  intro d hd
  simp at hd
  rcases hd with rfl | rfl
  · exact ⟨by decide, by decide, by intro c hc; simp at hc; subst hc; decide⟩
  · exact ⟨by decide, by decide, by intro c hc; simp at hc⟩

/-! ## C25 -/

theorem flag_bits (f : RegFlags) : f.toNfd = flagBits f ∧ RegFlags.ofNfd (flagBits f) = f ∧
    flagBits f < 2 ^ 64 ∧ RegFlags.toNfd {} = 1 ∧ (flagBits f = 1 → f = {}) := by
  obtain ⟨a, b⟩ := f
  cases a <;> cases b <;> decide

theorem writeOptionalInt (t : Nat) (x : Option Int) (hx : ∀ n, x = some n → 0 ≤ n) (out : Bytes) :
    writeOptionalNonNegativeIntegerTlv t x out
      = .ok (flat (opt t (x.map fun n => nonNeg n.toNat)) ++ out) := by
  cases x with
  | none => rfl
  | some n =>
    have h0 := hx n rfl
    have := writeOptionalNat t (some n.toNat) out
    simp only [Option.map_some, Int.ofNat_eq_natCast, Int.toNat_of_nonneg h0] at this
    exact this

theorem encodeControlParametersTo_spec (cp : ControlParameters) (h : ControlParametersOk cp) (out : Bytes) :
    encodeControlParametersTo cp out = .ok (flat [(104, flat (controlParametersFields cp))] ++ out) := by
  unfold encodeControlParametersTo
  obtain ⟨f1, f2, f3, f4, f5⟩ := flag_bits cp.flags
  have hstrat : ∀ out, (if cp.strategy.length > 0 then
      writeTypeAndLength 107 ((encodeNameTo cp.strategy out).length - out.length) (encodeNameTo cp.strategy out)
      else out) = flat (opt 107 (if cp.strategy = [] then none
        else some (flat [(7, flat (nameFields cp.strategy))]))) ++ out := by
    intro out
    by_cases hv : cp.strategy = []
    · simp [hv, opt]
    · rw [if_pos (List.length_pos_iff.mpr hv), if_neg hv, nameTlv_flat, closeTlv]; rfl
  have huri : ∀ out, (if cp.uri.length ≠ 0 then writeBlobTlv 114 (some cp.uri) out else out)
      = flat (opt 114 (if cp.uri = [] then none else some cp.uri)) ++ out := by
    intro out
    by_cases hv : cp.uri = []
    · simp [hv, opt]
    · rw [if_pos (by simpa using hv), if_neg hv, blobTlv_flat]; rfl
  have hexp : ∀ out, writeOptionalNonNegativeIntegerTlvFromFloat 109 cp.expirationPeriod out
      = .ok (flat (opt 109 (cp.expirationPeriod.map fun n => nonNeg n.toNat)) ++ out) :=
    fun out => writeOptionalInt 109 _ (fun n hn => (h.expirationPeriod n hn).1) out
  have h1 := writeOptionalInt 106 cp.cost (fun n hn => (h.cost n hn).1)
  have h2 := writeOptionalInt 111 cp.origin (fun n hn => (h.origin n hn).1)
  have h3 := writeOptionalInt 110 cp.localControlFeature (fun n hn => (h.localControlFeature n hn).1)
  have h4 := writeOptionalInt 105 cp.faceId (fun n hn => (h.faceId n hn).1)
  rw [f1, f4]
  cases hn : cp.name <;> by_cases hf : flagBits cp.flags = 1 <;>
    simp only [hf, ne_eq, not_true, not_false_iff, if_true, if_false, bind, Except.bind, hstrat,
      huri, hexp, h1, h2, h3, h4, pure, Except.pure, nonNegTlv_flat] <;>
    simp only [nameTlv_flat, flat_app] <;>
    rw [closeTlv] <;> simp [controlParametersFields, hf, hn, opt]

theorem toNat_map (x : Option Int) : (x.map fun n => nonNeg n.toNat) = (x.map Int.toNat).map nonNeg := by
  cases x <;> rfl

theorem ofNat_map {x : Option Int} (hx : ∀ n, x = some n → 0 ≤ n) :
    (x.map Int.toNat).map Int.ofNat = x := by
  cases x with
  | none => rfl
  | some n => simp [Int.toNat_of_nonneg (hx n rfl)]

theorem toNat_lt {x : Option Int} {b : Int} (hx : ∀ n, x = some n → 0 ≤ n ∧ n < b) (m : Nat)
    (hm : x.map Int.toNat = some m) : (m : Int) < b := by
  cases x with
  | none => cases hm
  | some n => cases hm; have := hx n rfl; omega

theorem controlParametersFields_types (cp : ControlParameters) :
    TypesIn (controlParametersFields cp) [7, 105, 114, 110, 111, 106, 108, 107, 109] :=
  ((((((((TypesIn.opt _).append (TypesIn.opt _)).append (TypesIn.opt _)).append (TypesIn.opt _)).append
    (TypesIn.opt _)).append (TypesIn.opt _)).append (TypesIn.opt _)).append (TypesIn.opt _)).append
    (TypesIn.opt _)

theorem skipAbsent_At {inp off e t l ts} (h : At inp off e l) (hl : TypesIn l ts) (ht : t ∉ ts) :
    (skipOptionalTlv t e).run inp off = .ok ((), off) := by
  unfold skipOptionalTlv
  rw [Dec.bind_ok (peekType_absent h (hl.ne ht))]; rfl

theorem decodeControlParameters_At {inp off e l} {cp : ControlParameters} (h : ControlParametersOk cp)
    (hat : At inp off e ((104, flat (controlParametersFields cp)) :: l)) :
    ∃ off', decodeControlParametersFrom.run inp off = .ok (cp, off') ∧ At inp off' e l := by
  obtain ⟨e', o1, g1, g2, g3⟩ := nested_At hat ((controlParametersFields_types cp).lt (by simp))
  obtain ⟨f1, f2, f3, f4, f5⟩ := flag_bits cp.flags
  unfold controlParametersFields at g2
  simp only [List.append_assoc, toNat_map] at g2
  have t9 : ∀ x, TypesIn (opt 109 x) [109] := fun x => TypesIn.opt x
  have t8 : ∀ x y, TypesIn (opt 107 x ++ opt 109 y) [107, 109] := fun x y => (TypesIn.opt x).append (t9 y)
  have t7 : ∀ x y z, TypesIn (opt 108 x ++ (opt 107 y ++ opt 109 z)) [108, 107, 109] :=
    fun x y z => (TypesIn.opt x).append (t8 y z)
  have t6 : ∀ w x y z, TypesIn (opt 106 w ++ (opt 108 x ++ (opt 107 y ++ opt 109 z))) [106, 108, 107, 109] :=
    fun w x y z => (TypesIn.opt w).append (t7 x y z)
  have t5 : ∀ v w x y z, TypesIn (opt 111 v ++ (opt 106 w ++ (opt 108 x ++ (opt 107 y ++ opt 109 z))))
      [111, 106, 108, 107, 109] := fun v w x y z => (TypesIn.opt v).append (t6 w x y z)
  have t4 : ∀ u v w x y z, TypesIn (opt 110 u ++ (opt 111 v ++ (opt 106 w ++ (opt 108 x ++ (opt 107 y ++
      opt 109 z))))) [110, 111, 106, 108, 107, 109] :=
    fun u v w x y z => (TypesIn.opt u).append (t5 v w x y z)
  have t3 : ∀ s u v w x y z, TypesIn (opt 114 s ++ (opt 110 u ++ (opt 111 v ++ (opt 106 w ++ (opt 108 x ++
      (opt 107 y ++ opt 109 z)))))) [114, 110, 111, 106, 108, 107, 109] :=
    fun s u v w x y z => (TypesIn.opt s).append (t4 u v w x y z)
  have t2 : ∀ r s u v w x y z, TypesIn (opt 105 r ++ (opt 114 s ++ (opt 110 u ++ (opt 111 v ++ (opt 106 w ++
      (opt 108 x ++ (opt 107 y ++ opt 109 z))))))) [105, 114, 110, 111, 106, 108, 107, 109] :=
    fun r s u v w x y z => (TypesIn.opt r).append (t3 s u v w x y z)
  obtain ⟨nm, o2, k1, hnm, g2⟩ := optional_At (m := decodeSomeName) (d := none) (fun x => x = cp.name) g2
    ((t2 _ _ _ _ _ _ _ _).ne (by simp))
    (by intro hv; exact (by simpa using hv : _ = none).symm)
    (by
      intro v hv ha
      cases hn : cp.name with
      | none => rw [hn] at hv; cases hv
      | some n =>
        rw [hn] at hv
        cases hv
        obtain ⟨o, b1, b2, c1, c2, _⟩ := name_At (h.name n hn) ha
        refine ⟨some n, o, ?_, rfl, c2⟩
        unfold decodeSomeName
        rw [Dec.bind_ok c1]; rfl)
  subst hnm
  obtain ⟨o3, k2, g2⟩ := readOptionalNonNegativeIntegerTlv_At
    (fun n hn => by have := toNat_lt h.faceId n hn; omega) g2 ((t3 _ _ _ _ _ _ _).ne (by simp))
  obtain ⟨ur, o4, k3, hur, g2⟩ := optional_At (m := decodeUri e') (d := []) (fun x => x = cp.uri) g2
    ((t4 _ _ _ _ _ _).ne (by simp))
    (by intro hv; exact (ite_none_eq_none hv).symm)
    (by
      intro v hv ha
      split at hv
      · cases hv
      · cases hv
        obtain ⟨o, c1, c2⟩ := readOptionalBlobTlv_At (x := some cp.uri) (t := 114) ha
          ((t4 _ _ _ _ _ _).ne (by simp))
        refine ⟨cp.uri, o, ?_, rfl, c2⟩
        unfold decodeUri
        rw [Dec.bind_ok c1]
        simp only [Option.getD_some, strOfBlob_text h.uri]
        rfl)
  subst hur
  have s1 := skipAbsent_At (t := 129) g2 (t4 _ _ _ _ _ _) (by simp)
  obtain ⟨o5, k4, g2⟩ := readOptionalNonNegativeIntegerTlv_At
    (fun n hn => by have := toNat_lt h.localControlFeature n hn; omega) g2 ((t5 _ _ _ _ _).ne (by simp))
  obtain ⟨o6, k5, g2⟩ := readOptionalNonNegativeIntegerTlv_At
    (fun n hn => by have := toNat_lt h.origin n hn; omega) g2 ((t6 _ _ _ _).ne (by simp))
  obtain ⟨o7, k6, g2⟩ := readOptionalNonNegativeIntegerTlv_At
    (fun n hn => by have := toNat_lt h.cost n hn; omega) g2 ((t7 _ _ _).ne (by simp))
  have s2 := skipAbsent_At (t := 131) g2 (t7 _ _ _) (by simp)
  have s3 := skipAbsent_At (t := 132) g2 (t7 _ _ _) (by simp)
  have s4 := skipAbsent_At (t := 135) g2 (t7 _ _ _) (by simp)
  have s5 := skipAbsent_At (t := 136) g2 (t7 _ _ _) (by simp)
  have s6 := skipAbsent_At (t := 137) g2 (t7 _ _ _) (by simp)
  obtain ⟨fl, o8, k7, hfl, g2⟩ := optional_At (m := decodeFlags) (d := {}) (fun x => x = cp.flags) g2
    ((t8 _ _).ne (by simp))
    (by intro hv; exact (f5 (ite_none_eq_none hv)).symm)
    (by
      intro v hv ha
      split at hv
      · cases hv
      · cases hv
        obtain ⟨o, c1, c2⟩ := readNonNegativeIntegerTlv_At f3 ha
        refine ⟨cp.flags, o, ?_, rfl, c2⟩
        unfold decodeFlags
        rw [Dec.bind_ok c1]
        simp only [f2]
        rfl)
  subst hfl
  have s7 := skipAbsent_At (t := 112) g2 (t8 _ _) (by simp)
  obtain ⟨st, o9, k8, hst, g2⟩ := optional_At (m := decodeStrategy) (d := []) (fun x => x = cp.strategy) g2
    ((t9 _).ne (by simp))
    (by intro hv; exact (ite_none_eq_none hv).symm)
    (by
      intro v hv ha
      split at hv
      · cases hv
      · cases hv
        obtain ⟨e2, p1, c1, c2, c3⟩ := nested_At ha (by simp)
        obtain ⟨o, b1, b2, c4, c5, _⟩ := name_At h.strategy c2
        refine ⟨cp.strategy, e2, ?_, rfl, c3⟩
        unfold decodeStrategy
        rw [Dec.bind_ok c1, Dec.bind_ok c4]
        dsimp only
        rw [Dec.bind_ok (finishNestedTlvs_At c5)]; rfl)
  subst hst
  rw [← List.append_nil (opt 109 _)] at g2
  obtain ⟨o10, k9, g2⟩ := readOptionalNonNegativeIntegerTlv_At
    (fun n hn => by
      have := toNat_lt (b := 2 ^ 53 + 1) (fun m hm => by have := h.expirationPeriod m hm; omega) n hn
      omega) g2 (by simp)
  refine ⟨e', ?_, g3⟩
  unfold decodeControlParametersFrom
  rw [Dec.bind_ok g1, Dec.bind_ok k1, Dec.bind_ok k2, Dec.bind_ok k3, Dec.bind_ok s1, Dec.bind_ok k4,
    Dec.bind_ok k5, Dec.bind_ok k6, Dec.bind_ok s2, Dec.bind_ok s3, Dec.bind_ok s4, Dec.bind_ok s5,
    Dec.bind_ok s6, Dec.bind_ok k7, Dec.bind_ok s7, Dec.bind_ok k8, Dec.bind_ok k9,
    Dec.bind_ok (finishNestedTlvs_At g2)]
  simp only [Dec.pure_run]
  rw [ofNat_map (fun n hn => (h.faceId n hn).1), ofNat_map (fun n hn => (h.localControlFeature n hn).1),
    ofNat_map (fun n hn => (h.origin n hn).1), ofNat_map (fun n hn => (h.cost n hn).1)]
  have hexp : (Option.map Int.toNat cp.expirationPeriod).map (fun n => ((floatOfNat n : Nat) : Int))
      = cp.expirationPeriod := by
    cases hx : cp.expirationPeriod with
    | none => rfl
    | some n =>
      have := h.expirationPeriod n hx
      simp only [Option.map_some]
      rw [floatOfNat_id (by omega), Int.toNat_of_nonneg this.1]
  rw [hexp]

/-- Control parameters: the encoding has the fields of the management protocol, and decoding it gives
the same object. -/
theorem C25_controlParameters (cp : ControlParameters) (h : ControlParametersOk cp) (extra : Bytes) :
    ∃ wire, encodeControlParameters cp = .ok wire ∧ wire = tlv 104 (flat (controlParametersFields cp)) ∧
      (wire.length < 2 ^ 64 → decodeControlParameters (wire ++ extra) = .ok cp) := by
  refine ⟨_, by unfold encodeControlParameters; rw [encodeControlParametersTo_spec cp h, List.append_nil,
    flat_one], rfl, fun hl => ?_⟩
  obtain ⟨o, g1, _⟩ := decodeControlParameters_At h
    (At.start (rest := extra) (by omega) (by rw [tlv_length] at hl; omega))
  unfold decodeControlParameters runDec
  rw [g1]

/-- Control responses: likewise. -/
theorem C25_controlResponse (cr : ControlResponse) (h : ControlResponseOk cr) (extra : Bytes) :
    ∃ wire code, cr.statusCode = some (code : Nat) ∧ encodeControlResponse cr = .ok wire ∧
      wire = tlv 101 (flat (controlResponseFields code cr)) ∧
      (wire.length < 2 ^ 64 → decodeControlResponse (wire ++ extra) = .ok cr) := by
  obtain ⟨c, hc1, hc2⟩ := h.statusCode
  refine ⟨tlv 101 (flat (controlResponseFields c cr)), c, hc1, ?_, rfl, fun hl => ?_⟩
  · unfold encodeControlResponse
    have hw : ∀ o : Bytes, writeTypeAndLength 101 o.length o = tlv 101 o := by
      intro o; simpa using writeTypeAndLength_tlv 101 o []
    have ef : ∀ a b : List (Nat × Bytes), flat a ++ flat b = flat (a ++ b) := fun a b => (flat_append a b).symm
    cases hb : cr.body with
    | none =>
      simp only [bind, Except.bind, hc1, blobTlv_flat, Option.getD_some, nonNegTlv_flat, pure, Except.pure,
        flat_app, List.append_nil, ef, hw]
      simp [controlResponseFields, hb, opt]
    | some cp =>
      simp only [bind, Except.bind, hc1, blobTlv_flat, Option.getD_some, nonNegTlv_flat, pure, Except.pure,
        encodeControlParametersTo_spec cp (h.body cp hb), flat_app, List.append_nil, ef, hw]
      simp [controlResponseFields, hb, opt]
  · have hat := At.start (t := 101) (v := flat (controlResponseFields c cr)) (rest := extra) (by omega)
      (by rw [tlv_length] at hl; omega)
    have ht : TypesIn (controlResponseFields c cr) [102, 103, 104] :=
      (TypesIn.cons (TypesIn.cons TypesIn.nil)).append (TypesIn.opt _)
    obtain ⟨e', o1, g1, g2, g3⟩ := nested_At hat (ht.lt (by simp))
    have g2' : At (tlv 101 (flat (controlResponseFields c cr)) ++ extra) o1 e'
      ((102, nonNeg c) :: (103, cr.statusText) ::
        (opt 104 (cr.body.map fun cp => flat (controlParametersFields cp)) ++ [])) := by
      rw [List.append_nil]; exact g2
    obtain ⟨o2, k1, g4⟩ := readNonNegativeIntegerTlv_At hc2 g2'
    obtain ⟨o3, k2, g5⟩ := readBlobTlv_At g4
    obtain ⟨bd, o4, k3, hbd, g6⟩ := optional_At (m := decodeBody) (d := none) (fun x => x = cr.body) g5
      (by simp) (by intro hv; exact (by simpa using hv : _ = none).symm)
      (by
        intro v hv ha
        cases hn : cr.body with
        | none => rw [hn] at hv; cases hv
        | some cp =>
          rw [hn] at hv
          cases hv
          obtain ⟨o, c1, c2⟩ := decodeControlParameters_At (h.body cp hn) ha
          refine ⟨some cp, o, ?_, rfl, c2⟩
          unfold decodeBody
          rw [Dec.bind_ok c1]; rfl)
    subst hbd
    have hs : (Dec.lift (strOfBlob cr.statusText)).run (tlv 101 (flat (controlResponseFields c cr)) ++ extra) o3
        = .ok (cr.statusText, o3) := by rw [strOfBlob_text h.statusText]; rfl
    unfold decodeControlResponse runDec decodeControlResponseFrom
    rw [Dec.bind_ok g1, Dec.bind_ok k1, Dec.bind_ok k2, Dec.bind_ok hs, Dec.bind_ok k3,
      Dec.bind_ok (finishNestedTlvs_At g6)]
    simp only [Dec.pure_run]
    rw [← hc1]

/-- A status code that was never set cannot be encoded (TypeError). -/
theorem C25_statusCode_required (cr : ControlResponse) (h : cr.statusCode = none)
    (hb : ∀ cp, cr.body = some cp → ControlParametersOk cp) :
    encodeControlResponse cr = .error .type := by
  unfold encodeControlResponse
  cases hb' : cr.body with
  | none => simp [bind, Except.bind, h]
  | some cp => simp [bind, Except.bind, h, encodeControlParametersTo_spec cp (hb cp hb')]

example : ControlParametersOk
    { name := some [⟨.generic, [66]⟩], faceId := some 300, uri := [0x75, 0xc3, 0xa9], origin := some 0,
      cost := some (2 ^ 40), flags := ⟨false, true⟩, strategy := [⟨.generic, [83]⟩],
      expirationPeriod := some 60000 } where
  name := by intro n hn; cases hn; intro c hc; simp at hc; subst hc; decide
  strategy := by intro c hc; simp at hc; subst hc; decide
  uri := ⟨[0x75, 0xe9], by intro c hc; simp at hc; rcases hc with rfl | rfl <;> unfold Scalar <;> decide, by decide⟩
  faceId := by intro n hn; cases hn; decide
  localControlFeature := by intro n hn; cases hn
  origin := by intro n hn; cases hn; decide
  cost := by intro n hn; cases hn; decide
  expirationPeriod := by intro n hn; cases hn; decide

example : ControlResponseOk { statusCode := some 200, statusText := [79, 75], body := some {} } where
  statusCode := ⟨200, rfl, by decide⟩
  statusText := ⟨[79, 75], by intro c hc; simp at hc; rcases hc with rfl | rfl <;> unfold Scalar <;> decide, by decide⟩
  body := by
    intro cp hcp
    cases hcp
    exact ⟨(by intro n hn; cases hn), (by intro c hc; simp at hc), ⟨[], by simp, rfl⟩, (by intro n hn; cases hn),
      (by intro n hn; cases hn), (by intro n hn; cases hn), (by intro n hn; cases hn),
      (by intro n hn; cases hn)⟩

/-! ## C26 -/

theorem At.header {inp off e t} {v : Bytes} {l} (h : At inp off e ((t, v) :: l)) :
    ∃ o1 o2, readVarNumber.run inp off = .ok (t, o1) ∧ readVarNumber.run inp o1 = .ok (v.length, o2) ∧
      (∃ rest, inp.drop o2 = v ++ rest) ∧ o2 + v.length ≤ inp.length ∧ off < o2 ∧
      At inp (o2 + v.length) e l := by
  obtain ⟨rest, hd⟩ := h.head
  have hn := h.next
  unfold tlv at hd hn
  rw [List.append_assoc, List.append_assoc, ← varNumberBytes_spec] at hd
  have h1 := readVarNumber_drop h.bound.1 hd
  have hd2 := drop_add hd
  rw [← varNumberBytes_spec] at hd2
  have h2 := readVarNumber_drop h.bound.2 hd2
  have hd3 := drop_add hd2
  have hlen := congrArg List.length hd3
  simp only [List.length_drop, List.length_append] at hlen
  have hp := readVarNumber_fwd h1
  have hp2 := readVarNumber_fwd h2
  refine ⟨_, _, h1, h2, ⟨rest, hd3⟩, ?_, by omega, ?_⟩
  · by_cases hv : v = []
    · subst hv
      simp only [List.nil_append, List.length_nil] at *
      have : off + (tlv t []).length ≤ inp.length := by
        have h5 := congrArg List.length h.head.choose_spec
        simp only [List.length_drop, List.length_append] at h5
        have h6 : 0 < (tlv t ([] : Bytes)).length := List.length_pos_iff.mpr (tlv_ne_nil _ _)
        omega
      unfold tlv at this
      simp only [List.length_append, List.length_nil, varNumberBytes_spec] at this ⊢
      omega
    · have := List.length_pos_iff.mpr hv
      omega
  · simp only [List.length_append, ← varNumberBytes_spec] at hn
    rw [← Nat.add_assoc, ← Nat.add_assoc] at hn
    exact hn

theorem lpCanIgnore_iff (t : Nat) : lpCanIgnore t = true ↔ lpIgnorable t := by
  unfold lpCanIgnore lpIgnorable
  have : t &&& 3 = t % 4 := Nat.and_two_pow_sub_one_eq_mod t 2
  simp [this, and_assoc]

theorem nackOfCode_spec {n : NetworkNack} (h : NackOk n) : ∃ c, nackCode n = some c ∧ c < 2 ^ 64 ∧
    nackOfCode (some c) = .ok ⟨n.reason, if n.reason = 0x7fff then n.otherReasonCode else -1⟩ := by
  obtain ⟨r, o⟩ := n
  unfold NackOk at h
  dsimp only at h
  rcases h with rfl | rfl | rfl | rfl | ⟨rfl, h1, h2, h3, h4, h5, h6⟩
  · exact ⟨0, rfl, by decide, rfl⟩
  · exact ⟨50, rfl, by decide, rfl⟩
  · exact ⟨100, rfl, by decide, rfl⟩
  · exact ⟨150, rfl, by decide, rfl⟩
  · refine ⟨o.toNat, by simp [nackCode, h1], by omega, ?_⟩
    unfold nackOfCode
    dsimp only
    rw [if_neg (by omega), if_neg (by omega), if_pos rfl, Int.toNat_of_nonneg h1]

theorem decodeLpField_header {inp off e l lp lp'} {t : Nat} {v : Bytes} (ht : t ≠ 80)
    (hat : At inp off e ((t, v) :: l))
    (hh : ∀ o rest, inp.drop o = v ++ rest → ∃ o',
      (decodeLpHeader t v.length (o + v.length) lp).run inp o = .ok (lp', o') ∧
      (finishNestedTlvs (o + v.length)).run inp o' = .ok ((), o + v.length)) :
    ∃ off', (decodeLpField lp).run inp off = .ok ((lp', false), off') ∧ off < off' ∧ At inp off' e l := by
  obtain ⟨o1, o2, h1, h2, ⟨rest, hd⟩, hb, hlt, hnext⟩ := At.header hat
  obtain ⟨o3, k1, k2⟩ := hh o2 rest hd
  refine ⟨_, ?_, by omega, hnext⟩
  unfold decodeLpField
  rw [Dec.bind_ok h1, Dec.bind_ok h2, Dec.bind_ok (getOffset_run _ _), Dec.bind_ok (inputLen_run _ _),
    if_neg (by omega), if_neg ht, Dec.bind_ok k1, Dec.bind_ok k2]
  rfl

theorem decodeLpField_At {inp off e l lp} {f : LpField} (h : LpFieldOk f)
    (hat : At inp off e (lpFieldTlv f :: l)) :
    ∃ off', (decodeLpField lp).run inp off
        = .ok (({ lp with headers := lp.headers ++ (lpHeaderOf f).toList }, false), off') ∧
      off < off' ∧ At inp off' e l := by
  cases f with
  | nack n extra =>
    obtain ⟨c, c1, c2, c3⟩ := nackOfCode_spec h.1
    refine decodeLpField_header (by decide) hat fun o rest hd => ?_
    have hk := hat.bound.2
    have hin : At inp o (o + (flat ((801, nonNeg ((nackCode n).getD 0)) :: extra)).length)
        (opt 801 ((some c).map nonNeg) ++ extra) := by
      rw [c1] at hd hk ⊢
      refine ⟨⟨rest, hd⟩, rfl, fieldsOk_of_len hk ?_⟩
      intro p hp
      rcases List.mem_cons.mp hp with rfl | hp
      · show (801 : Nat) < _; decide
      · exact (h.2 p hp).1
    obtain ⟨o3, k1, k2⟩ := readOptionalNonNegativeIntegerTlv_At
      (by intro m hm; cases hm; exact c2) hin
      (by intro p hp hh; have := (h.2 p hp).2; unfold critical at this; omega)
    have hl : (Dec.lift (nackOfCode (some c))).run inp o3
        = .ok (⟨n.reason, if n.reason = 0x7fff then n.otherReasonCode else -1⟩, o3) := by rw [c3]; rfl
    refine ⟨o3, ?_, finishNestedTlvs_skip_At k2 (Or.inr fun p hp => (h.2 p hp).2)⟩
    unfold decodeLpHeader
    rw [if_pos rfl, Dec.bind_ok k1, Dec.bind_ok hl]
    rfl
  | incomingFaceId id =>
    refine decodeLpField_header (by decide) hat fun o rest hd => ?_
    rw [← nonNegIntBytes_spec] at hd ⊢
    refine ⟨_, ?_, finishNestedTlvs_end⟩
    unfold decodeLpHeader
    rw [if_neg (by decide), if_pos rfl, Dec.bind_ok (readNonNegativeInteger_drop h hd)]
    rfl
  | congestionMark m =>
    refine decodeLpField_header (by decide) hat fun o rest hd => ?_
    rw [← nonNegIntBytes_spec] at hd ⊢
    refine ⟨_, ?_, finishNestedTlvs_end⟩
    unfold decodeLpHeader
    rw [if_neg (by decide), if_neg (by decide), if_pos rfl, Dec.bind_ok (readNonNegativeInteger_drop h hd)]
    rfl
  | unknown t v =>
    obtain ⟨g1, g2, g3⟩ := h
    have := g1
    unfold lpIgnorable at this
    refine decodeLpField_header (by omega) hat fun o rest hd => ?_
    refine ⟨_, ?_, finishNestedTlvs_end⟩
    unfold decodeLpHeader
    rw [if_neg g2, if_neg (by omega), if_neg g3, if_neg (by simp [(lpCanIgnore_iff t).mpr g1]),
      Dec.bind_ok (seek_run _ _ _)]
    simp [lpHeaderOf]

/-- The loop over the header fields `fs`; what follows is left to `k`. -/
theorem decodeLpLoop_fields {inp e l} (fs : List LpField) (h : ∀ f ∈ fs, LpFieldOk f) :
    ∀ fuel off lp, At inp off e (fs.map lpFieldTlv ++ l) → e ≤ off + fuel →
    ∃ fuel' off', (decodeLpLoop e fuel lp).run inp off
        = (decodeLpLoop e fuel' { lp with headers := lp.headers ++ fs.filterMap lpHeaderOf }).run inp off' ∧
      e ≤ off' + fuel' ∧ At inp off' e l := by
  induction fs with
  | nil =>
    intro fuel off lp hat hf
    exact ⟨fuel, off, by simp, hf, hat⟩
  | cons f fs ih =>
    intro fuel off lp hat hf
    have hlt := At.lt hat
    cases fuel with
    | zero => omega
    | succ fuel =>
      obtain ⟨o1, g1, g2, g3⟩ := decodeLpField_At (lp := lp) (h f (by simp)) hat
      obtain ⟨f2, o2, k1, k2, k3⟩ := ih (fun x hx => h x (List.mem_cons_of_mem _ hx)) fuel o1 _ g3 (by omega)
      refine ⟨f2, o2, ?_, k2, k3⟩
      have : (decodeLpLoop e (fuel + 1) lp).run inp off
          = (decodeLpLoop e fuel { lp with headers := lp.headers ++ (lpHeaderOf f).toList }).run inp o1 := by
        rw [decodeLpLoop.eq_def]
        dsimp only
        rw [Dec.bind_ok (getOffset_run _ _), if_pos hlt, Dec.bind_ok g1]
        rfl
      rw [this, k1]
      congr 2
      cases hf : lpHeaderOf f <;> simp [hf]

theorem decodeLpField_fragment {inp off e l lp} {frag : Bytes} (hat : At inp off e ((80, frag) :: l)) :
    ∃ off', (decodeLpField lp).run inp off = .ok (({ lp with fragment := some frag }, true), off') ∧
      At inp off' e l := by
  obtain ⟨o1, o2, h1, h2, ⟨rest, hd⟩, hb, hlt, hnext⟩ := At.header hat
  refine ⟨_, ?_, hnext⟩
  unfold decodeLpField
  rw [Dec.bind_ok h1, Dec.bind_ok h2, Dec.bind_ok (getOffset_run _ _), Dec.bind_ok (inputLen_run _ _),
    if_neg (by omega), if_pos rfl, Dec.bind_ok (getOffset_run _ _), Dec.bind_ok (getSlice_run _ _ _ _),
    Dec.bind_ok (seek_run _ _ _)]
  simp only [Dec.pure_run, List.drop_take, hd, Nat.add_sub_cancel_left, List.take_left]

theorem decodeLpLoop_end {inp e lp} (fuel : Nat) : (decodeLpLoop e fuel lp).run inp e = .ok (lp, e) := by
  cases fuel with
  | zero => rw [decodeLpLoop.eq_def]; dsimp only; rw [Dec.bind_ok (getOffset_run _ _)]; simp
  | succ n => rw [decodeLpLoop.eq_def]; dsimp only; rw [Dec.bind_ok (getOffset_run _ _)]; simp

theorem lpTypes {fs : List LpField} (h : ∀ f ∈ fs, LpFieldOk f) : ∀ p ∈ fs.map lpFieldTlv, p.1 < 2 ^ 64 := by
  intro p hp
  obtain ⟨f, hf, rfl⟩ := List.mem_map.mp hp
  have := h f hf
  cases f with
  | nack => show (800 : Nat) < _; decide
  | incomingFaceId => show (817 : Nat) < _; decide
  | congestionMark => show (832 : Nat) < _; decide
  | unknown t v => obtain ⟨⟨_, g, _⟩, _⟩ := this; show t < _; omega

/-- A link-layer packet with any sequence of header fields and a fragment: the application sees the
known header fields in order and exactly the bytes of the fragment. -/
theorem C26_decode (fs : List LpField) (h : ∀ f ∈ fs, LpFieldOk f) (frag : Bytes)
    (after : List (Nat × Bytes)) (ha : ∀ p ∈ after, p.1 < 2 ^ 64 ∧ ¬ critical p.1) (extra : Bytes)
    (hl : (flat (fs.map lpFieldTlv ++ (80, frag) :: after)).length < 2 ^ 64) :
    decodeLpPacket (tlv 100 (flat (fs.map lpFieldTlv ++ (80, frag) :: after)) ++ extra)
      = .ok ⟨fs.filterMap lpHeaderOf, some frag⟩ := by
  have hat := At.start (t := 100) (rest := extra) (by omega) hl
  obtain ⟨e', o1, g1, g2, g3⟩ := nested_At hat (by
    intro p hp
    rcases List.mem_append.mp hp with hp | hp
    · exact lpTypes h p hp
    · rcases List.mem_cons.mp hp with rfl | hp
      · show (80 : Nat) < _; decide
      · exact (ha p hp).1)
  have hb := g2.stop
  obtain ⟨f2, o2, k1, k2, k3⟩ := decodeLpLoop_fields fs h (e' - o1) o1 {} g2 (by omega)
  have hlt := k3.lt
  obtain ⟨o3, m1, m2⟩ := decodeLpField_fragment (lp := ⟨[] ++ fs.filterMap lpHeaderOf, none⟩) k3
  unfold decodeLpPacket runDec decodeLpPacketFrom
  rw [Dec.bind_ok g1, Dec.bind_ok (getOffset_run _ _)]
  have hloop : (decodeLpLoop e' (e' - o1) {}).run
      (tlv 100 (flat (fs.map lpFieldTlv ++ (80, frag) :: after)) ++ extra) o1
      = .ok (⟨fs.filterMap lpHeaderOf, some frag⟩, o3) := by
    rw [k1]
    cases f2 with
    | zero => omega
    | succ f2 =>
      rw [decodeLpLoop.eq_def]
      dsimp only
      rw [Dec.bind_ok (getOffset_run _ _), if_pos hlt, Dec.bind_ok m1]
      rfl
  rw [Dec.bind_ok hloop, Dec.bind_ok (finishNestedTlvs_skip_At m2 (Or.inr fun p hp => (ha p hp).2))]
  rfl

/-- Without a fragment (an idle packet). -/
theorem C26_decode_no_fragment (fs : List LpField) (h : ∀ f ∈ fs, LpFieldOk f) (extra : Bytes)
    (hl : (flat (fs.map lpFieldTlv)).length < 2 ^ 64) :
    decodeLpPacket (tlv 100 (flat (fs.map lpFieldTlv)) ++ extra) = .ok ⟨fs.filterMap lpHeaderOf, none⟩ := by
  have hat := At.start (t := 100) (rest := extra) (by omega) hl
  obtain ⟨e', o1, g1, g2, g3⟩ := nested_At hat (lpTypes h)
  have hb := g2.stop
  obtain ⟨f2, o2, k1, k2, k3⟩ := decodeLpLoop_fields (l := []) fs h (e' - o1) o1 {}
    (by rw [List.append_nil]; exact g2) (by omega)
  have := k3.nil
  subst this
  unfold decodeLpPacket runDec decodeLpPacketFrom
  rw [Dec.bind_ok g1, Dec.bind_ok (getOffset_run _ _)]
  rw [Dec.bind_ok (k1.trans (decodeLpLoop_end _)), Dec.bind_ok finishNestedTlvs_end]
  simp

/-- An unknown header field outside the ignorable range makes the packet an error, whatever precedes or
follows it. -/
theorem C26_unknown_refused (fs : List LpField) (h : ∀ f ∈ fs, LpFieldOk f) (t : Nat) (v : Bytes)
    (ht : t < 2 ^ 64) (hu : t ≠ 80 ∧ t ≠ 800 ∧ t ≠ 817 ∧ t ≠ 832 ∧ ¬ lpIgnorable t)
    (after : List (Nat × Bytes)) (ha : ∀ p ∈ after, p.1 < 2 ^ 64) (extra : Bytes)
    (hl : (flat (fs.map lpFieldTlv ++ (t, v) :: after)).length < 2 ^ 64) :
    decodeLpPacket (tlv 100 (flat (fs.map lpFieldTlv ++ (t, v) :: after)) ++ extra) = .error .value := by
  have hat := At.start (t := 100) (rest := extra) (by omega) hl
  obtain ⟨e', o1, g1, g2, g3⟩ := nested_At hat (by
    intro p hp
    rcases List.mem_append.mp hp with hp | hp
    · exact lpTypes h p hp
    · rcases List.mem_cons.mp hp with rfl | hp
      · exact ht
      · exact ha p hp)
  have hb := g2.stop
  obtain ⟨f2, o2, k1, k2, k3⟩ := decodeLpLoop_fields fs h (e' - o1) o1 {} g2 (by omega)
  have hlt := k3.lt
  unfold decodeLpPacket runDec decodeLpPacketFrom
  rw [Dec.bind_ok g1, Dec.bind_ok (getOffset_run _ _)]
  have hloop : (decodeLpLoop e' (e' - o1) {}).run
      (tlv 100 (flat (fs.map lpFieldTlv ++ (t, v) :: after)) ++ extra) o1 = .error .value := by
    rw [k1]
    cases f2 with
    | zero => omega
    | succ f2 =>
      obtain ⟨p1, p2, h1, h2, ⟨rest, hd⟩, hb, hlt', hnext⟩ := At.header k3
      rw [decodeLpLoop.eq_def]
      dsimp only
      rw [Dec.bind_ok (getOffset_run _ _), if_pos hlt]
      have : ∀ lp, (decodeLpField lp).run
          (tlv 100 (flat (fs.map lpFieldTlv ++ (t, v) :: after)) ++ extra) o2 = .error .value := by
        intro lp
        unfold decodeLpField
        rw [Dec.bind_ok h1, Dec.bind_ok h2, Dec.bind_ok (getOffset_run _ _), Dec.bind_ok (inputLen_run _ _),
          if_neg (by omega), if_neg hu.1]
        unfold decodeLpHeader
        rw [if_neg hu.2.1, if_neg hu.2.2.1, if_neg hu.2.2.2.1, if_pos (by
          cases hc : lpCanIgnore t with
          | false => rfl
          | true => exact absurd ((lpCanIgnore_iff t).mp hc) hu.2.2.2.2)]
        exact Dec.bind_error rfl
      exact Dec.bind_error (this _)
  rw [Dec.bind_error hloop]

/-- The Nack for an Interest is a link-layer packet with the reason and the bytes of the Interest, and
decodes to them. -/
theorem C26_nack (interest : Bytes) (n : NetworkNack) (h : NackOk n) (extra : Bytes) :
    ∃ wire code, nackCode n = some code ∧ encodeLpNack interest n = .ok wire ∧
      wire = tlv 100 (tlv 800 (tlv 801 (nonNeg code)) ++ tlv 80 interest) ∧
      (wire.length < 2 ^ 64 → ∃ lp, decodeLpPacket (wire ++ extra) = .ok lp ∧ lp.fragment = some interest ∧
        lp.firstNack = some ⟨n.reason, if n.reason = 0x7fff then n.otherReasonCode else -1⟩ ∧
        lp.headers.length = 1) := by
  obtain ⟨c, c1, c2, c3⟩ := nackOfCode_spec h
  refine ⟨_, c, c1, ?_, rfl, fun hl => ?_⟩
  · have hreason : ∀ k : Int → Except Err Bytes, (do
        let reason ← if n.reason = 0 ∨ n.reason = 50 ∨ n.reason = 100 ∨ n.reason = 150 then
            (.ok (n.reason : Int) : Except Err Int)
          else if n.reason = 0x7fff then .ok n.otherReasonCode else .error .runtime
        k reason) = k c := by
      intro k
      obtain ⟨r, o⟩ := n
      unfold NackOk at h
      unfold nackCode at c1
      dsimp only at h c1 ⊢
      by_cases h4 : r = 0 ∨ r = 50 ∨ r = 100 ∨ r = 150
      · rw [if_pos h4] at c1 ⊢; cases c1; rfl
      · rw [if_neg h4] at c1 ⊢
        split at c1
        · next h5 => cases c1; rw [if_pos h5.1, Int.toNat_of_nonneg h5.2]; rfl
        · cases c1
    unfold encodeLpNack
    dsimp only
    rw [hreason]
    simp only [blobTlv_flat, Option.getD_some, nonNegTlv_flat, bind, Except.bind, pure, Except.pure,
      Nat.sub_zero]
    rw [closeTlv]
    have hw : ∀ o : Bytes, writeTypeAndLength 100 o.length o = tlv 100 o := by
      intro o; simpa using writeTypeAndLength_tlv 100 o []
    rw [hw]
    simp [flat]
  · have := C26_decode [.nack n []] (by intro f hf; simp at hf; subst hf; exact ⟨h, by simp⟩) interest [] (by simp)
      extra (by
        rw [tlv_length] at hl
        simp [flat, lpFieldTlv, c1] at hl ⊢; omega)
    refine ⟨⟨[.nack n []].filterMap lpHeaderOf, some interest⟩, ?_, rfl, rfl, rfl⟩
    rw [← this]
    simp [flat, lpFieldTlv, c1]

/-- A reason that does not exist cannot be encoded. -/
theorem C26_bad_reason (interest : Bytes) (n : NetworkNack) (h : n.reason ≠ 0x7fff) (hc : nackCode n = none) :
    encodeLpNack interest n = .error .runtime := by
  unfold nackCode at hc
  split at hc
  · cases hc
  · next h4 =>
    unfold encodeLpNack
    simp [h4, h, bind, Except.bind]

/-- A negative code is refused. -/
theorem C26_negative_code (interest : Bytes) (o : Int) (h : o < 0) :
    encodeLpNack interest ⟨0x7fff, o⟩ = .error .value := by
  unfold encodeLpNack writeNonNegativeIntegerTlv writeNonNegativeInteger
  simp [bind, Except.bind, h]

example : NackOk ⟨0x7fff, 160⟩ ∧ NackOk ⟨150, -1⟩ ∧
    (∀ f ∈ [LpField.unknown 804 [1, 2], .incomingFaceId 300, .congestionMark 1, .nack ⟨50, -1⟩ [(802, [])]],
      LpFieldOk f) := by
  refine ⟨by unfold NackOk; decide, by unfold NackOk; decide, ?_⟩
  intro f hf
  simp at hf
  rcases hf with rfl | rfl | rfl | rfl
  · exact ⟨by unfold lpIgnorable; decide, by decide, by decide⟩
  · show (300 : Nat) < _; decide
  · show (1 : Nat) < _; decide
  · exact ⟨by unfold NackOk; decide, by intro p hp; simp at hp; subst hp; unfold critical; decide⟩

end PyNDN
