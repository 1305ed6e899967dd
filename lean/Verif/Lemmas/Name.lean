import Verif.Spec.Name
import Verif.Lemmas.Fields
/-
Helper lemmas about names.
-/
namespace PyNDN
open Spec (compLt nameLt Canonical CanonicalName nameFields nameTlv flat tlv)

theorem blobEquals_iff (a b : Bytes) : blobEquals a b = true ↔ a = b := by
  unfold blobEquals
  induction a generalizing b with
  | nil => cases b <;> simp
  | cons x xs ih =>
    cases b with
    | nil => simp
    | cons y ys =>
      have := ih ys
      simp only [List.length_cons, ne_eq, Nat.add_right_cancel_iff, List.zip_cons_cons,
        List.all_cons, List.cons.injEq] at this ⊢
      rw [← this]
      by_cases h : xs.length = ys.length <;> simp [h]

theorem component_equals_iff (a b : Component) : a.equals b = true ↔ a = b := by
  obtain ⟨ta, va⟩ := a
  obtain ⟨tb, vb⟩ := b
  unfold Component.equals
  cases ta <;> cases tb <;> simp [blobEquals_iff] <;> exact And.comm

theorem blobCompare_cases (a b : Bytes) :
    (blobCompare a b = -1 ∧ a < b) ∨ (blobCompare a b = 0 ∧ a = b) ∨
    (blobCompare a b = 1 ∧ b < a) := by
  induction a generalizing b with
  | nil => cases b <;> simp [blobCompare]
  | cons x xs ih =>
    cases b with
    | nil => simp [blobCompare]
    | cons y ys =>
      unfold blobCompare
      by_cases h1 : x < y
      · left; simp [h1, List.cons_lt_cons_iff]
      · by_cases h2 : y < x
        · right; right; simp [h1, h2, List.cons_lt_cons_iff]
        · have : x = y := by
            apply UInt8.toNat_inj.mp
            have h1 : ¬ x.toNat < y.toNat := h1
            have h2 : ¬ y.toNat < x.toNat := h2
            omega
          subst this
          simp only [h1, if_false, List.cons_lt_cons_iff, false_or, true_and,
            List.cons.injEq]
          exact ih ys

theorem bytes_lt_irrefl (a : Bytes) : ¬ a < a := List.lt_irrefl a
theorem bytes_lt_trans {a b c : Bytes} (h1 : a < b) (h2 : b < c) : a < c := List.lt_trans h1 h2
theorem bytes_lt_asymm {a b : Bytes} (h1 : a < b) : ¬ b < a :=
  fun h2 => bytes_lt_irrefl a (bytes_lt_trans h1 h2)

open Spec (key keyLt)

theorem component_compare_cases (a b : Component) :
    (a.compare b = -1 ∧ compLt a b) ∨ (a.compare b = 0 ∧ key a = key b) ∨
    (a.compare b = 1 ∧ compLt b a) := by
  unfold Component.compare compLt keyLt key
  simp only [Prod.mk.injEq]
  by_cases h1 : a.type.code < b.type.code
  · left; simp [h1]
  by_cases h2 : a.type.code > b.type.code
  · right; right; simp [h1, h2]
  have h3 : a.type.code = b.type.code := by omega
  simp only [h3, Nat.lt_irrefl, gt_iff_lt, if_false, false_or, true_and]
  by_cases h4 : a.value.length < b.value.length
  · left; simp [h4]
  by_cases h5 : b.value.length < a.value.length
  · right; right; simp [h4, h5]
  have h6 : a.value.length = b.value.length := by omega
  simp only [h6, Nat.lt_irrefl, if_false, false_or, true_and]
  exact blobCompare_cases _ _

theorem keyLt_irrefl (a : Nat × Bytes) : ¬ keyLt a a := by
  unfold keyLt
  have := bytes_lt_irrefl a.2
  simp [this]

theorem keyLt_trans {a b c : Nat × Bytes} (h1 : keyLt a b) (h2 : keyLt b c) : keyLt a c := by
  unfold keyLt at *
  rcases h1 with h1 | ⟨h1, h1' | ⟨h1', h1''⟩⟩ <;> rcases h2 with h2 | ⟨h2, h2' | ⟨h2', h2''⟩⟩
  all_goals first
    | (left; omega)
    | (right; refine ⟨by omega, ?_⟩; left; omega)
    | (right; refine ⟨by omega, ?_⟩; right; exact ⟨by omega, bytes_lt_trans h1'' h2''⟩)

theorem keyLt_asymm {a b : Nat × Bytes} (h : keyLt a b) : ¬ keyLt b a :=
  fun h' => keyLt_irrefl a (keyLt_trans h h')

theorem canonical_key {a b : Component} (ha : Canonical a) (hb : Canonical b) (h : key a = key b) :
    a = b := by
  obtain ⟨ta, va⟩ := a
  obtain ⟨tb, vb⟩ := b
  unfold key at h
  simp only [Prod.mk.injEq] at h
  obtain ⟨h1, h2⟩ := h
  subst h2
  cases ta <;> cases tb <;> simp_all [CType.code, Canonical]

theorem canonical_fields {a b : Name} (ha : CanonicalName a) (hb : CanonicalName b)
    (h : nameFields a = nameFields b) : a = b := by
  induction a generalizing b with
  | nil => cases b <;> simp_all [nameFields]
  | cons x xs ih =>
    cases b with
    | nil => simp [nameFields] at h
    | cons y ys =>
      simp only [nameFields, List.map_cons, List.cons.injEq] at h
      rw [canonical_key (ha x (by simp)) (hb y (by simp)) h.1,
        ih (fun c hc => ha c (by simp [hc])) (fun c hc => hb c (by simp [hc])) h.2]

/-! ### Lexicographic order on fields -/

abbrev Fields := List (Nat × Bytes)

theorem lex_cons_iff {x y : Nat × Bytes} {xs ys : Fields} :
    List.Lex keyLt (x :: xs) (y :: ys) ↔ keyLt x y ∨ (x = y ∧ List.Lex keyLt xs ys) := by
  constructor
  · intro h
    cases h with
    | rel h => exact Or.inl h
    | cons h => exact Or.inr ⟨rfl, h⟩
  · rintro (h | ⟨rfl, h⟩)
    · exact List.Lex.rel h
    · exact List.Lex.cons h

theorem lex_irrefl (a : Fields) : ¬ List.Lex keyLt a a := by
  induction a with
  | nil => intro h; cases h
  | cons x xs ih =>
    rw [lex_cons_iff]
    rintro (h | ⟨_, h⟩)
    · exact keyLt_irrefl _ h
    · exact ih h

theorem lex_trans {a b c : Fields} (h1 : List.Lex keyLt a b) (h2 : List.Lex keyLt b c) : List.Lex keyLt a c := by
  induction a generalizing b c with
  | nil =>
    cases c with
    | nil => cases h2
    | cons => exact List.Lex.nil
  | cons x xs ih =>
    cases b with
    | nil => cases h1
    | cons y ys =>
      cases c with
      | nil => cases h2
      | cons z zs =>
        rw [lex_cons_iff] at *
        rcases h1 with h1 | ⟨rfl, h1⟩ <;> rcases h2 with h2 | ⟨rfl, h2⟩
        · exact Or.inl (keyLt_trans h1 h2)
        · exact Or.inl h1
        · exact Or.inl h2
        · exact Or.inr ⟨rfl, ih h1 h2⟩

theorem lex_asymm {a b : Fields} (h : List.Lex keyLt a b) : ¬ List.Lex keyLt b a :=
  fun h' => lex_irrefl a (lex_trans h h')

theorem compareLoop_cases (m n : Int) (a b : Name) (h : m - n = (a.length : Int) - b.length) :
    (compareLoop m n a b = -1 ∧ nameLt a b) ∨
    (compareLoop m n a b = 0 ∧ nameFields a = nameFields b) ∨
    (compareLoop m n a b = 1 ∧ nameLt b a) := by
  unfold nameLt nameFields
  induction a generalizing b with
  | nil =>
    cases b with
    | nil =>
      right; left
      simp only [compareLoop, List.length_nil] at h ⊢
      rw [if_neg (by omega), if_neg (by omega)]
      simp
    | cons y ys =>
      left
      simp only [compareLoop, List.length_nil, List.length_cons] at h ⊢
      rw [if_pos (by omega)]
      exact ⟨rfl, List.Lex.nil⟩
  | cons x xs ih =>
    cases b with
    | nil =>
      right; right
      simp only [compareLoop, List.length_nil, List.length_cons] at h ⊢
      rw [if_neg (by omega), if_pos (by omega)]
      exact ⟨rfl, List.Lex.nil⟩
    | cons y ys =>
      simp only [List.length_cons] at h
      have hx := component_compare_cases x y
      simp only [compareLoop, List.map_cons, lex_cons_iff, List.cons.injEq]
      unfold compLt at hx
      rcases hx with ⟨h1, h2⟩ | ⟨h1, h2⟩ | ⟨h1, h2⟩
      · left; rw [h1]; simp [h2]
      · rw [h1, h2]
        simp only [if_true, true_and]
        rcases ih ys (by omega) with ⟨h3, h4⟩ | ⟨h3, h4⟩ | ⟨h3, h4⟩
        · left; exact ⟨h3, Or.inr h4⟩
        · right; left; exact ⟨h3, h4⟩
        · right; right; exact ⟨h3, Or.inr h4⟩
      · right; right; rw [h1]; simp [h2]

theorem name_compare_cases (a b : Name) :
    (a.compare b = -1 ∧ nameLt a b) ∨ (a.compare b = 0 ∧ nameFields a = nameFields b) ∨
    (a.compare b = 1 ∧ nameLt b a) := compareLoop_cases _ _ a b rfl

theorem equalsLoop_iff (a b : Name) : equalsLoop a b = true ↔ a = b := by
  induction a generalizing b with
  | nil => cases b <;> simp [equalsLoop]
  | cons x xs ih =>
    cases b with
    | nil => simp [equalsLoop]
    | cons y ys =>
      simp only [equalsLoop, List.cons.injEq, ← ih ys, ← component_equals_iff x y]
      cases equalsLoop xs ys <;> simp

theorem name_equals_iff (a b : Name) : a.equals b = true ↔ a = b := by
  unfold Name.equals
  split
  · next h => simp; intro h'; exact h (by rw [h'])
  · exact equalsLoop_iff a b

theorem matchLoop_iff (a b : Name) :
    matchLoop a b = true ↔ a.map Component.value <+: b.map Component.value := by
  induction a generalizing b with
  | nil => simp [matchLoop]
  | cons x xs ih =>
    cases b with
    | nil => simp [matchLoop]
    | cons y ys =>
      simp only [matchLoop, List.map_cons, List.cons_prefix_cons, ← ih ys, ← blobEquals_iff x.value]
      cases matchLoop xs ys <;> simp

theorem matches_iff (a b : Name) :
    a.matches b = true ↔ a.map Component.value <+: b.map Component.value := by
  unfold Name.matches
  split
  · next h =>
    simp only [Bool.false_eq_true, false_iff]
    intro h'
    have := h'.length_le
    simp at this; omega
  · exact matchLoop_iff a b

/-! ### Numbers -/

theorem accumulate_append (a : Bytes) (b : UInt8) : accumulate (a ++ [b]) = accumulate a * 256 + b.toNat := by
  simp [accumulate]

theorem accumulate_foldl (a : Bytes) (r : Nat) :
    a.foldl (fun r b => r * 256 + b.toNat) r = r * 256 ^ a.length + accumulate a := by
  unfold accumulate
  induction a generalizing r with
  | nil => simp
  | cons x xs ih =>
    simp only [List.foldl_cons, List.length_cons]
    rw [ih, ih (0 * 256 + x.toNat)]
    rw [Nat.pow_succ, Nat.add_mul, Nat.add_mul, Nat.mul_assoc, Nat.mul_comm 256]
    omega

theorem accumulate_cons (x : UInt8) (xs : Bytes) :
    accumulate (x :: xs) = x.toNat * 256 ^ xs.length + accumulate xs := by
  show xs.foldl (fun r b => r * 256 + b.toNat) (0 * 256 + x.toNat) = _
  rw [accumulate_foldl]; simp

theorem accumulate_lt (xs : Bytes) : accumulate xs < 256 ^ xs.length := by
  induction xs with
  | nil => simp [accumulate]
  | cons x xs ih =>
    rw [accumulate_cons, List.length_cons, Nat.pow_succ]
    have := x.toNat_lt
    calc x.toNat * 256 ^ xs.length + accumulate xs
        < x.toNat * 256 ^ xs.length + 256 ^ xs.length := by omega
      _ = (x.toNat + 1) * 256 ^ xs.length := by rw [Nat.add_mul]; omega
      _ ≤ 256 * 256 ^ xs.length := Nat.mul_le_mul_right _ (by omega)
      _ = 256 ^ xs.length * 256 := Nat.mul_comm _ _

/-- For byte strings of the same length the byte order is the numeric order. -/
theorem lt_iff_accumulate {a b : Bytes} (h : a.length = b.length) :
    a < b ↔ accumulate a < accumulate b := by
  induction a generalizing b with
  | nil => cases b <;> simp_all [accumulate]
  | cons x xs ih =>
    cases b with
    | nil => simp at h
    | cons y ys =>
      simp only [List.length_cons, Nat.add_right_cancel_iff] at h
      rw [List.cons_lt_cons_iff, ih h, accumulate_cons, accumulate_cons, h]
      have h1 := accumulate_lt xs
      have h2 := accumulate_lt ys
      rw [h] at h1
      have key : ∀ p q : Nat, p < q → p * 256 ^ ys.length + accumulate xs
          < q * 256 ^ ys.length + accumulate ys := by
        intro p q hpq
        have : (p + 1) * 256 ^ ys.length ≤ q * 256 ^ ys.length := Nat.mul_le_mul_right _ hpq
        rw [Nat.add_mul] at this; omega
      have key' : ∀ p q : Nat, p < q → p * 256 ^ ys.length + accumulate ys
          < q * 256 ^ ys.length + accumulate xs := by
        intro p q hpq
        have : (p + 1) * 256 ^ ys.length ≤ q * 256 ^ ys.length := Nat.mul_le_mul_right _ hpq
        rw [Nat.add_mul] at this; omega
      rcases Nat.lt_trichotomy x.toNat y.toNat with hlt | heq | hgt
      · have hlt' : x < y := hlt
        simp only [hlt', true_or, true_iff]
        exact key _ _ hlt
      · have : x = y := UInt8.toNat_inj.mp heq
        subst this
        have hn : ¬ x < x := by show ¬ x.toNat < x.toNat; omega
        simp only [hn, true_and, false_or]
        omega
      · have h1' : ¬ x < y := by show ¬ x.toNat < y.toNat; omega
        have h2' : ¬ x = y := by intro e; subst e; omega
        simp only [h1', h2', false_and, or_self, false_iff]
        have := key' _ _ hgt
        omega

theorem accumulate_inj {a b : Bytes} (h : a.length = b.length) (he : accumulate a = accumulate b) :
    a = b := by
  rcases blobCompare_cases a b with ⟨_, h'⟩ | ⟨_, h'⟩ | ⟨_, h'⟩
  · rw [lt_iff_accumulate h] at h'; omega
  · exact h'
  · rw [lt_iff_accumulate h.symm] at h'; omega

theorem successorLoop_spec (a : Bytes) :
    (successorLoop a).1.length = a.length ∧
    ((successorLoop a).2 = true → accumulate a + 1 = 256 ^ a.length ∧
      (successorLoop a).1 = List.replicate a.length 0) ∧
    ((successorLoop a).2 = false → accumulate (successorLoop a).1 = accumulate a + 1) := by
  induction a with
  | nil => simp [successorLoop, accumulate]
  | cons x xs ih =>
    obtain ⟨h1, h2, h3⟩ := ih
    unfold successorLoop
    cases hc : (successorLoop xs).2 with
    | false =>
      have h3 := h3 hc
      simp only [hc, Bool.false_eq_true, if_false, List.length_cons, h1, false_imp_iff, true_and,
        forall_const]
      rw [accumulate_cons, accumulate_cons, h1, h3]; omega
    | true =>
      obtain ⟨h4, h5⟩ := h2 hc
      simp only [hc, if_true, List.length_cons, h1, true_and, beq_iff_eq]
      have hx := x.toNat_lt
      have e : (x + 1).toNat = (x.toNat + 1) % 256 := by simp [UInt8.toNat_add]
      constructor
      · intro h0
        have : (x + 1).toNat = 0 := by rw [h0]; rfl
        have hx255 : x.toNat = 255 := by omega
        refine ⟨?_, ?_⟩
        · rw [accumulate_cons, hx255, Nat.pow_succ]; omega
        · rw [h0, h5]; rfl
      · intro h0
        have hne : ¬ (x + 1).toNat = 0 := by
          intro h'
          have : x + 1 = 0 := UInt8.toNat_inj.mp h'
          rw [this] at h0; simp at h0
        have hx254 : (x + 1).toNat = x.toNat + 1 := by omega
        rw [accumulate_cons, accumulate_cons, hx254, h5, List.length_replicate, Nat.add_mul]
        have : accumulate (List.replicate xs.length 0) = 0 := by
          generalize xs.length = k
          induction k with
          | zero => rfl
          | succ k ih => rw [List.replicate_succ, accumulate_cons, ih]; simp
        rw [this]; omega

end PyNDN
