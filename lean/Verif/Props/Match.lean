import Verif.Spec.Match
import Verif.Props.Name
/-
C18: Exclude.  C19: which Data an Interest matches.
-/
namespace PyNDN
open Spec

/-! ## C18 -/

theorem compare_pos_iff (a b : Component) : a.compare b > 0 ↔ compLt b a := by
  rw [← C10_compare_gt]
  rcases C10_total a b with h | h | h <;> omega

theorem compare_neg_iff (a b : Component) : a.compare b < 0 ↔ compLt a b := by
  rw [← C10_compare_lt]
  rcases C10_total a b with h | h | h <;> omega

/-- `Excluded` for the rest of the entries, when `p` was the last component listed before them. -/
def ExcludedFrom (c : Component) (p : Option Component) (es : Exclude) : Prop :=
  some c ∈ es ∨
  ∃ l r, es = l ++ none :: r ∧ (∀ lo, (lastListed l <|> p) = some lo → compLt lo c) ∧
    (∀ hi, firstListed r = some hi → compLt c hi)

theorem excludedFrom_none (c : Component) (es : Exclude) : ExcludedFrom c none es ↔ Excluded es c := by
  simp [ExcludedFrom, Excluded]

theorem lastListed_some (d : Component) (l : Exclude) (p : Option Component) :
    (lastListed (some d :: l) <|> p) = (lastListed l <|> some d) := by
  unfold lastListed
  simp only [List.filterMap_cons, id]
  rw [List.getLast?_cons]
  cases h : (List.filterMap id l).getLast? <;> simp

theorem lastListed_none (l : Exclude) : lastListed (none :: l) = lastListed l := rfl

theorem excludedFrom_listed (c d : Component) (p : Option Component) (es : Exclude) :
    ExcludedFrom c p (some d :: es) ↔ c = d ∨ ExcludedFrom c (some d) es := by
  unfold ExcludedFrom
  constructor
  · rintro (h | ⟨l, r, h1, h2, h3⟩)
    · rcases List.mem_cons.mp h with h | h
      · cases h; exact Or.inl rfl
      · exact Or.inr (Or.inl h)
    · cases l with
      | nil => simp at h1
      | cons x l =>
        simp only [List.cons_append, List.cons.injEq] at h1
        obtain ⟨rfl, h1⟩ := h1
        exact Or.inr (Or.inr ⟨l, r, h1, by rw [← lastListed_some d l p]; exact h2, h3⟩)
  · rintro (h | h | ⟨l, r, h1, h2, h3⟩)
    · subst h; exact Or.inl (by simp)
    · exact Or.inl (List.mem_cons_of_mem _ h)
    · exact Or.inr ⟨some d :: l, r, by rw [h1]; rfl, by rw [lastListed_some d l p]; exact h2, h3⟩

theorem excludedFrom_any (c : Component) (p : Option Component) (es : Exclude) :
    ExcludedFrom c p (none :: es) ↔
      ((∀ lo, p = some lo → compLt lo c) ∧ (∀ hi, firstListed es = some hi → compLt c hi)) ∨
      ExcludedFrom c p es := by
  unfold ExcludedFrom
  constructor
  · rintro (h | ⟨l, r, h1, h2, h3⟩)
    · rcases List.mem_cons.mp h with h | h
      · cases h
      · exact Or.inr (Or.inl h)
    · cases l with
      | nil =>
        simp only [List.nil_append, List.cons.injEq, true_and] at h1
        subst h1
        exact Or.inl ⟨h2, h3⟩
      | cons x l =>
        simp only [List.cons_append, List.cons.injEq] at h1
        obtain ⟨rfl, h1⟩ := h1
        exact Or.inr (Or.inr ⟨l, r, h1, h2, h3⟩)
  · rintro (⟨h1, h2⟩ | h | ⟨l, r, h1, h2, h3⟩)
    · exact Or.inr ⟨[], es, rfl, h1, h2⟩
    · exact Or.inl (List.mem_cons_of_mem _ h)
    · exact Or.inr ⟨none :: l, r, by rw [h1]; rfl, h2, h3⟩

theorem findUpper_some {es : Exclude} {u : Component} {rest : Exclude} (h : findUpper es = some (u, rest)) :
    firstListed es = some u ∧ ∃ k, es = List.replicate k none ++ some u :: rest := by
  induction es with
  | nil => cases h
  | cons e es ih =>
    cases e with
    | none =>
      obtain ⟨h1, k, h2⟩ := ih h
      exact ⟨h1, k + 1, by rw [h2]; rfl⟩
    | some c => cases h; exact ⟨rfl, 0, rfl⟩

theorem findUpper_none {es : Exclude} (h : findUpper es = none) : ∃ k, es = List.replicate k none := by
  induction es with
  | nil => exact ⟨0, rfl⟩
  | cons e es ih =>
    cases e with
    | none => obtain ⟨k, h2⟩ := ih h; exact ⟨k + 1, by rw [h2]; rfl⟩
    | some c => cases h

theorem excludedFrom_range (c u : Component) (p : Option Component) (rest : Exclude) (k : Nat) :
    ExcludedFrom c p (none :: (List.replicate k none ++ some u :: rest)) ↔
      ((∀ lo, p = some lo → compLt lo c) ∧ compLt c u) ∨ c = u ∨ ExcludedFrom c (some u) rest := by
  have hf : ∀ k, firstListed (List.replicate k none ++ some u :: rest) = some u := by
    intro k
    induction k with
    | zero => rfl
    | succ k ih => exact ih
  induction k with
  | zero =>
    rw [excludedFrom_any, hf 0]
    simp only [List.replicate_zero, List.nil_append, excludedFrom_listed, Option.some.injEq, forall_eq']
  | succ k ih =>
    rw [excludedFrom_any, hf (k + 1)]
    have : List.replicate (k + 1) (none : Option Component) ++ some u :: rest
        = none :: (List.replicate k none ++ some u :: rest) := rfl
    rw [this, propext ih]
    simp only [Option.some.injEq, forall_eq']
    constructor
    · rintro (h | h)
      · exact Or.inl h
      · exact h
    · exact Or.inr

theorem excludedFrom_end (c : Component) (p : Option Component) (k : Nat) :
    ExcludedFrom c p (none :: List.replicate k none) ↔ ∀ lo, p = some lo → compLt lo c := by
  have hf : ∀ k, firstListed (List.replicate k none) = none := by
    intro k
    induction k with
    | zero => rfl
    | succ k ih => exact ih
  have h0 : ¬ ExcludedFrom c p [] := by simp [ExcludedFrom]
  induction k with
  | zero => rw [excludedFrom_any, hf 0]; simp [h0]
  | succ k ih =>
    rw [excludedFrom_any, hf (k + 1)]
    have : List.replicate (k + 1) (none : Option Component) = none :: List.replicate k none := rfl
    rw [this, propext ih]
    simp

theorem endsInAnyAny_cons (d : Component) (e : Component) (es : Exclude) :
    EndsInAnyAny (some e :: some d :: es) ↔ EndsInAnyAny (some d :: es) := by
  constructor
  · rintro ⟨l, c, k, h⟩
    cases l with
    | nil => simp at h
    | cons x l => simp only [List.cons_append, List.cons.injEq] at h; exact ⟨l, c, k, h.2⟩
  · rintro ⟨l, c, k, h⟩
    exact ⟨some e :: l, c, k, by rw [h]; rfl⟩

theorem endsInAnyAny_skip (l0 : Exclude) (u : Component) (rest : Exclude) :
    EndsInAnyAny (l0 ++ some u :: rest) ↔ EndsInAnyAny (some u :: rest) := by
  constructor
  · rintro ⟨l, c, k, h⟩
    rw [List.append_eq_append_iff] at h
    rcases h with ⟨a, h1, h2⟩ | ⟨a, h1, h2⟩
    · exact ⟨a, c, k, h2⟩
    · cases a with
      | nil => exact ⟨[], c, k, by simpa using h2.symm⟩
      | cons x a =>
        exfalso
        simp only [List.cons_append, List.cons.injEq] at h2
        have : some u ∈ none :: none :: List.replicate k (none : Option Component) := by
          rw [h2.2]; simp
        simp at this
  · rintro ⟨l, c, k, h⟩
    exact ⟨l0 ++ l, c, k, by rw [h]; simp⟩

theorem matchLoop_spec (c : Component) : ∀ (n : Nat) (es : Exclude) (p : Option Component), es.length ≤ n →
    (Exclude.matchLoop c (p.map some) es = .ok true ∧ ExcludedFrom c p es) ∨
    (¬ ExcludedFrom c p es ∧
      ((Exclude.matchLoop c (p.map some) es = .ok false ∧ ¬ EndsInAnyAny ((p.map some).toList ++ es)) ∨
       (Exclude.matchLoop c (p.map some) es = .error .attribute ∧ EndsInAnyAny ((p.map some).toList ++ es)))) := by
  intro n
  induction n with
  | zero =>
    intro es p hn
    have : es = [] := List.length_eq_zero_iff.mp (by omega)
    subst this
    refine Or.inr ⟨by simp [ExcludedFrom], Or.inl ⟨by rw [Exclude.matchLoop], ?_⟩⟩
    rintro ⟨l, d, k, h⟩
    have := congrArg List.length h
    cases p <;> simp at this <;> omega
  | succ n ih =>
    intro es p hn
    match es with
    | [] =>
      refine Or.inr ⟨by simp [ExcludedFrom], Or.inl ⟨by rw [Exclude.matchLoop], ?_⟩⟩
      rintro ⟨l, d, k, h⟩
      have := congrArg List.length h
      cases p <;> simp at this <;> omega
    | some d :: es =>
      simp only [List.length_cons] at hn
      rw [excludedFrom_listed, Exclude.matchLoop]
      by_cases hc : c = d
      · left
        rw [if_pos ((component_equals_iff _ _).mpr hc)]
        exact ⟨rfl, Or.inl hc⟩
      · rw [if_neg (fun h => hc ((component_equals_iff _ _).mp h))]
        have hb : EndsInAnyAny ((p.map some).toList ++ some d :: es) ↔ EndsInAnyAny (some d :: es) := by
          cases p with
          | none => exact Iff.rfl
          | some e => exact endsInAnyAny_cons d e es
        rw [hb]
        simp only [hc, false_or]
        exact ih es (some d) (by omega)
    | none :: es =>
      simp only [List.length_cons] at hn
      rw [Exclude.matchLoop.eq_def]
      dsimp only
      split
      · next u rest hu =>
        obtain ⟨_, k, hk⟩ := findUpper_some hu
        have hlen := findUpper_length hu
        have hb : EndsInAnyAny ((p.map some).toList ++ none :: es) ↔ EndsInAnyAny (some u :: rest) := by
          have : (p.map some).toList ++ none :: es
              = ((p.map some).toList ++ none :: List.replicate k none) ++ some u :: rest := by
            rw [hk]; simp
          rw [this, endsInAnyAny_skip]
        rw [hb]
        have hex : ExcludedFrom c p (none :: es) ↔
            ((∀ lo, p = some lo → compLt lo c) ∧ compLt c u) ∨ c = u ∨ ExcludedFrom c (some u) rest := by
          rw [hk]; exact excludedFrom_range c u p rest k
        rw [hex]
        have hin : ∃ b : Bool, (b = true ↔ (∀ lo, p = some lo → compLt lo c) ∧ compLt c u) ∧
            insideRange c (p.map some) u = .ok b := by
          cases p with
          | none => exact ⟨_, by simp [compare_neg_iff], rfl⟩
          | some lo =>
            by_cases h1 : c.compare lo > 0
            · exact ⟨c.compare u < 0, by simp [compare_neg_iff, (compare_pos_iff c lo).mp h1],
                by simp [insideRange, compareBound, h1]⟩
            · have h2 : ¬ compLt lo c := fun h => h1 ((compare_pos_iff c lo).mpr h)
              exact ⟨false, by simp [h2], by simp [insideRange, compareBound, h1]⟩
        obtain ⟨b, hb1, hb2⟩ := hin
        rw [hb2, ← hb1]
        simp only [bind, Except.bind]
        cases b with
        | true => left; simp [pure, Except.pure]
        | false =>
          simp only [Bool.false_eq_true, if_false, false_or]
          by_cases hcu : c = u
          · left
            rw [if_pos ((component_equals_iff _ _).mpr hcu)]
            exact ⟨rfl, Or.inl hcu⟩
          · rw [if_neg (fun h => hcu ((component_equals_iff _ _).mp h))]
            simp only [hcu, false_or]
            exact ih rest (some u) (by omega)
      · next hu =>
        obtain ⟨k, hk⟩ := findUpper_none hu
        subst hk
        rw [excludedFrom_end]
        cases p with
        | none => left; simp
        | some lo =>
          simp only [Option.map_some, compareBound, bind, Except.bind, Option.some.injEq, forall_eq']
          by_cases h1 : c.compare lo > 0
          · left; rw [if_pos h1]; exact ⟨rfl, (compare_pos_iff c lo).mp h1⟩
          · right
            rw [if_neg h1]
            refine ⟨fun h => h1 ((compare_pos_iff c lo).mpr h), ?_⟩
            cases k with
            | zero =>
              left
              refine ⟨by rw [List.replicate_zero, Exclude.matchLoop], ?_⟩
              rintro ⟨l, d, k, h⟩
              have := congrArg List.length h
              simp at this
              omega
            | succ k =>
              right
              refine ⟨?_, ⟨[], lo, k, rfl⟩⟩
              have hr : List.replicate (k + 1) (none : Option Component) = none :: List.replicate k none := rfl
              have hfu : ∀ k, findUpper (List.replicate k none) = none := by
                intro k
                induction k with
                | zero => rfl
                | succ k ih => exact ih
              rw [hr, Exclude.matchLoop.eq_def]
              dsimp only
              split
              · next h => rw [hfu] at h; cases h
              · rfl

/-- `Exclude.matches` returns True exactly for the excluded components; for the others it returns
False, except that it raises AttributeError for an Exclude that ends in two ANY after a listed
component. -/
theorem C18_matches (ex : Exclude) (c : Component) :
    (ex.matches c = .ok true ↔ Excluded ex c) ∧
    (ex.matches c = .ok false ↔ ¬ Excluded ex c ∧ ¬ EndsInAnyAny ex) ∧
    (∀ e, ex.matches c = .error e ↔ e = .attribute ∧ ¬ Excluded ex c ∧ EndsInAnyAny ex) := by
  have h := matchLoop_spec c ex.length ex none (Nat.le_refl _)
  rw [excludedFrom_none] at h
  simp only [Option.map_none, Option.toList_none, List.nil_append] at h
  unfold Exclude.matches
  rcases h with ⟨h1, h2⟩ | ⟨h2, ⟨h1, h3⟩ | ⟨h1, h3⟩⟩
  · rw [h1]; simp [h2]
  · rw [h1]; simp [h2, h3]
  · rw [h1]; simp [h2, h3, eq_comm]

/-- The property of the documentation, for every Exclude that does not end in two ANY in a row. -/
theorem C18_matches_partial (ex : Exclude) (c : Component) (h : ¬ EndsInAnyAny ex) :
    (Excluded ex c → ex.matches c = .ok true) ∧ (¬ Excluded ex c → ex.matches c = .ok false) :=
  ⟨(C18_matches ex c).1.mpr, fun hn => (C18_matches ex c).2.1.mpr ⟨hn, h⟩⟩

/-- Why the hypothesis is there: [B, ANY, ANY] does not exclude A, but asking raises AttributeError. -/
theorem C18_anyAny :
    Exclude.matches [some ⟨.generic, [66]⟩, none, none] ⟨.generic, [65]⟩ = .error .attribute ∧
    Exclude.matches [some ⟨.generic, [66]⟩, none] ⟨.generic, [65]⟩ = .ok false := by
  refine ⟨by decide +kernel, by decide +kernel⟩

example : Exclude.matches [none, some ⟨.generic, [66]⟩, none, none, some ⟨.generic, [68]⟩, some ⟨.generic, [70]⟩]
      ⟨.generic, [67]⟩ = .ok true ∧
    Exclude.matches [none, some ⟨.generic, [66]⟩, none, none, some ⟨.generic, [68]⟩, some ⟨.generic, [70]⟩]
      ⟨.generic, [69]⟩ = .ok false := by
  refine ⟨by decide +kernel, by decide +kernel⟩

/-! ## C19 -/

theorem checkKeyLocator_iff (i : Interest) (info : SigInfo) :
    i.checkKeyLocator info = true ↔ KeyLocatorAllows i info := by
  have heq : ∀ a b : KeyLocator, a.equals b = true ↔
      a.type = b.type ∧ (a.type = some 1 → a.keyName = b.keyName) ∧ (a.type = some 2 → a.keyData = b.keyData) := by
    intro a b
    unfold KeyLocator.equals
    by_cases h1 : a.type = b.type
    · rw [if_neg (by simpa using h1)]
      by_cases h2 : a.type = some 1
      · by_cases h3 : a.keyName = b.keyName
        · simp [h1.symm, h2, h3, (name_equals_iff _ _).mpr rfl]
        · have : a.keyName.equals b.keyName = false := by
            cases hh : a.keyName.equals b.keyName with
            | false => rfl
            | true => exact absurd ((name_equals_iff _ _).mp hh) h3
          simp [h1.symm, h2, h3, this]
      · by_cases h3 : a.type = some 2
        · by_cases h4 : a.keyData = b.keyData
          · simp [h1.symm, h3, h4]
          · simp [h1.symm, h3, h4]
        · simp [h1, h1 ▸ h2, h1 ▸ h3]
    · rw [if_pos h1]; simp [h1]
  unfold Interest.checkKeyLocator KeyLocatorAllows SigInfo.keyLocator?
  by_cases h : i.keyLocator.type = none
  · simp [h]
  · rw [if_pos h]
    cases info <;> simp [h, heq]

/-- The digest component at the end of the full name. -/
def digestOf (d : Bytes) : Component := ⟨.implicit, d⟩

theorem pyIndex_last (l : List α) (x : α) : pyIndex (l ++ [x]) (-1) = .ok x := by
  have h := pyIndex_nonneg (l ++ [x]) l.length (by simp)
  unfold pyIndex at *
  have e1 : ¬ (((l ++ [x]).length : Int) < 0) := by omega
  have e2 : (((l ++ [x]).length : Int) + -1) = (l.length : Int) := by simp; omega
  simp only [e2, show ((-1 : Int) < 0) from by decide, if_true]
  have e3 : ¬ ((l.length : Int) < 0) := by omega
  simpa [e3] using h

/-- The name part of the match: the Interest name has the same component values as the start of the
Data name, or is the full name itself. -/
def NamePart (i : Interest) (dataName : Name) (d : Bytes) : Prop :=
  i.name.map Component.value <+: dataName.map Component.value ∨ i.name = dataName ++ [digestOf d]

theorem checkPrefix_eq (i : Interest) (dataName : Name) (d : Bytes) :
    ∃ b, i.checkPrefix dataName (.ok (dataName ++ [digestOf d])) = .ok b ∧
      (b = true ↔ NamePart i dataName d) := by
  unfold Interest.checkPrefix NamePart
  by_cases hl : i.name.length = dataName.length + 1
  · rw [if_pos hl]
    have hne : i.name ≠ [] := by intro h; rw [h] at hl; simp at hl
    obtain ⟨pre, last, hi⟩ : ∃ pre last, i.name = pre ++ [last] :=
      ⟨i.name.dropLast, i.name.getLast hne, (List.dropLast_concat_getLast hne).symm⟩
    have hlast : pyIndex i.name (-1) = .ok last := by rw [hi]; exact pyIndex_last _ _
    have hno : ¬ i.name.map Component.value <+: dataName.map Component.value := by
      intro h; have := h.length_le; simp at this; omega
    simp only [hlast, bind, Except.bind, pure, Except.pure]
    by_cases ht : last.type = .implicit
    · rw [if_pos ht]
      refine ⟨_, rfl, ?_⟩
      rw [name_equals_iff]
      simp [hno]
    · rw [if_neg ht]
      refine ⟨_, rfl, ?_⟩
      simp only [Bool.false_eq_true, hno, false_or, false_iff]
      intro h
      rw [hi] at h
      have := List.append_inj_right' h rfl
      simp only [List.cons.injEq, and_true] at this
      rw [this] at ht
      exact ht rfl
  · rw [if_neg hl]
    refine ⟨_, rfl, ?_⟩
    rw [matches_iff]
    constructor
    · exact Or.inl
    · rintro (h | h)
      · exact h
      · rw [h] at hl; simp at hl

theorem checkExclude_eq (i : Interest) (dataName : Name) (d : Bytes) :
    i.checkExclude dataName (.ok (dataName ++ [digestOf d])) =
      match (dataName ++ [digestOf d])[i.name.length]? with
      | some c => (i.exclude.matches c).map (fun b => !b)
      | none => .ok true := by
  have hemp : ∀ c, Exclude.matches [] c = .ok false := fun c => by
    unfold Exclude.matches; rw [Exclude.matchLoop]
  unfold Interest.checkExclude
  by_cases hl : i.name.length < dataName.length + 1
  · have hlt : i.name.length < (dataName ++ [digestOf d]).length := by simpa using hl
    rw [List.getElem?_eq_getElem hlt]
    dsimp only
    by_cases he : i.exclude.length > 0
    · rw [if_pos ⟨he, hl⟩]
      by_cases h2 : i.name.length = dataName.length + 1 - 1
      · rw [if_pos h2]
        simp only [bind, Except.bind, pyIndex_nonneg _ _ hlt, pure, Except.pure]
        cases i.exclude.matches _ <;> rfl
      · rw [if_neg h2]
        have h3 : i.name.length < dataName.length := by omega
        simp only [bind, Except.bind, pyIndex_nonneg _ _ h3, pure, Except.pure]
        rw [List.getElem_append_left h3]
        cases i.exclude.matches _ <;> rfl
    · rw [if_neg (fun h => he h.1)]
      have : i.exclude = [] := List.length_eq_zero_iff.mp (by omega)
      rw [this, hemp]
      rfl
  · rw [if_neg (fun h => hl h.2), List.getElem?_eq_none (by simp; omega)]
    rfl

/-- `matchesData`, for a Data packet with the given name and signature and whose full name ends in the
digest `d`: True exactly when the name, the suffix count, the Exclude and the key locator allow it; an
exception only from the Exclude (see C18).  The name part compares component values (C14). -/
theorem C19_matchesData_values (i : Interest) (dataName : Name) (d : Bytes) (info : SigInfo) :
    let full := dataName ++ [digestOf d]
    let r := i.matchesData dataName (.ok full) info
    (r = .ok true ↔ NamePart i dataName d ∧ SuffixOk i full.length ∧
      (∀ c, full[i.name.length]? = some c → ¬ Excluded i.exclude c ∧ ¬ EndsInAnyAny i.exclude) ∧
      KeyLocatorAllows i info) ∧
    (∀ e, r = .error e → EndsInAnyAny i.exclude) := by
  dsimp only
  obtain ⟨b, hb1, hb2⟩ := checkPrefix_eq i dataName d
  unfold Interest.matchesData SuffixOk
  simp only [List.length_append, List.length_cons, List.length_nil, Nat.zero_add]
  by_cases h1 : i.name.length + i.minSuffix.getD 0 ≤ dataName.length + 1
  · by_cases h2 : i.maxSuffix.any (fun m => !(decide (i.name.length + m ≥ dataName.length + 1))) = true
    · simp only [h1, decide_true, Bool.not_true, Bool.false_eq_true, if_false, h2, if_true, pure, Except.pure]
      refine ⟨⟨(by intro h; cases h), ?_⟩, (by intro e h; cases h)⟩
      rintro ⟨_, ⟨_, g⟩, _⟩
      cases hm : i.maxSuffix with
      | none => rw [hm] at h2; simp at h2
      | some m => rw [hm] at h2; have := g m hm; simp at h2; omega
    · simp only [h1, decide_true, Bool.not_true, Bool.false_eq_true, if_false, h2, pure, Except.pure, hb1,
        bind, Except.bind]
      have hsfx : (∀ m, i.minSuffix = some m → i.name.length + m ≤ dataName.length + 1) ∧
          (∀ m, i.maxSuffix = some m → dataName.length + 1 ≤ i.name.length + m) := by
        constructor
        · intro m hm; rw [hm] at h1; exact h1
        · intro m hm; rw [hm] at h2; simpa using h2
      rw [checkExclude_eq, ← hb2]
      cases b with
      | false => simp
      | true =>
        simp only [Bool.not_true, Bool.false_eq_true, if_false, true_and, hsfx, implies_true, and_true]
        have hf : ∀ m, i.minSuffix = some m → i.name.length + m ≤ dataName.length + 1 := hsfx.1
        have hg : ∀ m, i.maxSuffix = some m → dataName.length + 1 ≤ i.name.length + m := hsfx.2
        cases hx : (dataName ++ [digestOf d])[i.name.length]? with
        | none =>
          simp [checkKeyLocator_iff]
          exact fun _ => ⟨hf, hg⟩
        | some c =>
          obtain ⟨m1, m2, m3⟩ := C18_matches i.exclude c
          cases hm : i.exclude.matches c with
          | error e =>
            obtain ⟨_, g1, g2⟩ := (m3 e).mp hm
            simp [Except.map, hm, g2]
          | ok v =>
            cases v with
            | true =>
              have := m1.mp hm
              simp [Except.map, hm, this]
            | false =>
              have := m2.mp hm
              simp [Except.map, hm, this.1, this.2, checkKeyLocator_iff]
              exact fun _ => ⟨hf, hg⟩
  · simp only [h1, decide_false, Bool.not_false, if_true, pure, Except.pure]
    refine ⟨⟨(by intro h; cases h), ?_⟩, (by intro e h; cases h)⟩
    rintro ⟨h, ⟨g, _⟩, _⟩
    exfalso
    cases hm : i.minSuffix with
    | some m => rw [hm] at h1; exact h1 (g m hm)
    | none =>
      rw [hm] at h1
      rcases h with h | h
      · have := h.length_le; simp at this h1; omega
      · rw [h] at h1; simp at h1

/-- The documented property: the Interest name is a prefix of the full name of the Data, and the suffix
count, Exclude and key locator are satisfied.  What is missing: an Exclude that ends in ANY, ANY raises
an exception (C18), and component types are not compared except for the full name (see
`C19_ignores_type`), hence the hypotheses. -/
theorem C19_matchesData_partial (i : Interest) (dataName : Name) (d : Bytes) (info : SigInfo)
    (hex : ¬ EndsInAnyAny i.exclude)
    (ht : ∀ k (ha : k < i.name.length) (hb : k < dataName.length), i.name[k].type = dataName[k].type) :
    let full := dataName ++ [digestOf d]
    ∃ b, i.matchesData dataName (.ok full) info = .ok b ∧
      (b = true ↔ i.name <+: full ∧ SuffixOk i full.length ∧
        (∀ c, full[i.name.length]? = some c → ¬ Excluded i.exclude c) ∧ KeyLocatorAllows i info) := by
  dsimp only
  obtain ⟨h1, h2⟩ := C19_matchesData_values i dataName d info
  have hn : NamePart i dataName d ↔ i.name <+: dataName ++ [digestOf d] := by
    unfold NamePart
    rw [← matches_iff, C14_match_iff_prefix_partial _ _ ht, List.prefix_concat_iff]
    exact or_comm
  rw [hn] at h1
  cases hr : i.matchesData dataName (.ok (dataName ++ [digestOf d])) info with
  | error e => exact absurd (h2 e hr) hex
  | ok b =>
    rw [hr] at h1
    simp only [hex, not_false_iff, and_true] at h1
    exact ⟨b, rfl, by rw [← h1]; simp⟩

/-- An Interest for the GENERIC component 1 matches Data whose first component is a KEYWORD-like
component of type 32 with the same value. -/
theorem C19_ignores_type :
    Interest.matchesData { name := [⟨.generic, [1]⟩] } [⟨.other 32, [1]⟩]
      (.ok [⟨.other 32, [1]⟩, digestOf (List.replicate 32 0)]) .digest = .ok true := by decide +kernel

/-- `matchesName`, likewise, without the digest and the key locator. -/
theorem C19_matchesName (i : Interest) (name : Name) :
    (i.matchesName name = .ok true ↔
      i.name.map Component.value <+: name.map Component.value ∧ SuffixOk i (name.length + 1) ∧
      (∀ c, name[i.name.length]? = some c → ¬ Excluded i.exclude c ∧ ¬ EndsInAnyAny i.exclude)) ∧
    (∀ e, i.matchesName name = .error e → EndsInAnyAny i.exclude) := by
  have hemp : ∀ c, Exclude.matches [] c = .ok false := fun c => by
    unfold Exclude.matches; rw [Exclude.matchLoop]
  rw [← matches_iff]
  unfold Interest.matchesName SuffixOk
  by_cases h0 : i.name.matches name = true
  · have hle : i.name.length ≤ name.length := by
      have := ((matches_iff _ _).mp h0).length_le; simpa using this
    by_cases h1 : i.minSuffix.any (fun (m : Nat) => !decide ((name.length : Int) + 1 - i.name.length ≥ (m : Int))) = true
    · simp only [h0, Bool.not_true, Bool.false_eq_true, if_false, h1, if_true, pure, Except.pure]
      refine ⟨⟨(by intro h; cases h), ?_⟩, (by intro e h; cases h)⟩
      rintro ⟨_, ⟨g, _⟩, _⟩
      cases hm : i.minSuffix with
      | none => rw [hm] at h1; simp at h1
      | some m => rw [hm] at h1; have := g m hm; simp at h1; omega
    · by_cases h2 : i.maxSuffix.any (fun (m : Nat) => !decide ((name.length : Int) + 1 - i.name.length ≤ (m : Int))) = true
      · simp only [h0, Bool.not_true, Bool.false_eq_true, if_false, h1, h2, if_true, pure, Except.pure]
        refine ⟨⟨(by intro h; cases h), ?_⟩, (by intro e h; cases h)⟩
        rintro ⟨_, ⟨_, g⟩, _⟩
        cases hm : i.maxSuffix with
        | none => rw [hm] at h2; simp at h2
        | some m => rw [hm] at h2; have := g m hm; simp at h2; omega
      · have hmin : ∀ m, i.minSuffix = some m → i.name.length + m ≤ name.length + 1 := by
          intro m hm; rw [hm] at h1; simp at h1; omega
        have hmax : ∀ m, i.maxSuffix = some m → name.length + 1 ≤ i.name.length + m := by
          intro m hm; rw [hm] at h2; simp at h2; omega
        simp only [h0, Bool.not_true, Bool.false_eq_true, if_false, h1, h2, pure, Except.pure, bind, Except.bind,
          true_and]
        by_cases hl : i.name.length < name.length
        · rw [List.getElem?_eq_getElem hl]
          by_cases he : i.exclude.length > 0
          · rw [if_pos ⟨he, hl⟩, pyIndex_nonneg _ _ hl]
            obtain ⟨m1, m2, m3⟩ := C18_matches i.exclude name[i.name.length]
            cases hm : i.exclude.matches name[i.name.length] with
            | error e =>
              obtain ⟨_, g1, g2⟩ := (m3 e).mp hm
              simp [hm, g2]
            | ok v =>
              cases v with
              | true => have := m1.mp hm; simp [hm, this]
              | false => have := m2.mp hm; simp [hm, this.1, this.2]; exact ⟨hmin, hmax⟩
          · rw [if_neg (fun h => he h.1)]
            have hnil : i.exclude = [] := List.length_eq_zero_iff.mp (by omega)
            have := (C18_matches [] name[i.name.length]).2.1.mp (hemp _)
            simp [hnil, this.1, this.2]
            exact ⟨hmin, hmax⟩
        · rw [if_neg (fun h => hl h.2), List.getElem?_eq_none (by omega)]
          simp
          exact ⟨hmin, hmax⟩
  · have : i.name.matches name = false := by simpa using h0
    simp [this, pure, Except.pure]

/-- A case that meets the hypotheses of the partial theorem, and one where each condition decides. -/
example :
    Interest.matchesData {
        name := [⟨.generic, [1]⟩], minSuffix := some 2, maxSuffix := some 2,
        exclude := [some ⟨.generic, [5]⟩, none], keyLocator := { type := some 1, keyName := [⟨.generic, [9]⟩] } }
      [⟨.generic, [1]⟩, ⟨.generic, [4]⟩]
      (.ok [⟨.generic, [1]⟩, ⟨.generic, [4]⟩, digestOf (List.replicate 32 0)])
      (.hmac { type := some 1, keyName := [⟨.generic, [9]⟩] }) = .ok true ∧
    Interest.matchesData { name := [⟨.generic, [1]⟩], exclude := [some ⟨.generic, [5]⟩, none] }
      [⟨.generic, [1]⟩, ⟨.generic, [6]⟩]
      (.ok [⟨.generic, [1]⟩, ⟨.generic, [6]⟩, digestOf (List.replicate 32 0)]) .digest = .ok false ∧
    ¬ EndsInAnyAny [some ⟨.generic, [5]⟩, none] := by
  refine ⟨by decide +kernel, by decide +kernel, ?_⟩
  rintro ⟨l, c, k, h⟩
  have h1 := congrArg List.length h
  simp at h1
  omega

end PyNDN
