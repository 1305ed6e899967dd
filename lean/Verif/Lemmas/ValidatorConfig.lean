import Verif.Spec.ValidatorConfig
import Verif.Props.BoostInfo
import Verif.Props.ValidatorPolicy
/-
Lemmas for C83: loading a validator configuration.
-/
namespace PyNDN.ValidatorConfig
open PyNDN PyNDN.Validator PyNDN.BoostInfo
open PyNDN.Spec.BoostInfo (Item view itemView itemsView group select documentView)
open PyNDN.Spec.ValidatorConfig

/-- A key of the configuration: not empty, without a slash. -/
def KeyOk (key : String) : Prop := key.toList ≠ [] ∧ '/' ∉ key.toList

theorem view_children {t : Tree} {i : Item} (h : view t = itemView i) :
    view t = .node i.value (group (itemsView i.children)) := by
  rw [h]
  obtain ⟨a, b, c⟩ := i
  simp [itemView, Item.value, Item.children]

theorem get_sections {t : Tree} {v : Option Str} {items : List Item} (h : view t = .node v (group (itemsView items))) {key : String}
    (hk : KeyOk key) : (t.get key.toList).map view = (sections key items).map itemView := by
  have := Props.C82_get t v items h [key.toList] (by simp) (by
    intro k hm
    rw [List.mem_singleton.mp hm]
    exact hk) [] (by simp)
  simpa [select, sections, List.intercalate] using this

theorem each_of_map {ts : List Tree} {is : List Item} (h : ts.map view = is.map itemView) :
    Each (fun t i => view t = itemView i) ts is := by
  induction ts generalizing is with
  | nil =>
    cases is with
    | nil => exact .nil
    | cons i is => cases h
  | cons t ts ih =>
    cases is with
    | nil => cases h
    | cons i is =>
      simp only [List.map_cons, List.cons.injEq] at h
      exact .cons h.1 (ih h.2)

theorem value_of {t : Tree} {i : Item} (h : view t = itemView i) : t.value = i.value := by
  have := view_children h
  rw [view_eq] at this
  injection this

theorem first_some {t : Tree} {i : Item} (h : view t = itemView i) {key : String} (hk : KeyOk key) (v : Str) :
    t.getFirstValue key.toList = some v ↔ Has i key v := by
  have hg := each_of_map (get_sections (view_children h) hk)
  unfold Tree.getFirstValue Has
  generalize t.get key.toList = ts at hg ⊢
  generalize sections key i.children = is at hg ⊢
  cases hg with
  | nil => simp
  | cons h1 h2 =>
    simp only [value_of h1, List.cons.injEq]
    constructor
    · intro hv
      exact ⟨_, _, ⟨rfl, rfl⟩, hv⟩
    · rintro ⟨e, rest, ⟨rfl, rfl⟩, hv⟩
      exact hv

theorem first_none {t : Tree} {i : Item} (h : view t = itemView i) {key : String} (hk : KeyOk key) :
    t.getFirstValue key.toList = none ↔ Lacks i key := by
  unfold Lacks
  cases hv : t.getFirstValue key.toList with
  | none =>
    refine ⟨fun _ v hh => ?_, fun _ => rfl⟩
    rw [← first_some h hk, hv] at hh
    cases hh
  | some v => exact ⟨(fun e => by cases e), (fun hh => absurd ((first_some h hk v).mp hv) (hh v))⟩

theorem has_unique {i : Item} {key : String} {v w : Str} (h1 : Has i key v) (h2 : Has i key w) : v = w := by
  obtain ⟨e, r, h1, h1'⟩ := h1
  obtain ⟨e', r', h2, h2'⟩ := h2
  rw [h1] at h2
  injection h2 with h3 _
  rw [h3, h2'] at h1'
  injection h1' with h
  exact h.symm

theorem expect_ok {t : Tree} {i : Item} (h : view t = itemView i) {key : String} (hk : KeyOk key) (v : Str) :
    expect t key = .ok v ↔ Has i key v := by
  rw [← first_some h hk]
  unfold expect
  cases t.getFirstValue key.toList <;> simp

theorem relation_ok (s : Str) (r : Relation) : relationFromString s = .ok r ↔ RelationIs s r := by
  unfold relationFromString lower
  constructor
  · intro h
    split at h
    · next hw => injection h with h; subst h; exact .equal hw
    · split at h
      · next hw => injection h with h; subst h; exact .isPrefixOf hw
      · split at h
        · next hw => injection h with h; subst h; exact .isStrictPrefixOf hw
        · cases h
  · intro h
    cases h with
    | equal hw =>
      unfold Word at hw
      rw [hw, if_pos rfl]
    | isPrefixOf hw =>
      unfold Word at hw
      rw [hw, if_neg (by decide), if_pos rfl]
    | isStrictPrefixOf hw =>
      unfold Word at hw
      rw [hw, if_neg (by decide), if_neg (by decide), if_pos rfl]

theorem bind_ok {α β : Type} {x : Except LoadErr α} {f : α → Except LoadErr β} {b : β} :
    (x >>= f) = .ok b ↔ ∃ a, x = .ok a ∧ f a = .ok b := by
  cases x with
  | error e => constructor
               · intro h; cases h
               · rintro ⟨a, h, _⟩; cases h
  | ok a => constructor
            · intro h; exact ⟨a, rfl, h⟩
            · rintro ⟨a', h, h'⟩; injection h with h; subst h; exact h'

theorem name_ok (uri : Str) (n : Name) : nameFromUri uri = .ok n ↔ parseUri uri = .ok n := by
  unfold nameFromUri
  cases parseUri uri <;> simp

theorem kType : KeyOk "type" := by unfold KeyOk; decide
theorem kName : KeyOk "name" := by unfold KeyOk; decide
theorem kRelation : KeyOk "relation" := by unfold KeyOk; decide
theorem kRegex : KeyOk "regex" := by unfold KeyOk; decide

variable {A C : Type} (E : Env A C)

theorem filter_ok {t : Tree} {i : Item} (h : view t = itemView i) (f : Filter) : createFilter E t = .ok f ↔ FilterIs E i f := by
  unfold createFilter
  rw [bind_ok]
  simp only [expect_ok h kType]
  constructor
  · rintro ⟨ty, hty, h1⟩
    split at h1
    · next hw =>
      unfold createNameFilter at h1
      cases hn : t.getFirstValue "name".toList with
      | some uri =>
        simp only [hn, bind_ok, name_ok, expect_ok h kRelation, relation_ok] at h1
        obtain ⟨n, hp, rel, hrel, r, hr, h1⟩ := h1
        injection h1 with h1
        subst h1
        exact .name hty hw ((first_some h kName _).mp hn) hp hrel hr
      | none =>
        simp only [hn] at h1
        cases hx : t.getFirstValue "regex".toList with
        | none => simp only [hx] at h1; cases h1
        | some x =>
          simp only [hx] at h1
          cases hf : E.regex x with
          | none => simp only [hf] at h1; cases h1
          | some g =>
            simp only [hf, Except.ok.injEq] at h1
            subst h1
            exact .regex hty hw ((first_none h kName).mp hn) ((first_some h kRegex _).mp hx) hf
    · cases h1
  · intro hf
    cases hf with
    | name hty hw hn hp hrel hr =>
      refine ⟨_, hty, ?_⟩
      rw [if_pos (show lower _ = _ from hw)]
      unfold createNameFilter
      rw [(first_some h kName _).mpr hn]
      simp only [bind_ok, name_ok, expect_ok h kRelation, relation_ok]
      exact ⟨_, hp, _, hrel, _, hr, rfl⟩
    | regex hty hw hl hx hf =>
      refine ⟨_, hty, ?_⟩
      rw [if_pos (show lower _ = _ from hw)]
      unfold createNameFilter
      rw [(first_none h kName).mpr hl]
      simp only [(first_some h kRegex _).mpr hx, hf]

theorem kKRegex : KeyOk "k-regex" := by unfold KeyOk; decide
theorem kKExpand : KeyOk "k-expand" := by unfold KeyOk; decide
theorem kHRelation : KeyOk "h-relation" := by unfold KeyOk; decide
theorem kPRegex : KeyOk "p-regex" := by unfold KeyOk; decide
theorem kPExpand : KeyOk "p-expand" := by unfold KeyOk; decide
theorem kHyper : KeyOk "hyper-relation" := by unfold KeyOk; decide
theorem kKeyLocator : KeyOk "key-locator" := by unfold KeyOk; decide
theorem kId : KeyOk "id" := by unfold KeyOk; decide
theorem kFor : KeyOk "for" := by unfold KeyOk; decide
theorem kFilter : KeyOk "filter" := by unfold KeyOk; decide
theorem kChecker : KeyOk "checker" := by unfold KeyOk; decide
theorem kRule : KeyOk "rule" := by unfold KeyOk; decide
theorem kAnchor : KeyOk "trust-anchor" := by unfold KeyOk; decide
theorem kValidator : KeyOk "validator" := by unfold KeyOk; decide
theorem kFile : KeyOk "file-name" := by unfold KeyOk; decide
theorem kBase64 : KeyOk "base64-string" := by unfold KeyOk; decide
theorem kDir : KeyOk "dir" := by unfold KeyOk; decide
theorem kRefresh : KeyOk "refresh" := by unfold KeyOk; decide

theorem hyper_ok {t : Tree} {i : Item} (h : view t = itemView i) (c : Checker) : createHyper E t = .ok c ↔
    ∃ kr ke hr pr pe r p k, Has i "k-regex" kr ∧ Has i "k-expand" ke ∧ Has i "h-relation" hr ∧ Has i "p-regex" pr ∧
      Has i "p-expand" pe ∧ RelationIs hr r ∧ E.hyper pr pe = some p ∧ E.hyper kr ke = some k ∧ c = .hyper p k r := by
  unfold createHyper
  simp only [bind_ok, expect_ok h kKRegex, expect_ok h kKExpand, expect_ok h kHRelation, expect_ok h kPRegex, expect_ok h kPExpand,
    relation_ok]
  constructor
  · rintro ⟨kr, h1, ke, h2, hr, h3, pr, h4, pe, h5, r, h6, h7⟩
    cases hp : E.hyper pr pe with
    | none => simp only [hp] at h7; cases h7
    | some p =>
      cases hk : E.hyper kr ke with
      | none => simp only [hp, hk] at h7; cases h7
      | some k =>
        simp only [hp, hk] at h7
        injection h7 with h7
        exact ⟨kr, ke, hr, pr, pe, r, p, k, h1, h2, h3, h4, h5, h6, hp, hk, h7.symm⟩
  · rintro ⟨kr, ke, hr, pr, pe, r, p, k, h1, h2, h3, h4, h5, h6, hp, hk, rfl⟩
    refine ⟨kr, h1, ke, h2, hr, h3, pr, h4, pe, h5, r, h6, ?_⟩
    rw [hp, hk]
    rfl

/-- A key that must have one section. -/
theorem one_section {t : Tree} {v : Option Str} {items : List Item} (h : view t = .node v (group (itemsView items))) {key : String}
    (hk : KeyOk key) : (∃ u i, t.get key.toList = [u] ∧ sections key items = [i] ∧ view u = itemView i) ∨
      ((∀ u, t.get key.toList ≠ [u]) ∧ ∀ i, sections key items ≠ [i]) := by
  have hg := each_of_map (get_sections h hk)
  generalize t.get key.toList = ts at hg ⊢
  generalize sections key items = is at hg ⊢
  cases hg with
  | nil => exact .inr ⟨by simp, by simp⟩
  | cons h1 h2 =>
    cases h2 with
    | nil => exact .inl ⟨_, _, rfl, rfl, h1⟩
    | cons _ _ => exact .inr ⟨by simp, by simp⟩

theorem keyLocator_ok {t : Tree} {i : Item} (h : view t = itemView i) (c : Checker) :
    createKeyLocatorChecker E t = .ok c ↔ KeyLocatorIs E i c := by
  unfold createKeyLocatorChecker
  rw [bind_ok]
  simp only [expect_ok h kType]
  constructor
  · rintro ⟨ty, hty, h1⟩
    split at h1
    · next hw =>
      unfold createKeyLocatorNameChecker at h1
      cases hn : t.getFirstValue "name".toList with
      | some uri =>
        simp only [hn, bind_ok, name_ok, expect_ok h kRelation, relation_ok] at h1
        obtain ⟨n, hp, rel, hrel, r, hr, h1⟩ := h1
        injection h1 with h1
        subst h1
        exact .name hty hw ((first_some h kName _).mp hn) hp hrel hr
      | none =>
        simp only [hn] at h1
        cases hx : t.getFirstValue "regex".toList with
        | none =>
          simp only [hx] at h1
          rcases one_section (view_children h) kHyper with ⟨u, j, hu, hj, hv⟩ | ⟨hu, hj⟩
          · rw [hu] at h1
            simp only [hyper_ok E hv] at h1
            obtain ⟨kr, ke, hr, pr, pe, r, p, k, h2, h3, h4, h5, h6, h7, hp, hk, rfl⟩ := h1
            exact .hyper hty hw ((first_none h kName).mp hn) ((first_none h kRegex).mp hx) hj h2 h3 h4 h5 h6 h7 hp hk
          · split at h1
            · next u hu' => exact absurd hu' (hu u)
            · cases h1
        | some x =>
          simp only [hx] at h1
          cases hf : E.regex x with
          | none => simp only [hf] at h1; cases h1
          | some g =>
            simp only [hf, Except.ok.injEq] at h1
            subst h1
            exact .regex hty hw ((first_none h kName).mp hn) ((first_some h kRegex _).mp hx) hf
    · cases h1
  · intro hf
    cases hf with
    | name hty hw hn hp hrel hr =>
      refine ⟨_, hty, ?_⟩
      rw [if_pos (show lower _ = _ from hw)]
      unfold createKeyLocatorNameChecker
      rw [(first_some h kName _).mpr hn]
      simp only [bind_ok, name_ok, expect_ok h kRelation, relation_ok]
      exact ⟨_, hp, _, hrel, _, hr, rfl⟩
    | regex hty hw hl hx hf =>
      refine ⟨_, hty, ?_⟩
      rw [if_pos (show lower _ = _ from hw)]
      unfold createKeyLocatorNameChecker
      rw [(first_none h kName).mpr hl]
      simp only [(first_some h kRegex _).mpr hx, hf]
    | hyper hty hw hl hx hj h2 h3 h4 h5 h6 h7 hp hk =>
      refine ⟨_, hty, ?_⟩
      rw [if_pos (show lower _ = _ from hw)]
      unfold createKeyLocatorNameChecker
      rw [(first_none h kName).mpr hl]
      simp only [(first_none h kRegex).mpr hx]
      rcases one_section (view_children h) kHyper with ⟨u, j, hu, hj', hv⟩ | ⟨hu, hj'⟩
      · rw [hu]
        rw [hj] at hj'
        injection hj' with hj' _
        subst hj'
        simp only [hyper_ok E hv]
        exact ⟨_, _, _, _, _, _, _, _, h2, h3, h4, h5, h6, h7, hp, hk, rfl⟩
      · exact absurd hj (hj' _)

theorem checker_ok {t : Tree} {i : Item} (h : view t = itemView i) (c : Checker) : createChecker E t = .ok c ↔ CheckerIs E i c := by
  unfold createChecker
  rw [bind_ok]
  simp only [expect_ok h kType]
  constructor
  · rintro ⟨ty, hty, h1⟩
    split at h1
    · next hw =>
      unfold createCustomizedChecker at h1
      rcases one_section (view_children h) kKeyLocator with ⟨u, j, hu, hj, hv⟩ | ⟨hu, hj⟩
      · rw [hu] at h1
        exact .customized hty hw hj ((keyLocator_ok E hv c).mp h1)
      · split at h1
        · next u hu' => exact absurd hu' (hu u)
        · cases h1
    · split at h1
      · next hw =>
        injection h1 with h1
        subst h1
        exact .hierarchical hty hw
      · cases h1
  · intro hc
    cases hc with
    | customized hty hw hj hk =>
      refine ⟨_, hty, ?_⟩
      rw [if_pos (show lower _ = _ from hw)]
      unfold createCustomizedChecker
      rcases one_section (view_children h) kKeyLocator with ⟨u, j, hu, hj', hv⟩ | ⟨hu, hj'⟩
      · rw [hu]
        rw [hj] at hj'
        injection hj' with hj' _
        subst hj'
        exact (keyLocator_ok E hv c).mpr hk
      · exact absurd hj (hj' _)
    | hierarchical hty hw =>
      refine ⟨_, hty, ?_⟩
      unfold Word at hw
      unfold lower
      rw [hw, if_neg (by decide), if_pos rfl]

theorem mapM_ok {β : Type} {f : Tree → Except LoadErr β} {R : Item → β → Prop}
    (hf : ∀ t i, view t = itemView i → ∀ b, f t = .ok b ↔ R i b) {ts : List Tree} {is : List Item}
    (h : Each (fun t i => view t = itemView i) ts is) (bs : List β) : ts.mapM f = .ok bs ↔ Each R is bs := by
  induction h generalizing bs with
  | nil =>
    constructor
    · intro h
      injection h with h
      subst h
      exact .nil
    · intro h
      cases h
      rfl
  | cons h1 _ ih =>
    rw [List.mapM_cons, bind_ok]
    simp only [bind_ok, hf _ _ h1, ih]
    constructor
    · rintro ⟨b, hb, bs', hbs, he⟩
      injection he with he
      subst he
      exact .cons hb hbs
    · intro h
      cases h with
      | cons hb hbs => exact ⟨_, hb, _, hbs, rfl⟩

theorem each_nil {α β : Type} {R : α → β → Prop} {as : List α} {bs : List β} (h : Each R as bs) : as.length = bs.length := by
  induction h with
  | nil => rfl
  | cons _ _ ih => simp [ih]

theorem rule_ok {t : Tree} {i : Item} (h : view t = itemView i) (r : Rule) : createRule E t = .ok r ↔ RuleIs E i r := by
  unfold createRule
  simp only [bind_ok, expect_ok h kId, expect_ok h kFor,
    mapM_ok (fun t i hv => filter_ok E hv) (each_of_map (get_sections (view_children h) kFilter)),
    mapM_ok (fun t i hv => checker_ok E hv) (each_of_map (get_sections (view_children h) kChecker))]
  constructor
  · rintro ⟨v, hv, use, huse, b, hb, fs, hfs, cs, hcs, h1⟩
    split at h1
    · cases h1
    · next hne =>
      injection h1 with h1
      subst h1
      refine ⟨⟨v, hv⟩, ⟨use, huse, ?_⟩, hfs, hcs, fun e => hne (by simp only at e; simp [e])⟩
      unfold usageOf at hb
      split at hb
      · next hw =>
        injection hb with hb
        subst hb
        exact hw
      · split at hb
        · next hw =>
          injection hb with hb
          subst hb
          exact hw
        · cases hb
  · rintro ⟨⟨v, hv⟩, ⟨use, huse, hw⟩, hfs, hcs, hne⟩
    obtain ⟨b, fs, cs⟩ := r
    refine ⟨v, hv, use, huse, b, ?_, fs, hfs, cs, hcs, ?_⟩
    · unfold Word at hw
      unfold usageOf lower
      cases b with
      | false =>
        have hw' : use.map Char.toLower = "data".toList := hw
        rw [hw', if_pos rfl]
      | true =>
        have hw' : use.map Char.toLower = "interest".toList := hw
        rw [hw', if_neg (by decide), if_pos rfl]
    · rw [if_neg fun e => hne (List.length_eq_zero_iff.mp e)]
      rfl

/-! ### Trust anchors -/

theorem mem_takeWhile {p : Char → Bool} {s : Str} {c : Char} (h : c ∈ s.takeWhile p) : p c = true := by
  induction s with
  | nil => cases h
  | cons d s ih =>
    rw [List.takeWhile_cons] at h
    split at h
    · next hd =>
      rcases List.mem_cons.mp h with rfl | h
      · exact hd
      · exact ih h
    · cases h

theorem matchRefresh_some (s : Str) (n : Nat) (u : Char) : matchRefresh s = some (n, u) ↔
    ∃ digits rest, s = digits ++ u :: rest ∧ digits ≠ [] ∧ (∀ c ∈ digits, 48 ≤ c.toNat ∧ c.toNat ≤ 57) ∧
      (u = 'h' ∨ u = 'm' ∨ u = 's') ∧ n = digits.foldl (fun n c => n * 10 + (c.toNat - 48)) 0 := by
  have hsplit : s = (s.takeWhile fun c => decide (48 ≤ c.toNat ∧ c.toNat ≤ 57)) ++
      s.drop (s.takeWhile fun c => decide (48 ≤ c.toNat ∧ c.toNat ≤ 57)).length := by
    conv => lhs; rw [← List.take_append_drop (s.takeWhile fun c => decide (48 ≤ c.toNat ∧ c.toNat ≤ 57)).length s]
    congr 1
    exact (List.prefix_iff_eq_take.mp (List.takeWhile_prefix _)).symm
  constructor
  · intro h
    unfold matchRefresh at h
    simp only at h
    split at h
    · cases h
    · next hne =>
      split at h
      · next v hv =>
        split at h
        · next hu =>
          simp only [Option.some.injEq, Prod.mk.injEq] at h
          obtain ⟨h1, h2⟩ := h
          subst h2
          obtain ⟨rest, hrest⟩ : ∃ rest, s.drop (s.takeWhile fun c => decide (48 ≤ c.toNat ∧ c.toNat ≤ 57)).length = v :: rest := by
            cases hd : s.drop (s.takeWhile fun c => decide (48 ≤ c.toNat ∧ c.toNat ≤ 57)).length with
            | nil => rw [hd] at hv; cases hv
            | cons a b => rw [hd] at hv; simp at hv; exact ⟨b, by rw [hv]⟩
          refine ⟨_, rest, by rw [← hrest]; exact hsplit, fun e => hne (by rw [e]; rfl), ?_, hu, h1.symm⟩
          intro c hc
          have := mem_takeWhile hc
          simpa using this
        · cases h
      · cases h
  · rintro ⟨digits, rest, rfl, hne, hd, hu, rfl⟩
    have hnu : ¬ (48 ≤ u.toNat ∧ u.toNat ≤ 57) := by
      rcases hu with rfl | rfl | rfl <;> decide
    have htake : ((digits ++ u :: rest).takeWhile fun c => decide (48 ≤ c.toNat ∧ c.toNat ≤ 57)) = digits := by
      rw [List.takeWhile_append_of_pos (by intro c hc; simpa using hd c hc), List.takeWhile_cons_of_neg (by simpa using hnu)]
      simp
    have hlen : digits.length ≠ 0 := fun e => hne (List.length_eq_zero_iff.mp e)
    unfold matchRefresh
    simp only [htake, hlen, if_false, List.drop_left, List.head?_cons, hu, if_true]

theorem refresh_is {t : Tree} {i : Item} (h : view t = itemView i) : RefreshIs i (getRefreshPeriod t) := by
  unfold getRefreshPeriod
  cases hr : t.getFirstValue "refresh".toList with
  | none => exact .never ((first_none h kRefresh).mp hr)
  | some v =>
    have hh := (first_some h kRefresh v).mp hr
    dsimp only
    cases hm : matchRefresh v with
    | none =>
      refine .unreadable hh ?_
      rintro ⟨digits, u, rest, h1, h2, h3, h4⟩
      rw [(matchRefresh_some v _ u).mpr ⟨digits, rest, h1, h2, h3, h4, rfl⟩] at hm
      cases hm
    | some p =>
      obtain ⟨n, u⟩ := p
      obtain ⟨digits, rest, h1, h2, h3, h4, rfl⟩ := (matchRefresh_some v n u).mp hm
      dsimp only
      by_cases hz : digits.foldl (fun n c => n * 10 + (c.toNat - 48)) 0 = 0
      · rw [hz]
        simp only [Nat.zero_mul, ite_self, if_true]
        exact .zero hh h1 h2 h3 h4 hz
      · rcases h4 with rfl | rfl | rfl
        · have hp := RefreshIs.period hh h1 h2 h3 (.inl ⟨rfl, rfl⟩) hz
          show RefreshIs i (if digits.foldl (fun n c => n * 10 + (c.toNat - 48)) 0 * 60 * 60 = 0 then 3600 * 1000
            else digits.foldl (fun n c => n * 10 + (c.toNat - 48)) 0 * 60 * 60 * 1000)
          rw [if_neg (by omega), Nat.mul_assoc _ 60 60]
          exact hp
        · have hp := RefreshIs.period hh h1 h2 h3 (.inr (.inl ⟨rfl, rfl⟩)) hz
          show RefreshIs i (if digits.foldl (fun n c => n * 10 + (c.toNat - 48)) 0 * 60 = 0 then 3600 * 1000
            else digits.foldl (fun n c => n * 10 + (c.toNat - 48)) 0 * 60 * 1000)
          rw [if_neg (by omega)]
          exact hp
        · have hp := RefreshIs.period hh h1 h2 h3 (.inr (.inr ⟨rfl, rfl⟩)) hz
          simp only [show (('s' : Char) ≠ 's') = False by decide, if_false]
          rw [if_neg hz]
          simpa using hp

/-- The digits of a refresh value are unique. -/
theorem refresh_digits {d1 d2 r1 r2 : Str} {u1 u2 : Char} (h : d1 ++ u1 :: r1 = d2 ++ u2 :: r2)
    (h1 : ∀ c ∈ d1, 48 ≤ c.toNat ∧ c.toNat ≤ 57) (h2 : ∀ c ∈ d2, 48 ≤ c.toNat ∧ c.toNat ≤ 57)
    (hu1 : u1 = 'h' ∨ u1 = 'm' ∨ u1 = 's') (hu2 : u2 = 'h' ∨ u2 = 'm' ∨ u2 = 's') : d1 = d2 ∧ u1 = u2 := by
  have hn : ∀ u : Char, u = 'h' ∨ u = 'm' ∨ u = 's' → ¬ (48 ≤ u.toNat ∧ u.toNat ≤ 57) := by
    rintro u (rfl | rfl | rfl) <;> decide
  have ht : ∀ (d r : Str) (u : Char), (∀ c ∈ d, 48 ≤ c.toNat ∧ c.toNat ≤ 57) → (u = 'h' ∨ u = 'm' ∨ u = 's') →
      ((d ++ u :: r).takeWhile fun c => decide (48 ≤ c.toNat ∧ c.toNat ≤ 57)) = d := by
    intro d r u hd hu
    rw [List.takeWhile_append_of_pos (by intro c hc; simpa using hd c hc), List.takeWhile_cons_of_neg (by simpa using hn u hu)]
    simp
  have e : d1 = d2 := by rw [← ht d1 r1 u1 h1 hu1, h, ht d2 r2 u2 h2 hu2]
  subst e
  have := List.append_cancel_left h
  injection this with h3 _
  exact ⟨rfl, h3⟩

theorem unit_of {u : Char} {a : Nat} (h : (u = 'h' ∧ a = 3600) ∨ (u = 'm' ∧ a = 60) ∨ (u = 's' ∧ a = 1)) :
    u = 'h' ∨ u = 'm' ∨ u = 's' := by
  rcases h with ⟨h, _⟩ | ⟨h, _⟩ | ⟨h, _⟩ <;> simp [h]

theorem refresh_unique {i : Item} {a b : Nat} (h1 : RefreshIs i a) (h2 : RefreshIs i b) : a = b := by
  cases h1 with
  | never hl =>
    cases h2 with
    | never => rfl
    | period hh => exact absurd hh (hl _)
    | zero hh => exact absurd hh (hl _)
    | unreadable hh => exact absurd hh (hl _)
  | period hh he hne hd hu hz =>
    cases h2 with
    | never hl => exact absurd hh (hl _)
    | period hh' he' hne' hd' hu' hz' =>
      have := has_unique hh hh'
      rw [he, he'] at this
      obtain ⟨rfl, rfl⟩ := refresh_digits this hd hd' (unit_of hu) (unit_of hu')
      rcases hu with ⟨rfl, rfl⟩ | ⟨rfl, rfl⟩ | ⟨rfl, rfl⟩ <;>
        rcases hu' with ⟨h, rfl⟩ | ⟨h, rfl⟩ | ⟨h, rfl⟩ <;> first | (exact absurd h (by decide)) | rfl
    | zero hh' he' hne' hd' hu' hz' =>
      have := has_unique hh hh'
      rw [he, he'] at this
      obtain ⟨rfl, rfl⟩ := refresh_digits this hd hd' (unit_of hu) hu'
      exact absurd hz' hz
    | unreadable hh' hno =>
      have := has_unique hh hh'
      subst this
      exact absurd ⟨_, _, _, he, hne, hd, unit_of hu⟩ hno
  | zero hh he hne hd hu hz =>
    cases h2 with
    | never hl => exact absurd hh (hl _)
    | period hh' he' hne' hd' hu' hz' =>
      have := has_unique hh hh'
      rw [he, he'] at this
      obtain ⟨rfl, rfl⟩ := refresh_digits this hd hd' hu (unit_of hu')
      exact absurd hz hz'
    | zero => rfl
    | unreadable => rfl
  | unreadable hh hno =>
    cases h2 with
    | never hl => exact absurd hh (hl _)
    | period hh' he' hne' hd' hu' hz' =>
      have := has_unique hh hh'
      subst this
      exact absurd ⟨_, _, _, he', hne', hd', unit_of hu'⟩ hno
    | zero => rfl
    | unreadable => rfl

theorem anchor_ok {t : Tree} {i : Item} (h : view t = itemView i) (a : Option (AnchorCall C)) :
    anchorOf E t = .ok a ↔ AnchorIs E i a := by
  unfold anchorOf
  rw [bind_ok]
  simp only [expect_ok h kType]
  constructor
  · rintro ⟨ty, hty, h1⟩
    split at h1
    · next hw =>
      simp only [bind_ok, expect_ok h kFile] at h1
      obtain ⟨f, hf, h1⟩ := h1
      injection h1 with h1
      subst h1
      exact .file hty hw hf (refresh_is h)
    · split at h1
      · next hw =>
        simp only [bind_ok, expect_ok h kBase64] at h1
        obtain ⟨b, hb, c, hc, h1⟩ := h1
        injection h1 with h1
        subst h1
        exact .base64 hty hw hb hc
      · split at h1
        · next hw =>
          simp only [bind_ok, expect_ok h kDir] at h1
          obtain ⟨d, hd, h1⟩ := h1
          injection h1 with h1
          subst h1
          exact .dir hty hw hd (refresh_is h)
        · split at h1
          · next hw =>
            injection h1 with h1
            subst h1
            exact .any hty hw
          · cases h1
  · intro ha
    cases ha with
    | file hty hw hf hr =>
      refine ⟨_, hty, ?_⟩
      unfold Word at hw
      unfold lower
      rw [hw, if_pos rfl]
      simp only [bind_ok, expect_ok h kFile]
      exact ⟨_, hf, by rw [refresh_unique hr (refresh_is h)]; rfl⟩
    | base64 hty hw hb hc =>
      refine ⟨_, hty, ?_⟩
      unfold Word at hw
      unfold lower
      rw [hw, if_neg (by decide), if_pos rfl]
      simp only [bind_ok, expect_ok h kBase64]
      exact ⟨_, hb, _, hc, rfl⟩
    | dir hty hw hf hr =>
      refine ⟨_, hty, ?_⟩
      unfold Word at hw
      unfold lower
      rw [hw, if_neg (by decide), if_neg (by decide), if_pos rfl]
      simp only [bind_ok, expect_ok h kDir]
      exact ⟨_, hf, by rw [refresh_unique hr (refresh_is h)]; rfl⟩
    | any hty hw =>
      refine ⟨_, hty, ?_⟩
      unfold Word at hw
      unfold lower
      rw [hw, if_neg (by decide), if_neg (by decide), if_neg (by decide), if_pos rfl]
      rfl

/-! ### Loading -/

/-- The state with more rules. -/
def addRules (s : State A) (rs : List Rule) : State A :=
  { s with dataRules := s.dataRules ++ rs.filter (fun r => !r.isForInterest), interestRules := s.interestRules ++ rs.filter (fun r => r.isForInterest) }

theorem loadRules_eq {ts : List Tree} {is : List Item} (h : Each (fun t i => view t = itemView i) ts is) (s : State A) :
    (∃ rs, Each (RuleIs E) is rs ∧ loadRules E ts s = (addRules s rs, .ok ())) ∨
    (∃ is1 i is2 rs e, is = is1 ++ i :: is2 ∧ Each (RuleIs E) is1 rs ∧ (∀ r, ¬ RuleIs E i r) ∧
      loadRules E ts s = (addRules s rs, .error e)) := by
  induction h generalizing s with
  | nil => exact .inl ⟨[], .nil, by simp [loadRules, addRules]⟩
  | cons h1 _ ih =>
    rename_i t i ts is _
    rw [loadRules]
    cases hc : createRule E t with
    | error e =>
      refine .inr ⟨[], i, is, [], e, rfl, .nil, fun r hr => ?_, by simp [addRules]⟩
      rw [← rule_ok E h1, hc] at hr
      cases hr
    | ok r =>
      dsimp only
      have hr := (rule_ok E h1 r).mp hc
      have hadd : ∀ rs, addRules (if r.isForInterest = true then { s with interestRules := s.interestRules ++ [r] }
         else { s with dataRules := s.dataRules ++ [r] }) rs = addRules s (r :: rs) := by
        intro rs
        cases hb : r.isForInterest <;> simp [addRules, hb]
      rcases ih (if r.isForInterest = true then { s with interestRules := s.interestRules ++ [r] }
         else { s with dataRules := s.dataRules ++ [r] }) with ⟨rs, h2, h3⟩ | ⟨is1, j, is2, rs, e, rfl, h2, h3, h4⟩
      · exact .inl ⟨r :: rs, .cons hr h2, by rw [h3, hadd]⟩
      · exact .inr ⟨i :: is1, j, is2, r :: rs, e, rfl, .cons hr h2, h3, by rw [h4, hadd]⟩

/-- The anchors that are loaded without an exception are those of the sections. -/
theorem loadAnchors_ok {ts : List Tree} {is : List Item} (h : Each (fun t i => view t = itemView i) ts is) (s s' : State A) :
    loadAnchors E ts s = (s', .ok ()) ↔ ∃ cs b, Each (AnchorIs E) is cs ∧ Loads E cs s.anchors b ∧
      s' = { s with shouldBypass := s.shouldBypass || cs.any Option.isNone, anchors := b } := by
  induction h generalizing s with
  | nil =>
    rw [loadAnchors]
    constructor
    · intro he
      simp only [Prod.mk.injEq, and_true] at he
      subst he
      exact ⟨[], s.anchors, .nil, .nil, by simp⟩
    · rintro ⟨cs, b, h1, h2, rfl⟩
      cases h1
      cases h2
      simp
  | cons h1 _ ih =>
    rename_i t i ts is _
    rw [loadAnchors, processAnchor]
    cases ha : anchorOf E t with
    | error e =>
      constructor
      · intro he
        simp at he
      · rintro ⟨cs, b, h2, _⟩
        cases h2 with
        | cons h3 _ =>
          rw [← anchor_ok E h1, ha] at h3
          cases h3
    | ok a =>
      have hai := (anchor_ok E h1 a).mp ha
      cases a with
      | none =>
        dsimp only
        rw [ih]
        constructor
        · rintro ⟨cs, b, h2, h3, rfl⟩
          exact ⟨none :: cs, b, .cons hai h2, .any h3, by simp⟩
        · rintro ⟨cs, b, h2, h3, rfl⟩
          cases h2 with
          | cons h4 h5 =>
            rw [← anchor_ok E h1, ha] at h4
            injection h4 with h4
            subst h4
            cases h3 with
            | any h6 => exact ⟨_, b, h5, h6, by simp⟩
      | some call =>
        obtain ⟨a', res, hl⟩ : ∃ a' res, E.loadAnchor call s.anchors = (a', res) := ⟨_, _, rfl⟩
        simp only [hl]
        next =>
          cases res with
          | error e =>
            constructor
            · intro he
              simp at he
            · rintro ⟨cs, b, h2, h3, _⟩
              cases h2 with
              | cons h4 h5 =>
                rw [← anchor_ok E h1, ha] at h4
                injection h4 with h4
                subst h4
                cases h3 with
                | call h6 _ =>
                  rw [hl] at h6
                  simp at h6
          | ok u =>
            dsimp only
            rw [ih]
            constructor
            · rintro ⟨cs, b, h2, h3, rfl⟩
              exact ⟨some call :: cs, b, .cons hai h2, .call hl h3, by simp⟩
            · rintro ⟨cs, b, h2, h3, rfl⟩
              cases h2 with
              | cons h4 h5 =>
                rw [← anchor_ok E h1, ha] at h4
                injection h4 with h4
                subst h4
                cases h3 with
                | call h6 h7 =>
                  rw [hl] at h6
                  simp only [Prod.mk.injEq, and_true] at h6
                  subst h6
                  exact ⟨_, b, h5, h7, by simp⟩

/-- Loading anchors changes only the anchors and the bypass, and the bypass is asked for by a section. -/
theorem loadAnchors_keeps {ts : List Tree} {is : List Item} (h : Each (fun t i => view t = itemView i) ts is) (s : State A) :
    (loadAnchors E ts s).1.dataRules = s.dataRules ∧ (loadAnchors E ts s).1.interestRules = s.interestRules ∧
      (loadAnchors E ts s).1.isConfigured = s.isConfigured ∧
      ((loadAnchors E ts s).1.shouldBypass = true → s.shouldBypass = true ∨ ∃ i ∈ is, AnchorIs E i none) := by
  induction h generalizing s with
  | nil => exact ⟨rfl, rfl, rfl, .inl⟩
  | cons h1 _ ih =>
    rename_i t i ts is _
    rw [loadAnchors, processAnchor]
    cases ha : anchorOf E t with
    | error e => exact ⟨rfl, rfl, rfl, .inl⟩
    | ok a =>
      have hai := (anchor_ok E h1 a).mp ha
      cases a with
      | none =>
        dsimp only
        obtain ⟨h2, h3, h4, h5⟩ := ih { s with shouldBypass := true }
        exact ⟨h2, h3, h4, fun _ => .inr ⟨i, by simp, hai⟩⟩
      | some call =>
        obtain ⟨a', res, hl⟩ : ∃ a' res, E.loadAnchor call s.anchors = (a', res) := ⟨_, _, rfl⟩
        simp only [hl]
        next =>
          cases res with
          | error e => exact ⟨rfl, rfl, rfl, .inl⟩
          | ok u =>
            dsimp only
            obtain ⟨h2, h3, h4, h5⟩ := ih { s with anchors := a' }
            refine ⟨h2, h3, h4, fun hb => ?_⟩
            rcases h5 hb with h6 | ⟨j, hj, hk⟩
            · exact .inl h6
            · exact .inr ⟨j, List.mem_cons_of_mem _ hj, hk⟩

/-- The state from which a configuration is loaded. -/
def start (E : Env A C) (s : State A) : State A :=
  if s.isConfigured then ⟨false, true, [], [], E.reset s.anchors⟩ else { s with isConfigured := true }

end PyNDN.ValidatorConfig
