import Verif.Spec.ConfigPolicy
import Verif.Lemmas.ValidatorConfig
import Verif.Props.ValidatorPolicy
/-
The rules of a `ConfigPolicyManager`: what the model computes from a tree is what the entries of the configuration mean.
-/
namespace PyNDN.ConfigPolicy
open PyNDN PyNDN.BoostInfo
open PyNDN.Validator (SData Packet Relation)
open PyNDN.ValidatorConfig
open PyNDN.Spec.BoostInfo (Item View view itemView itemsView group documentView select)
open PyNDN.Spec.ValidatorConfig (sections Has Lacks Each)
open PyNDN.Spec.Validator (Related Under)
open PyNDN.Spec.ConfigPolicy

theorem ebind_ok {α β : Type} {x : Except Err α} {f : α → Except Err β} {b : β} :
    (x >>= f) = .ok b ↔ ∃ a, x = .ok a ∧ f a = .ok b := by
  cases x with
  | error e => simp [bind, Except.bind]
  | ok a => simp [bind, Except.bind]

theorem pure_ok {α : Type} {a b : α} : (pure a : Except Err α) = .ok b ↔ a = b := by simp [pure, Except.pure]

theorem kSigner : KeyOk "signer" := by unfold KeyOk; decide

theorem get_cons {t : Tree} {i : Item} (h : view t = itemView i) {key : String} (hk : KeyOk key) {u : Tree} {us : List Tree}
    (hg : t.get key.toList = u :: us) : ∃ j, First i key j ∧ view u = itemView j := by
  have := each_of_map (get_sections (view_children h) hk)
  rw [hg] at this
  unfold First
  generalize sections key i.children = is at this ⊢
  cases this with
  | cons h1 _ => exact ⟨_, ⟨_, rfl⟩, h1⟩

theorem value_has {t : Tree} {i : Item} (h : view t = itemView i) {key : String} (hk : KeyOk key) {v : Str}
    (hv : value t key = .ok (some v)) : Has i key v := by
  rw [← first_some h hk]
  unfold value at hv
  unfold Tree.getFirstValue
  generalize t.get key.toList = ts at hv ⊢
  cases ts with
  | nil => cases hv
  | cons u us =>
    injection hv

theorem value_first {t : Tree} {key : String} {v : Option Str} (hv : value t key = .ok v) : t.getFirstValue key.toList = v := by
  unfold value at hv
  unfold Tree.getFirstValue
  generalize t.get key.toList = ts at hv ⊢
  cases ts with
  | nil => cases hv
  | cons u us =>
    injection hv

theorem name_is {t : Tree} {i : Item} (h : view t = itemView i) {n : Name}
    (hn : nameOf (t.getFirstValue "name".toList) = .ok n) : NameIs i n := by
  cases hv : t.getFirstValue "name".toList with
  | none =>
    rw [hv] at hn
    injection hn with hn
    exact .inr ⟨(first_none h kName).mp hv, hn.symm⟩
  | some uri =>
    rw [hv] at hn
    exact .inl ⟨uri, (first_some h kName uri).mp hv, hn⟩

theorem name_unique {i : Item} {a b : Name} (h1 : NameIs i a) (h2 : NameIs i b) : a = b := by
  rcases h1 with ⟨u, h1, h3⟩ | ⟨h1, rfl⟩ <;> rcases h2 with ⟨w, h2, h4⟩ | ⟨h2, rfl⟩
  · rw [has_unique h1 h2, h4] at h3
    injection h3 with h3
    exact h3.symm
  · exact absurd h1 (h2 u)
  · exact absurd h2 (h1 w)
  · rfl

theorem matches_length {a b : Name} (h : a.matches b = true) : a.length ≤ b.length := by
  rw [matches_iff] at h
  have := h.length_le
  simpa using this

theorem matchesRelation_iff (name a : Name) (rel : Str) :
    matchesRelation name a (some rel) = true ↔ ∃ r, RelationWord rel r ∧ Related r a name := by
  unfold matchesRelation
  by_cases h1 : rel = "is-strict-prefix-of".toList
  · subst h1
    rw [if_pos rfl]
    constructor
    · intro h
      refine ⟨_, .isStrictPrefixOf, ?_⟩
      split at h
      · cases h
      · next hne =>
        refine ⟨(matches_iff a name).mp h, ?_⟩
        have := matches_length h
        omega
    · rintro ⟨r, hr, h⟩
      generalize hw : "is-strict-prefix-of".toList = w at hr
      cases hr with
      | equal => exact absurd hw (by decide)
      | isPrefixOf => exact absurd hw (by decide)
      | isStrictPrefixOf =>
        rw [if_neg (by have := h.2; omega)]
        exact (matches_iff a name).mpr h.1
  · rw [if_neg (by simpa using h1)]
    by_cases h2 : rel = "is-prefix-of".toList
    · subst h2
      rw [if_pos rfl]
      constructor
      · exact fun h => ⟨_, .isPrefixOf, (matches_iff a name).mp h⟩
      · rintro ⟨r, hr, h⟩
        generalize hw : "is-prefix-of".toList = w at hr
        cases hr with
        | equal => exact absurd hw (by decide)
        | isPrefixOf => exact (matches_iff a name).mpr h
        | isStrictPrefixOf => exact absurd hw (by decide)
    · rw [if_neg (by simpa using h2)]
      by_cases h3 : rel = "equal".toList
      · subst h3
        rw [if_pos rfl]
        constructor
        · exact fun h => ⟨_, .equal, (name_equals_iff a name).mp h⟩
        · rintro ⟨r, hr, h⟩
          generalize hw : "equal".toList = w at hr
          cases hr with
          | equal => exact (name_equals_iff a name).mpr h
          | isPrefixOf => exact absurd hw (by decide)
          | isStrictPrefixOf => exact absurd hw (by decide)
      · rw [if_neg (by simpa using h3)]
        constructor
        · intro h; cases h
        · rintro ⟨r, hr, h⟩
          cases hr
          · exact absurd rfl h3
          · exact absurd rfl h2
          · exact absurd rfl h1

theorem matchesRelation_none (name a : Name) : matchesRelation name a none = false := by
  unfold matchesRelation
  rw [if_neg (by simp), if_neg (by simp), if_neg (by simp)]

theorem under_of {name a : Name} (h : matchesRelation name a (some "is-prefix-of".toList) = true) : Under a name := by
  obtain ⟨r, hr, h⟩ := (matchesRelation_iff name a _).mp h
  generalize hw : "is-prefix-of".toList = w at hr
  cases hr with
  | equal => exact absurd hw (by decide)
  | isPrefixOf => exact h
  | isStrictPrefixOf => exact absurd hw (by decide)

variable (E : Env)

theorem filter_iff {t : Tree} {i : Item} (h : view t = itemView i) {n : Name} {b : Bool} (hp : filterPasses E t n = .ok b) :
    b = true ↔ Selects E i n := by
  unfold filterPasses at hp
  cases hx : t.getFirstValue "regex".toList with
  | some x =>
    rw [hx] at hp
    dsimp only at hp
    have hx := (first_some h kRegex x).mp hx
    constructor
    · rintro rfl
      exact .regex hx hp
    · rintro (⟨h1, h2⟩ | ⟨h1, _⟩)
      · rw [has_unique h1 hx, hp] at h2
        injection h2
      · exact absurd hx (h1 x)
  | none =>
    rw [hx] at hp
    dsimp only at hp
    have hx := (first_none h kRegex).mp hx
    obtain ⟨a, ha, hp⟩ := ebind_ok.mp hp
    have hp := pure_ok.mp hp
    have ha := name_is h ha
    cases hr : t.getFirstValue "relation".toList with
    | none =>
      rw [hr, matchesRelation_none] at hp
      subst hp
      have hr := (first_none h kRelation).mp hr
      constructor
      · intro e; cases e
      · rintro (⟨h1, h2⟩ | ⟨h1, h2, _⟩)
        · exact absurd h1 (hx _)
        · exact absurd h2 (hr _)
    | some rel =>
      rw [hr] at hp
      have hr := (first_some h kRelation rel).mp hr
      rw [← hp, matchesRelation_iff]
      constructor
      · rintro ⟨r, h1, h2⟩
        exact .relation hx hr h1 ha h2
      · rintro (⟨h1, h2⟩ | ⟨h1, h2, h3, h4, h5⟩)
        · exact absurd h1 (hx _)
        · rw [has_unique h2 hr] at h3
          rw [name_unique h4 ha] at h5
          exact ⟨_, h3, h5⟩

theorem filters_iff {ts : List Tree} {is : List Item} (h : Each (fun t i => view t = itemView i) ts is) {n : Name} {b : Bool}
    (hp : filtersPass E n ts = .ok b) : b = true ↔ ∀ f ∈ is, Selects E f n := by
  induction h with
  | nil =>
    unfold filtersPass at hp
    injection hp with hp
    simp [← hp]
  | cons h1 h2 ih =>
    unfold filtersPass at hp
    obtain ⟨x, hx, hp⟩ := ebind_ok.mp hp
    have hx := filter_iff E h1 hx
    cases x with
    | true =>
      rw [if_pos rfl] at hp
      rw [ih hp]
      simp [hx.mp rfl]
    | false =>
      rw [if_neg (by simp)] at hp
      have hp := pure_ok.mp hp
      subst hp
      constructor
      · intro e; cases e
      · intro hall
        exact hx.mpr (hall _ (by simp))

theorem rule_iff {t : Tree} {i : Item} (h : view t = itemView i) {p : Packet} {v : Option Str} (hv : value t "for" = .ok v)
    (b : Bool) (hb : v = some (kind p) → filtersPass E (subject p) (t.get "filter".toList) = .ok b) (hn : v ≠ some (kind p) → b = false) :
    b = true ↔ Applies E i p := by
  unfold Applies
  by_cases he : v = some (kind p)
  · rw [filters_iff E (each_of_map (get_sections (view_children h) kFilter)) (hb he)]
    have := value_has h kFor (he ▸ hv)
    simp [this]
  · rw [hn he]
    constructor
    · intro e; cases e
    · rintro ⟨h1, _⟩
      rw [← first_some h kFor, value_first hv] at h1
      exact absurd h1 he

theorem findRule_some {ts : List Tree} {is : List Item} (h : Each (fun t i => view t = itemView i) ts is) {p : Packet} {t : Tree}
    (hf : findRule E (subject p) (kind p) ts = .ok (some t)) :
    ∃ before i after, is = before ++ i :: after ∧ (∀ q ∈ before, ¬ Applies E q p) ∧ Applies E i p ∧ view t = itemView i := by
  induction h with
  | nil =>
    unfold findRule at hf
    injection hf with hf
    cases hf
  | cons h1 h2 ih =>
    unfold findRule at hf
    obtain ⟨v, hv, hf⟩ := ebind_ok.mp hf
    by_cases he : v = some (kind p)
    · rw [if_pos he] at hf
      obtain ⟨b, hb, hf⟩ := ebind_ok.mp hf
      have hr := rule_iff E h1 hv b (fun _ => hb) (fun hn => absurd he hn)
      cases b with
      | true =>
        rw [if_pos rfl] at hf
        have hf := pure_ok.mp hf
        injection hf with hf
        subst hf
        exact ⟨[], _, _, rfl, by simp, hr.mp rfl, h1⟩
      | false =>
        rw [if_neg (by simp)] at hf
        obtain ⟨before, i, after, e, h3, h4, h5⟩ := ih hf
        refine ⟨_ :: before, i, after, by rw [e]; rfl, ?_, h4, h5⟩
        intro q hq
        rcases List.mem_cons.mp hq with rfl | hq
        · exact fun ha => Bool.noConfusion (hr.mpr ha)
        · exact h3 q hq
    · rw [if_neg he] at hf
      have hr := rule_iff E h1 hv false (fun hn => absurd hn he) (fun _ => rfl)
      obtain ⟨before, i, after, e, h3, h4, h5⟩ := ih hf
      refine ⟨_ :: before, i, after, by rw [e]; rfl, ?_, h4, h5⟩
      intro q hq
      rcases List.mem_cons.mp hq with rfl | hq
      · exact fun ha => Bool.noConfusion (hr.mpr ha)
      · exact h3 q hq

/-! ### Checkers -/

theorem hierarchical_checks {i : Item} (ht : Has i "type" "hierarchical".toList) {kl n : Name}
    (h : checkHierarchical E kl n = .ok true) : Checks E i n kl := by
  unfold checkHierarchical at h
  obtain ⟨a, ha, h⟩ := ebind_ok.mp h
  cases a with
  | some a =>
    dsimp only at h
    obtain ⟨b, hb, h⟩ := ebind_ok.mp h
    cases b with
    | none =>
      have := pure_ok.mp h
      cases this
    | some b =>
      have h := pure_ok.mp h
      exact .identity ht ha hb (under_of h)
  | none =>
    dsimp only at h
    cases hv : E.isSecurityV1 with
    | true =>
      rw [hv, if_pos rfl] at h
      have := pure_ok.mp h
      cases this
    | false =>
      rw [hv, if_neg (by simp)] at h
      obtain ⟨b, hb, h⟩ := ebind_ok.mp h
      cases b with
      | none =>
        have := pure_ok.mp h
        cases this
      | some b =>
        have h := pure_ok.mp h
        exact .identity2 ht hv ha hb (under_of h)

theorem hyper_checks {i k : Item} {t : Tree} (ht : Has i "type" "customized".toList) (hk : First i "key-locator" k)
    (hv : view t = itemView k) (h1 : Lacks k "relation") (h2 : Lacks k "regex") {kl n : Name}
    (h : checkHyper E kl n t = .ok true) : Checks E i n kl := by
  unfold checkHyper at h
  cases hg : t.get "hyper-relation".toList with
  | nil =>
    rw [hg] at h
    injection h with h
    cases h
  | cons u us =>
    rw [hg] at h
    dsimp only at h
    obtain ⟨j, hj, hju⟩ := get_cons hv kHyper hg
    split at h
    · next kr ke pr pe rel e1 e2 e3 e4 e5 =>
      obtain ⟨a, ha, h⟩ := ebind_ok.mp h
      cases a with
      | none =>
        have := pure_ok.mp h
        cases this
      | some a =>
        dsimp only at h
        obtain ⟨b, hb, h⟩ := ebind_ok.mp h
        cases b with
        | none =>
          have := pure_ok.mp h
          cases this
        | some b =>
          have h := pure_ok.mp h
          obtain ⟨r, hr, hrel⟩ := (matchesRelation_iff b a rel).mp h
          exact .hyper ht hk h1 h2 hj ((first_some hju kKRegex _).mp e1) ((first_some hju kKExpand _).mp e2)
            ((first_some hju kPRegex _).mp e3) ((first_some hju kPExpand _).mp e4) ((first_some hju kHRelation _).mp e5) hr ha hb hrel
    · injection h with h
      cases h

theorem customized_checks {i : Item} {t : Tree} (hv : view t = itemView i) (ht : Has i "type" "customized".toList) {kl n : Name}
    (h : checkCustomized E kl n t = .ok true) : Checks E i n kl := by
  unfold checkCustomized at h
  cases hg : t.get "key-locator".toList with
  | nil =>
    rw [hg] at h
    cases h
  | cons u us =>
    rw [hg] at h
    dsimp only at h
    obtain ⟨j, hj, hju⟩ := get_cons hv kKeyLocator hg
    cases hr : u.getFirstValue "relation".toList with
    | some rel =>
      rw [hr] at h
      dsimp only at h
      obtain ⟨uri, hu, h⟩ := ebind_ok.mp h
      obtain ⟨a, ha, h⟩ := ebind_ok.mp h
      have h := pure_ok.mp h
      obtain ⟨r, h1, h2⟩ := (matchesRelation_iff kl a rel).mp h
      rw [← value_first hu] at ha
      exact .relation ht hj ((first_some hju kRelation _).mp hr) h1 (name_is hju ha) h2
    | none =>
      rw [hr] at h
      dsimp only at h
      cases hx : u.getFirstValue "regex".toList with
      | some x =>
        rw [hx] at h
        exact .regex ht hj ((first_none hju kRelation).mp hr) ((first_some hju kRegex _).mp hx) h
      | none =>
        rw [hx] at h
        exact hyper_checks E ht hj hju ((first_none hju kRelation).mp hr) ((first_none hju kRegex).mp hx) h

theorem string_ok {v : Option Str} {s : Str} (h : string v = .ok s) : v = some s := by
  cases v with
  | none => cases h
  | some w =>
    injection h with h
    rw [h]

theorem signerId_names {i : Item} {t : Tree} (hv : view t = itemView i) {c : CertId} (h : signerId t = .ok (some c)) :
    ∃ s, First i "signer" s ∧ Names s c.1 := by
  unfold signerId at h
  cases hg : t.get "signer".toList with
  | nil =>
    rw [hg] at h
    cases h
  | cons u us =>
    rw [hg] at h
    dsimp only at h
    obtain ⟨j, hj, hju⟩ := get_cons hv kSigner hg
    obtain ⟨ty, hty, h⟩ := ebind_ok.mp h
    split at h
    · next e =>
      subst e
      obtain ⟨v, h1, h⟩ := ebind_ok.mp h
      obtain ⟨f, h2, h⟩ := ebind_ok.mp h
      have h := pure_ok.mp h
      injection h with h
      subst h
      rw [string_ok h2] at h1
      exact ⟨j, hj, .file (value_has hju kType hty) (value_has hju kFile h1)⟩
    · split at h
      · next e =>
        subst e
        obtain ⟨v, h1, h⟩ := ebind_ok.mp h
        obtain ⟨f, h2, h⟩ := ebind_ok.mp h
        have h := pure_ok.mp h
        injection h with h
        subst h
        rw [string_ok h2] at h1
        exact ⟨j, hj, .base64 (value_has hju kType hty) (value_has hju kBase64 h1)⟩
      · have h := pure_ok.mp h
        cases h

theorem anchorAction_look {i : Item} {t : Tree} (hv : view t = itemView i) {c : CertId} (h : anchorAction t = .ok (.look c)) :
    Names i c.1 := by
  unfold anchorAction at h
  obtain ⟨ty, hty, h⟩ := ebind_ok.mp h
  split at h
  · next e =>
    subst e
    obtain ⟨v, h1, h⟩ := ebind_ok.mp h
    obtain ⟨f, h2, h⟩ := ebind_ok.mp h
    have h := pure_ok.mp h
    injection h with h
    subst h
    rw [string_ok h2] at h1
    exact .file (value_has hv kType hty) (value_has hv kFile h1)
  · split at h
    · next e =>
      subst e
      obtain ⟨v, h1, h⟩ := ebind_ok.mp h
      obtain ⟨f, h2, h⟩ := ebind_ok.mp h
      have h := pure_ok.mp h
      injection h with h
      subst h
      rw [string_ok h2] at h1
      exact .base64 (value_has hv kType hty) (value_has hv kBase64 h1)
    · split at h
      · obtain ⟨v, h1, h⟩ := ebind_ok.mp h
        obtain ⟨f, h2, h⟩ := ebind_ok.mp h
        obtain ⟨g, h3, h⟩ := ebind_ok.mp h
        have h := pure_ok.mp h
        cases h
      · split at h
        · have h := pure_ok.mp h
          cases h
        · have h := pure_ok.mp h
          cases h

theorem anchorAction_dir {i : Item} {t : Tree} (hv : view t = itemView i) {d : Str} {n : Nat} (h : anchorAction t = .ok (.dir d n)) :
    Has i "type" "dir".toList ∧ Has i "dir" d := by
  unfold anchorAction at h
  obtain ⟨ty, hty, h⟩ := ebind_ok.mp h
  split at h
  · obtain ⟨v, h1, h⟩ := ebind_ok.mp h
    obtain ⟨f, h2, h⟩ := ebind_ok.mp h
    have h := pure_ok.mp h
    cases h
  · split at h
    · obtain ⟨v, h1, h⟩ := ebind_ok.mp h
      obtain ⟨f, h2, h⟩ := ebind_ok.mp h
      have h := pure_ok.mp h
      cases h
    · split at h
      · next e =>
        subst e
        obtain ⟨v, h1, h⟩ := ebind_ok.mp h
        obtain ⟨f, h2, h⟩ := ebind_ok.mp h
        obtain ⟨g, h3, h⟩ := ebind_ok.mp h
        have h := pure_ok.mp h
        injection h with ha hb
        subst ha
        rw [string_ok h3] at h1
        exact ⟨value_has hv kType hty, value_has hv kDir h1⟩
      · split at h
        · have h := pure_ok.mp h
          cases h
        · have h := pure_ok.mp h
          cases h

end PyNDN.ConfigPolicy
