import Verif.Lemmas.TrustAnchors
import Verif.Props.Name
/-
A trust anchor that the application has added is found by its name or a prefix of it.
-/
namespace PyNDN.TrustAnchors
open PyNDN PyNDN.Validator PyNDN.Spec PyNDN.Spec.TrustAnchors

variable {E : Env}

/-- A name between a prefix of a name and this name has the prefix. -/
theorem prefix_between : ∀ (n h c : Name), ¬ nameLt h n → ¬ nameLt c h → nameFields n <+: nameFields c → nameFields n <+: nameFields h := by
  intro n
  induction n with
  | nil => exact fun h _ _ _ _ => List.nil_prefix
  | cons a n ih =>
    intro h c h1 h2 h3
    cases c with
    | nil => exact absurd h3 (by simp [nameFields])
    | cons d c =>
      unfold nameFields at h3
      rw [List.map_cons, List.map_cons, List.cons_prefix_cons] at h3
      cases h with
      | nil => exact absurd List.Lex.nil h1
      | cons b h =>
        rcases component_compare_cases b a with ⟨_, h4⟩ | ⟨_, h4⟩ | ⟨_, h4⟩
        · exact absurd (List.Lex.rel (show keyLt (key b) (key a) from h4)) h1
        · unfold nameFields
          rw [List.map_cons, List.map_cons, List.cons_prefix_cons]
          refine ⟨h4.symm, ih h c (fun h5 => h1 ?_) (fun h5 => h2 ?_) h3.2⟩
          · unfold nameLt nameFields at h5 ⊢
            rw [List.map_cons, List.map_cons, h4]
            exact List.Lex.cons h5
          · unfold nameLt nameFields at h5 ⊢
            rw [List.map_cons, List.map_cons, h4, h3.1]
            exact List.Lex.cons h5
        · refine absurd ?_ h2
          unfold nameLt nameFields
          rw [List.map_cons, List.map_cons, ← h3.1]
          exact List.Lex.rel h4

/-- The anchors are in the order of their names. -/
def Ordered (l : List SData) : Prop := l.Pairwise fun a b => a.name.compare b.name ≤ 0

theorem matches_of_fields {n m : Name} (h : nameFields n <+: nameFields m) : n.matches m = true := by
  rw [matches_iff]
  have h1 : ∀ l : Name, l.map Component.value = (nameFields l).map Prod.snd := by
    intro l
    unfold nameFields
    rw [List.map_map]
    rfl
  rw [h1, h1]
  exact h.map _

theorem neg_iff {a b : Name} : a.compare b < 0 ↔ nameLt a b := by
  rw [← C11_compare_lt]
  rcases C11_total a b with h | h | h <;> rw [h] <;> decide

theorem le_iff {a b : Name} : a.compare b ≤ 0 ↔ ¬ nameLt b a := by
  rw [← C11_compare_gt]
  rcases C11_total a b with h | h | h <;> rw [h] <;> decide

theorem findName_some {n : Name} {c : SData} {l : List SData} (ho : Ordered l) (hc : c ∈ l) (hn : nameFields n <+: nameFields c.name) :
    ∃ d ∈ l, findName n l = some d ∧ nameFields n <+: nameFields d.name := by
  have h0 : ¬ nameLt c.name n := by
    intro h
    obtain ⟨e, he⟩ := hn
    unfold nameLt at h
    rw [← he] at h
    have : ∀ (x y : List (Nat × List UInt8)), ¬ List.Lex keyLt (x ++ y) x := by
      intro x y hx
      induction x with
      | nil => cases y <;> cases hx
      | cons a x ih =>
        rw [List.cons_append] at hx
        cases hx with
        | cons h => exact ih h
        | rel h =>
          have h1 := (C10_compare_lt ⟨.generic, a.2⟩ ⟨.generic, a.2⟩).mpr (by
            unfold compLt key
            unfold keyLt at h ⊢
            simpa using h)
          rw [(C10_compare_zero _ _).mpr ⟨rfl, rfl⟩] at h1
          exact absurd h1 (by decide)
    exact this _ _ h
  unfold findName
  induction l with
  | nil => exact absurd hc (by simp)
  | cons x l ih =>
    unfold Ordered at ho
    rw [List.pairwise_cons] at ho
    by_cases hx : x.name.compare n < 0
    · rw [List.dropWhile_cons_of_pos (by simpa using hx)]
      rcases List.mem_cons.mp hc with rfl | hc
      · exact absurd (neg_iff.mp hx) h0
      · obtain ⟨d, h1, h2⟩ := ih ho.2 hc
        exact ⟨d, by simp [h1], h2⟩
    · rw [List.dropWhile_cons_of_neg (by simpa using hx)]
      have h1 : nameFields n <+: nameFields x.name := by
        rcases List.mem_cons.mp hc with rfl | hc
        · exact hn
        · exact prefix_between n x.name c.name (fun h => hx (neg_iff.mpr h)) (le_iff.mp (ho.1 c hc)) hn
      refine ⟨x, by simp, ?_, h1⟩
      rw [List.head?_cons]
      dsimp only
      rw [if_pos (matches_of_fields h1)]

theorem mem_insertAnchor_iff {c x : SData} : ∀ {l : List SData}, x ∈ insertAnchor c l ↔ x = c ∨ x ∈ l := by
  intro l
  induction l with
  | nil => simp [insertAnchor]
  | cons y l ih =>
    unfold insertAnchor
    split
    · simp
    · rw [List.mem_cons, ih, List.mem_cons]
      constructor
      · rintro (h | h | h)
        · exact .inr (.inl h)
        · exact .inl h
        · exact .inr (.inr h)
      · rintro (h | h | h)
        · exact .inr (.inl h)
        · exact .inl h
        · exact .inr (.inr h)

theorem insertAnchor_ordered {c : SData} : ∀ {l : List SData}, Ordered l → Ordered (insertAnchor c l) := by
  intro l
  induction l with
  | nil => exact fun _ => List.pairwise_singleton _ _
  | cons y l ih =>
    intro h
    unfold Ordered at h ih
    rw [List.pairwise_cons] at h
    unfold insertAnchor
    split
    · rename_i hc
      refine List.pairwise_cons.mpr ⟨fun x hx => ?_, List.pairwise_cons.mpr h⟩
      rcases List.mem_cons.mp hx with rfl | hx
      · exact Int.le_of_lt hc
      · exact C11_transitive _ _ _ (Int.le_of_lt hc) (h.1 x hx)
    · rename_i hc
      refine List.pairwise_cons.mpr ⟨fun x hx => ?_, ih h.2⟩
      rcases mem_insertAnchor_iff.mp hx with rfl | hx
      · rw [C11_antisymmetric]
        omega
      · exact h.1 x hx

theorem addAnchor_ordered {c : SData} {l : List SData} (h : Ordered l) : Ordered (addAnchor c l) := by
  unfold addAnchor
  split
  · unfold Ordered
    rw [List.pairwise_map]
    refine List.Pairwise.imp (fun {a b} hab => ?_) h
    have h1 : ∀ x : SData, (if x.name.equals c.name = true then c else x).name = x.name := by
      intro x
      split
      · rename_i he
        exact ((name_equals_iff _ _).mp he).symm
      · rfl
    rw [h1, h1]
    exact hab
  · exact insertAnchor_ordered h

theorem names_addAnchor {c : SData} {l : List SData} {n : Name} :
    (∃ x ∈ addAnchor c l, x.name = n) ↔ n = c.name ∨ ∃ x ∈ l, x.name = n := by
  unfold addAnchor
  split
  · rename_i ha
    obtain ⟨y, hy, he⟩ := List.any_eq_true.mp ha
    rw [name_equals_iff] at he
    constructor
    · rintro ⟨x, hx, rfl⟩
      obtain ⟨z, hz, h1⟩ := List.mem_map.mp hx
      split at h1
      · exact .inl (by rw [← h1])
      · exact .inr ⟨z, hz, by rw [h1]⟩
    · intro h
      have key : ∀ z ∈ l, ∃ x ∈ l.map (fun x => if x.name.equals c.name = true then c else x), x.name = z.name := by
        intro z hz
        refine ⟨_, List.mem_map.mpr ⟨z, hz, rfl⟩, ?_⟩
        split
        · rename_i h2
          exact ((name_equals_iff _ _).mp h2).symm
        · rfl
      rcases h with h | ⟨x, hx, rfl⟩
      · rw [h, ← he]
        have := key y hy
        rw [he] at this ⊢
        exact this
      · exact key x hx
  · constructor
    · rintro ⟨x, hx, rfl⟩
      rcases mem_insertAnchor_iff.mp hx with rfl | hx
      · exact .inl rfl
      · exact .inr ⟨x, hx, rfl⟩
    · rintro (rfl | ⟨x, hx, rfl⟩)
      · exact ⟨c, mem_insertAnchor_iff.mpr (.inl rfl), rfl⟩
      · exact ⟨x, mem_insertAnchor_iff.mpr (.inr hx), rfl⟩

theorem removeAnchor_ordered {n : Name} {l : List SData} (h : Ordered l) : Ordered (removeAnchor n l) := List.Pairwise.filter _ h

theorem removeAnchors_ordered {old : List Name} : ∀ {l : List SData}, Ordered l → Ordered (old.foldl (fun l n => removeAnchor n l) l) := by
  induction old with
  | nil => exact fun h => h
  | cons n old ih => exact fun h => ih (removeAnchor_ordered h)

theorem loadAll_ordered (cs : List SData) : ∀ {old names : List Name} {anchors : List SData}, Ordered anchors →
    Ordered (loadAll cs old names anchors).2.1 := by
  induction cs with
  | nil => exact fun h => h
  | cons c cs ih =>
    intro old names anchors h
    unfold loadAll
    split
    · split
      · exact ih h
      · exact h
    · exact ih (addAnchor_ordered h)

theorem loadAll_kept (cs : List SData) : ∀ {old names : List Name} {anchors : List SData} {n : Name}, (∃ x ∈ anchors, x.name = n) →
    ∃ x ∈ (loadAll cs old names anchors).2.1, x.name = n := by
  induction cs with
  | nil => exact fun h => h
  | cons c cs ih =>
    intro old names anchors n h
    unfold loadAll
    split
    · split
      · exact ih h
      · exact h
    · exact ih (names_addAnchor.mpr (.inr h))

/-- A refresh keeps the anchors whose name has never been in the file or directory. -/
theorem refresh_kept (hE : Steady E) {now : Nat} {d : Dyn} {anchors : List SData} {n : Name} (hd : n ∉ d.names)
    (ho : Ordered anchors) :
    Ordered (d.refresh E now anchors).2.1 ∧ ((∃ x ∈ anchors, x.name = n) → ∃ x ∈ (d.refresh E now anchors).2.1, x.name = n) := by
  unfold Dyn.refresh
  split
  · exact ⟨ho, fun h => h⟩
  · dsimp only
    obtain ⟨cs, h1, h2, _⟩ := files_steady hE now d.path d.isDirectory
    rw [h1]
    dsimp only
    obtain ⟨old', names', anchors', h4, h5⟩ := loadAll_ok cs (old := d.names) (names := d.names) (anchors := anchors) h2
      (fun n hn => hn) (fun c _ hn => hn)
    have h6 := loadAll_ordered cs (old := d.names) (names := d.names) ho
    rw [h4] at h6 ⊢
    dsimp only at h6 ⊢
    refine ⟨removeAnchors_ordered h6, fun h => ?_⟩
    have h7 := loadAll_kept cs (old := d.names) (names := d.names) h
    rw [h4] at h7
    obtain ⟨x, h8, h9⟩ := h7
    exact ⟨x, mem_removeAnchors.mpr ⟨h8, fun h => hd (h9 ▸ h5.sub _ h)⟩, h9⟩

theorem refreshAll_kept (hE : Steady E) {now : Nat} {n : Name} : ∀ (groups : List (Str × Group)) {anchors : List SData},
    (∀ g d, (g, .dynamic d) ∈ groups → n ∉ d.names) → Ordered anchors →
    Ordered (refreshAll E now groups anchors).2.1 ∧
      ((∃ x ∈ anchors, x.name = n) → ∃ x ∈ (refreshAll E now groups anchors).2.1, x.name = n) ∧
      ∀ g names, (g, Group.static names) ∈ (refreshAll E now groups anchors).1 ↔ (g, Group.static names) ∈ groups := by
  intro groups
  induction groups with
  | nil => exact fun _ ho => ⟨ho, fun h => h, fun _ _ => Iff.rfl⟩
  | cons x rest ih =>
    intro anchors hd ho
    obtain ⟨g, x⟩ := x
    cases x with
    | static names =>
      obtain ⟨h1, h2, h3⟩ := ih (anchors := anchors) (fun g d h => hd g d (by simp [h])) ho
      unfold refreshAll
      refine ⟨h1, h2, fun g' names' => ?_⟩
      rw [List.mem_cons, List.mem_cons]
      exact or_congr_right (h3 g' names')
    | dynamic d =>
      obtain ⟨h1, h2⟩ := refresh_kept hE (now := now) (hd g d (by simp)) ho
      unfold refreshAll
      obtain ⟨d', anchors', r, hl⟩ : ∃ d' anchors' r, d.refresh E now anchors = (d', anchors', r) := ⟨_, _, _, rfl⟩
      rw [hl] at h1 h2 ⊢
      cases r with
      | error e =>
        refine ⟨h1, h2, fun g' names' => ?_⟩
        simp
      | ok u =>
        obtain ⟨h3, h4, h5⟩ := ih (anchors := anchors') (fun g d h => hd g d (by simp [h])) h1
        refine ⟨h3, fun h => h4 (h2 h), fun g' names' => ?_⟩
        have := h5 g' names'
        simp [this]

/-- The certificates with a name are there while a group has the name. -/
structure Held (n : Name) (h : List (Op × Obs)) (s : State) : Prop where
  ordered : Ordered s.anchors
  held : ∀ g names, (g, .static names) ∈ s.groups → n ∈ names → ∃ x ∈ s.anchors, x.name = n
  added : ∀ c, c.name = n → AddedBy h c → ∃ x ∈ s.anchors, x.name = n

theorem addedBy_snoc_inv {h : List (Op × Obs)} {c : SData} {e : Op × Obs} (ha : AddedBy (h ++ [e]) c) :
    (∃ g, e = (.insert g c, .done)) ∨ (AddedBy h c ∧ e.1 ≠ .clear) := by
  obtain ⟨g, before, after, h1, h2, h3⟩ := ha
  rcases List.eq_nil_or_concat after with rfl | ⟨after', e', rfl⟩
  · have := List.append_inj' h1 rfl
    exact .inl ⟨g, by simpa using this.2⟩
  · rw [List.concat_eq_append] at h1 h2 h3
    have h4 : h ++ [e] = (before ++ (Op.insert g c, Obs.done) :: after') ++ [e'] := by rw [h1]; simp
    have h5 := List.append_inj' h4 rfl
    have h6 : e = e' := by simpa using h5.2
    subst h6
    refine .inr ⟨⟨g, before, after', h5.1, fun o ho => h2 o (by simp [ho]), fun g' hg => h3 g' (by simp [hg])⟩, fun hc => ?_⟩
    exact h2 e.2 (by rw [← hc]; simp)

theorem Held.same {n : Name} {h : List (Op × Obs)} {s : State} {e : Op × Obs} (hi : Held n h s)
    (h1 : ∀ g c, e = (.insert g c, .done) → c.name = n → ∃ x ∈ s.anchors, x.name = n) : Held n (h ++ [e]) s := by
  refine ⟨hi.ordered, hi.held, fun c hc ha => ?_⟩
  rcases addedBy_snoc_inv ha with ⟨g, h2⟩ | ⟨h2, _⟩
  · exact h1 g c h2 hc
  · exact hi.added c hc h2

/-- A call that keeps the anchors with the name. -/
theorem Held.next {n : Name} {h : List (Op × Obs)} {s s' : State} {e : Op × Obs} (hi : Held n h s) (ho : Ordered s'.anchors)
    (h1 : (∃ x ∈ s.anchors, x.name = n) → ∃ x ∈ s'.anchors, x.name = n)
    (h2 : ∀ g c, e = (.insert g c, .done) → c.name = n → ∃ x ∈ s'.anchors, x.name = n)
    (h3 : ∀ g names, (g, Group.static names) ∈ s'.groups → n ∈ names →
      (∃ x ∈ s'.anchors, x.name = n) ∨ ∃ names', (g, Group.static names') ∈ s.groups ∧ n ∈ names') : Held n (h ++ [e]) s' := by
  refine ⟨ho, fun g names hg hn => ?_, fun c hc ha => ?_⟩
  · rcases h3 g names hg hn with h4 | ⟨names', h4, h5⟩
    · exact h4
    · exact h1 (hi.held g names' h4 h5)
  · rcases addedBy_snoc_inv ha with ⟨g, h4⟩ | ⟨h4, _⟩
    · exact h2 g c h4 hc
    · exact h1 (hi.added c hc h4)

theorem lookup_mem {g : Str} {x : Group} : ∀ {l : List (Str × Group)}, lookup g l = some x → (g, x) ∈ l := by
  intro l
  induction l with
  | nil => exact fun h => by cases h
  | cons y l ih =>
    intro h
    unfold lookup at h
    split at h
    · rename_i hy
      injection h with h
      rw [← hy, ← h]
      exact List.mem_cons_self
    · exact List.mem_cons_of_mem _ (ih h)

theorem lookup_setGroup {g : Str} {x : Group} {l : List (Str × Group)} : lookup g (setGroup g x l) = some x := by
  induction l with
  | nil => simp [setGroup, lookup]
  | cons y l ih =>
    unfold setGroup
    split
    · simp [lookup]
    · rename_i hy
      unfold lookup
      rw [if_neg hy]
      exact ih

theorem insert_held {n : Name} {h : List (Op × Obs)} {s : State} {g : Str} {c : SData} (hi : Held n h s)
    (hr : ∀ e, (s.insert g c).2 = .raised e → c.name ≠ n ∨ (s.insert g c).1 = s) :
    Held n (h ++ [(.insert g c, (s.insert g c).2)]) (s.insert g c).1 := by
  have good : ∀ names, (∀ n' ∈ names, n' = c.name ∨ ∃ old, (g, Group.static old) ∈ s.groups ∧ n' ∈ old) →
      Held n (h ++ [(.insert g c, Obs.done)])
        { s with groups := setGroup g (.static names) s.groups, anchors := addAnchor c s.anchors } := by
    intro names hn
    refine hi.next (addAnchor_ordered hi.ordered) (fun h1 => names_addAnchor.mpr (.inr h1)) (fun g' c' h1 h2 => ?_)
      fun g' names' h1 h2 => ?_
    · injection h1 with h1 _
      injection h1 with _ h1
      subst h1
      exact names_addAnchor.mpr (.inl h2.symm)
    · rcases mem_setGroup h1 with h3 | h3
      · injection h3 with h3 h4
        injection h4 with h4
        subst h3 h4
        rcases hn n h2 with h5 | h5
        · exact .inl (names_addAnchor.mpr (.inl h5))
        · exact .inr h5
      · exact .inr ⟨names', h3, h2⟩
  have bad : ∀ names r, c.name ≠ n → (∀ n' ∈ names, n' = c.name ∨ ∃ old, (g, Group.static old) ∈ s.groups ∧ n' ∈ old) →
      Held n (h ++ [(.insert g c, Obs.raised r)]) { s with groups := setGroup g (.static names) s.groups } := by
    intro names r hne hn
    refine hi.next hi.ordered (fun h1 => h1) (fun g' c' h1 h2 => ?_) fun g' names' h1 h2 => ?_
    · injection h1 with _ h1
      cases h1
    · rcases mem_setGroup h1 with h3 | h3
      · injection h3 with h3 h4
        injection h4 with h4
        subst h3 h4
        rcases hn n h2 with h5 | h5
        · exact absurd h5.symm hne
        · exact .inr h5
      · exact .inr ⟨names', h3, h2⟩
  unfold State.insert at hr ⊢
  rcases hl : lookup g s.groups with _ | (names | d)
  · have hn : ∀ n' ∈ [c.name], n' = c.name ∨ ∃ old, (g, Group.static old) ∈ s.groups ∧ n' ∈ old := fun n' h =>
      .inl (List.mem_singleton.mp h)
    rw [hl] at hr
    dsimp only at hr ⊢
    rcases hc : checkFormat c with r | _
    · rw [hc] at hr
      rcases hr r rfl with h1 | h1
      · exact bad _ r h1 hn
      · have h2 : setGroup g (.static [c.name]) s.groups = s.groups := congrArg State.groups h1
        have h3 : lookup g (setGroup g (.static [c.name]) s.groups) = some (.static [c.name]) := lookup_setGroup
        rw [h2, hl] at h3
        cases h3
    · exact good _ hn
  · rw [hl] at hr
    dsimp only at hr ⊢
    by_cases hh : hasName c.name names = true
    · rw [if_pos hh]
      refine hi.same fun g' c' h1 h2 => ?_
      injection h1 with h1 _
      injection h1 with _ h1
      subst h1
      exact hi.held g names (lookup_mem hl) (h2 ▸ hasName_iff.mp hh)
    · rw [if_neg hh] at hr ⊢
      have hn : ∀ n' ∈ c.name :: names, n' = c.name ∨ ∃ old, (g, Group.static old) ∈ s.groups ∧ n' ∈ old := by
        intro n' h1
        rcases List.mem_cons.mp h1 with h2 | h2
        · exact .inl h2
        · exact .inr ⟨names, lookup_mem hl, h2⟩
      rcases hc : checkFormat c with r | _
      · rw [hc] at hr
        rcases hr r rfl with h1 | h1
        · exact bad _ r h1 hn
        · have h2 : setGroup g (.static (c.name :: names)) s.groups = s.groups := congrArg State.groups h1
          have h3 : lookup g (setGroup g (.static (c.name :: names)) s.groups) = some (.static (c.name :: names)) := lookup_setGroup
          rw [h2, hl] at h3
          injection h3 with h3
          injection h3 with h3
          exact absurd (congrArg List.length h3) (by simp)
      · exact good _ hn
  · refine hi.same fun g' c' h1 _ => ?_
    injection h1 with _ h1
    cases h1

theorem insertPath_held (hE : Steady E) {n : Name} {h : List (Op × Obs)} {s : State} {g path : Str} {p : Nat} {b : Bool}
    (hi : Held n h s) : Held n (h ++ [(.insertPath g path p b, (s.insertPath E g path p b).2)]) (s.insertPath E g path p b).1 := by
  have hs : ∀ o, Held n (h ++ [(.insertPath g path p b, o)]) s := fun o => hi.same fun g' c' h1 _ => by
    injection h1 with h1 _
    cases h1
  unfold State.insertPath
  rcases hl : lookup g s.groups with _ | x
  · dsimp only
    split
    · exact hs _
    · obtain ⟨h1, h2⟩ := refresh_kept hE (now := s.now) (d := { path := path, isDirectory := b, refreshPeriod := p }) (n := n)
        (by simp) hi.ordered
      obtain ⟨d, anchors, h3, _⟩ := refresh_ok hE s.now { path := path, isDirectory := b, refreshPeriod := p } s.anchors
        (fun h => absurd h (by simp))
      rw [h3] at h1 h2 ⊢
      dsimp only at h1 h2 ⊢
      refine hi.next h1 h2 (fun g' c' h4 _ => ?_) fun g' names' h4 h5 => ?_
      · injection h4 with h4 _
        cases h4
      · rcases mem_setGroup h4 with h6 | h6
        · cases h6
        · exact .inr ⟨names', h6, h5⟩
  · exact hs _

theorem remove_held {n : Name} {h : List (Op × Obs)} {s : State} {g : Str} {m : Name} (hi : Held n h s)
    (hr : (s.remove g m).2 = .done → m ≠ n) :
    Held n (h ++ [(.remove g m, (s.remove g m).2)]) (s.remove g m).1 := by
  have hs : ∀ o, Held n (h ++ [(.remove g m, o)]) s := fun o => hi.same fun g' c' h1 _ => by
    injection h1 with h1 _
    cases h1
  unfold State.remove at hr ⊢
  rcases hl : lookup g s.groups with _ | (names | d)
  · exact hs _
  · rw [hl] at hr
    have hne := hr rfl
    refine hi.next (removeAnchor_ordered hi.ordered) ?_ (fun g' c' h4 _ => ?_) fun g' names' h4 h5 => ?_
    · rintro ⟨x, h1, h2⟩
      exact ⟨x, mem_removeAnchor.mpr ⟨h1, fun h3 => hne (h3 ▸ h2)⟩, h2⟩
    · injection h4 with h4 _
      cases h4
    · rcases mem_setGroup h4 with h6 | h6
      · injection h6 with h6 h7
        injection h7 with h7
        subst h6 h7
        exact .inr ⟨names, lookup_mem hl, (mem_dropName.mp h5).1⟩
      · exact .inr ⟨names', h6, h5⟩
  · exact hs _

theorem find_held (hE : Steady E) {n : Name} {h : List (Op × Obs)} {s : State} (hi : Held n h s)
    (hd : ∀ g d, (g, .dynamic d) ∈ s.groups → n ∉ d.names) (hok : ∀ g d, (g, .dynamic d) ∈ s.groups → DynOk E s.now d)
    (look : List SData → Except Err (Option SData)) {o : Op} (ho : ∀ g c, o ≠ .insert g c) :
    Held n (h ++ [(o, (s.find E look).2)]) (s.find E look).1 := by
  obtain ⟨h1, h2, h3⟩ := refreshAll_kept hE (now := s.now) s.groups hd hi.ordered
  obtain ⟨groups, anchors, h4, _⟩ := refreshAll_ok hE s.now s.groups s.anchors hok
  unfold State.find
  rw [h4] at h1 h2 h3 ⊢
  dsimp only at h1 h2 h3 ⊢
  refine hi.next h1 h2 (fun g' c' h5 _ => ?_) fun g' names' h5 h6 => ?_
  · exact absurd (congrArg Prod.fst h5) (ho g' c')
  · exact .inr ⟨names', (h3 g' names').mp h5, h6⟩

/-- The name is not in a file or directory, has not been removed from a group, and has not been the name of a certificate that was
refused. -/
structure Apart (E : Env) (n : Name) (h : List (Op × Obs)) : Prop where
  files : ∀ t path b c, Contains E t path b c → c.name ≠ n
  removed : ∀ g, (Op.remove g n, Obs.done) ∉ h
  refused : ∀ g c e, (Op.insert g c, Obs.raised e) ∈ h → c.name ≠ n

theorem apart_dyns {n : Name} {h h' : List (Op × Obs)} {s : State} (hi : Inv E h s) (ha : Apart E n h') :
    ∀ g d, (g, .dynamic d) ∈ s.groups → n ∉ d.names := by
  intro g d hd hn
  obtain ⟨_, _, h1⟩ := hi.dyns g d hd
  obtain ⟨t, _, _, h2⟩ := h1.expire
  obtain ⟨c, h3, h4⟩ := h2 n hn
  exact ha.files _ _ _ c h3 h4

theorem step_held (hE : Steady E) {n : Name} {h : List (Op × Obs)} {s : State} (hi : Inv E h s) (hh : Held n h s) (o : Op)
    (ha : Apart E n (h ++ [(o, (step E s o).2)])) : Held n (h ++ [(o, (step E s o).2)]) (step E s o).1 := by
  have hd := apart_dyns hi ha
  have hok : ∀ g d, (g, .dynamic d) ∈ s.groups → DynOk E s.now d := fun g d h => (hi.dyns g d h).2.2
  cases o with
  | insert g c =>
    refine insert_held hh fun e he => .inl (ha.refused g c e ?_)
    rw [List.mem_append, List.mem_singleton, ← he]
    exact .inr rfl
  | insertPath g path p b => exact insertPath_held hE hh
  | remove g m =>
    refine remove_held hh fun he hm => ha.removed g ?_
    rw [List.mem_append, List.mem_singleton, ← he, ← hm]
    exact .inr rfl
  | clear =>
    refine ⟨List.Pairwise.nil, fun g names hg => absurd hg (by simp [step]), fun c hc hab => ?_⟩
    rcases addedBy_snoc_inv hab with ⟨g, h1⟩ | ⟨_, h1⟩
    · injection h1 with h1 _
      cases h1
    · exact absurd rfl h1
  | find n => exact find_held hE hh hd hok _ (by simp)
  | findInterest i => exact find_held hE hh hd hok _ (by simp)
  | wait ms =>
    have h1 : Held n (h ++ [(Op.wait ms, Obs.done)]) s := hh.same fun g' c' h1 _ => by
      injection h1 with h1 _
      cases h1
    exact ⟨h1.ordered, h1.held, h1.added⟩

theorem apart_sub {n : Name} {h h' : List (Op × Obs)} (ha : Apart E n h) (hs : ∀ x ∈ h', x ∈ h) : Apart E n h' :=
  ⟨ha.files, fun g hg => ha.removed g (hs _ hg), fun g c e hg => ha.refused g c e (hs _ hg)⟩

theorem run_held (hE : Steady E) {n : Name} (ops : List Op) : ∀ {h : List (Op × Obs)} {s : State}, Inv E h s → Held n h s →
    Apart E n (h ++ trace E s ops) → Held n (h ++ trace E s ops) (run E s ops) := by
  induction ops with
  | nil =>
    intro h s _ hh _
    rw [show trace E s [] = [] from rfl, List.append_nil]
    exact hh
  | cons o os ih =>
    intro h s hi hh ha
    rw [show trace E s (o :: os) = [(o, (step E s o).2)] ++ trace E (step E s o).1 os from rfl, ← List.append_assoc] at ha ⊢
    exact ih (step_inv hE hi o) (step_held hE hi hh o (apart_sub ha fun x hx => List.mem_append_left _ hx)) ha

theorem init_held (t : Nat) (n : Name) : Held n [] (init t) :=
  ⟨List.Pairwise.nil, fun g names hg => absurd hg (by simp [init]), fun c _ ⟨g, before, after, h, _⟩ => by simp at h⟩

end PyNDN.TrustAnchors
