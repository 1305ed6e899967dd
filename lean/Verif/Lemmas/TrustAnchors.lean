import Verif.Spec.TrustAnchors
import Verif.Lemmas.Validator
/-
The trust anchors of a container come from its history.
-/
namespace PyNDN.TrustAnchors
open PyNDN PyNDN.Validator PyNDN.Spec.TrustAnchors

variable {E : Env}

theorem hasName_iff {n : Name} {l : List Name} : hasName n l = true ↔ n ∈ l := by
  unfold hasName
  rw [List.any_eq_true]
  constructor
  · rintro ⟨x, h1, h2⟩
    rw [name_equals_iff] at h2
    exact h2 ▸ h1
  · intro h
    exact ⟨n, h, (name_equals_iff _ _).mpr rfl⟩

theorem mem_dropName {n x : Name} {l : List Name} : x ∈ dropName n l ↔ x ∈ l ∧ x ≠ n := by
  unfold dropName
  rw [List.mem_filter]
  refine and_congr_right fun _ => ?_
  rw [Bool.not_eq_true', ← Bool.not_eq_true, name_equals_iff]

theorem mem_dropNames {old : List Name} : ∀ {l : List Name} {x : Name}, x ∈ old.foldl (fun l n => dropName n l) l ↔ x ∈ l ∧ x ∉ old := by
  induction old with
  | nil => simp
  | cons n old ih =>
    intro l x
    rw [List.foldl_cons, ih, mem_dropName]
    simp only [List.mem_cons, not_or]
    exact ⟨fun h => ⟨h.1.1, h.1.2, h.2⟩, fun h => ⟨⟨h.1, h.2.1⟩, h.2.2⟩⟩

theorem mem_removeAnchor {n : Name} {c : SData} {l : List SData} : c ∈ removeAnchor n l ↔ c ∈ l ∧ c.name ≠ n := by
  unfold removeAnchor
  rw [List.mem_filter]
  refine and_congr_right fun _ => ?_
  rw [Bool.not_eq_true', ← Bool.not_eq_true, name_equals_iff]

theorem mem_removeAnchors {old : List Name} : ∀ {l : List SData} {c : SData},
    c ∈ old.foldl (fun l n => removeAnchor n l) l ↔ c ∈ l ∧ c.name ∉ old := by
  induction old with
  | nil => simp
  | cons n old ih =>
    intro l c
    rw [List.foldl_cons, ih, mem_removeAnchor]
    simp only [List.mem_cons, not_or]
    exact ⟨fun h => ⟨h.1.1, h.1.2, h.2⟩, fun h => ⟨⟨h.1, h.2.1⟩, h.2.2⟩⟩

/-- What reading the certificates gives. -/
structure Loaded (cs : List SData) (old names : List Name) (anchors : List SData) (old' names' : List Name) (anchors' : List SData) :
    Prop where
  namesOf : ∀ n ∈ names', n ∈ names ∨ ∃ c ∈ cs, c.name = n
  keep : ∀ n ∈ names, n ∈ names'
  all : ∀ c ∈ cs, c.name ∈ names'
  sub : ∀ n ∈ old', n ∈ old
  gone : ∀ n ∈ old, n ∉ old' → ∃ c ∈ cs, c.name = n
  fresh : ∀ c ∈ cs, c.name ∉ old'
  anchorsOf : ∀ c ∈ anchors', c ∈ anchors ∨ c ∈ cs

theorem loadAll_ok (cs : List SData) : ∀ {old names : List Name} {anchors : List SData}, (cs.map SData.name).Nodup →
    (∀ n ∈ old, n ∈ names) → (∀ c ∈ cs, c.name ∈ names → c.name ∈ old) →
    ∃ old' names' anchors', loadAll cs old names anchors = (names', anchors', .ok old') ∧
      Loaded cs old names anchors old' names' anchors' := by
  induction cs with
  | nil =>
    intro old names anchors _ _ _
    exact ⟨old, names, anchors, rfl, by simp, by simp, by simp, by simp, fun n h1 h2 => absurd h1 h2, by simp, by simp⟩
  | cons c cs ih =>
    intro old names anchors hnd hsub hin
    rw [List.map_cons, List.nodup_cons] at hnd
    have hne : ∀ d ∈ cs, d.name ≠ c.name := fun d hd e => hnd.1 (List.mem_map.mpr ⟨d, hd, e⟩)
    unfold loadAll
    by_cases hc : c.name ∈ names
    · rw [if_pos (hasName_iff.mpr hc), if_pos (hasName_iff.mpr (hin c (by simp) hc))]
      obtain ⟨old', names', anchors', h1, h2⟩ := ih (old := dropName c.name old) (names := names) (anchors := anchors) hnd.2
        (fun n hn => hsub n (mem_dropName.mp hn).1)
        (fun d hd hn => mem_dropName.mpr ⟨hin d (by simp [hd]) hn, hne d hd⟩)
      refine ⟨old', names', anchors', h1, fun n hn => ?_, h2.keep, ?_, fun n hn => (mem_dropName.mp (h2.sub n hn)).1, fun n hn hn' => ?_,
        ?_, fun d hd => ?_⟩
      · rcases h2.namesOf n hn with h | ⟨d, hd, h⟩
        · exact .inl h
        · exact .inr ⟨d, by simp [hd], h⟩
      · intro d hd
        rcases List.mem_cons.mp hd with rfl | hd
        · exact h2.keep _ hc
        · exact h2.all d hd
      · by_cases hnc : n = c.name
        · exact ⟨c, by simp, hnc.symm⟩
        · obtain ⟨d, hd, h⟩ := h2.gone n (mem_dropName.mpr ⟨hn, hnc⟩) hn'
          exact ⟨d, by simp [hd], h⟩
      · intro d hd
        rcases List.mem_cons.mp hd with rfl | hd
        · exact fun h => (mem_dropName.mp (h2.sub _ h)).2 rfl
        · exact h2.fresh d hd
      · rcases h2.anchorsOf d hd with h | h
        · exact .inl h
        · exact .inr (by simp [h])
    · rw [if_neg (by rw [hasName_iff]; exact hc)]
      obtain ⟨old', names', anchors', h1, h2⟩ := ih (old := old) (names := c.name :: names) (anchors := addAnchor c anchors) hnd.2
        (fun n hn => by simp [hsub n hn])
        (fun d hd hn => by
          rcases List.mem_cons.mp hn with h | h
          · exact absurd h (hne d hd)
          · exact hin d (by simp [hd]) h)
      refine ⟨old', names', anchors', h1, fun n hn => ?_, fun n hn => h2.keep n (by simp [hn]), ?_, h2.sub, fun n hn hn' => ?_,
        ?_, fun d hd => ?_⟩
      · rcases h2.namesOf n hn with h | ⟨d, hd, h⟩
        · rcases List.mem_cons.mp h with h | h
          · exact .inr ⟨c, by simp, h.symm⟩
          · exact .inl h
        · exact .inr ⟨d, by simp [hd], h⟩
      · intro d hd
        rcases List.mem_cons.mp hd with rfl | hd
        · exact h2.keep _ (by simp)
        · exact h2.all d hd
      · obtain ⟨d, hd, h⟩ := h2.gone n hn hn'
        exact ⟨d, by simp [hd], h⟩
      · intro d hd
        rcases List.mem_cons.mp hd with rfl | hd
        · exact fun h => hc (hsub _ (h2.sub _ h))
        · exact h2.fresh d hd
      · rcases h2.anchorsOf d hd with h | h
        · rcases mem_addAnchor h with h | h
          · exact .inr (by simp [h])
          · exact .inl h
        · exact .inr (by simp [h])

/-- The certificates that a refresh reads. -/
theorem files_steady (hE : Steady E) (t : Nat) (path : Str) (isDirectory : Bool) :
    ∃ cs, (if isDirectory then E.dir t path else some (E.file t path).toList) = some cs ∧ (cs.map SData.name).Nodup ∧
      ∀ c, c ∈ cs ↔ Contains E t path isDirectory c := by
  cases isDirectory with
  | true =>
    obtain ⟨l, h1, h2⟩ := hE t path
    refine ⟨l, by rw [if_pos rfl, h1], h2, fun c => ?_⟩
    unfold Contains
    rw [if_pos rfl]
    constructor
    · exact fun h => ⟨l, h1, h⟩
    · rintro ⟨l', h3, h4⟩
      rw [h1] at h3
      injection h3 with h3
      exact h3 ▸ h4
  | false =>
    refine ⟨(E.file t path).toList, rfl, ?_, fun c => ?_⟩
    · cases E.file t path <;> simp
    · unfold Contains
      rw [if_neg (by simp)]
      simp

/-- The names of a dynamic group are those of the certificates at its last refresh. -/
structure DynOk (E : Env) (now : Nat) (d : Dyn) : Prop where
  expire : ∃ t ≤ now, d.expireTime = t + d.refreshPeriod ∧ ∀ n ∈ d.names, ∃ c, Contains E t d.path d.isDirectory c ∧ c.name = n

/-- A certificate that a dynamic group stands for. -/
def From (E : Env) (now : Nat) (d : Dyn) (c : SData) : Prop := c.name ∈ d.names ∧ ∃ t ≤ now, Contains E t d.path d.isDirectory c

/-- A refresh of a group. -/
structure Refreshed (E : Env) (now : Nat) (d d' : Dyn) (anchors anchors' : List SData) : Prop where
  path : d'.path = d.path
  isDirectory : d'.isDirectory = d.isDirectory
  refreshPeriod : d'.refreshPeriod = d.refreshPeriod
  ok : DynOk E now d'
  expire : 0 < d.refreshPeriod → now < d'.expireTime
  anchors : ∀ c ∈ anchors', From E now d' c ∨ (c ∈ anchors ∧ ¬ From E now d c)

theorem refresh_ok (hE : Steady E) (now : Nat) (d : Dyn) (anchors : List SData) (hd : d.expireTime > now → DynOk E now d) :
    ∃ d' anchors', d.refresh E now anchors = (d', anchors', .ok ()) ∧ Refreshed E now d d' anchors anchors' := by
  unfold Dyn.refresh
  by_cases he : d.expireTime > now
  · rw [if_pos he]
    refine ⟨d, anchors, rfl, rfl, rfl, rfl, hd he, fun _ => he, fun c hc => ?_⟩
    by_cases h : From E now d c
    · exact .inl h
    · exact .inr ⟨hc, h⟩
  · rw [if_neg he]
    dsimp only
    obtain ⟨cs, h1, h2, h3⟩ := files_steady hE now d.path d.isDirectory
    rw [h1]
    dsimp only
    obtain ⟨old', names', anchors', h4, h5⟩ := loadAll_ok cs (old := d.names) (names := d.names) (anchors := anchors) h2
      (fun n hn => hn) (fun c _ hn => hn)
    rw [h4]
    refine ⟨_, _, rfl, rfl, rfl, rfl, ⟨now, Nat.le_refl _, rfl, fun n hn => ?_⟩, fun hp => Nat.lt_add_of_pos_right hp, fun c hc => ?_⟩
    · obtain ⟨h6, h7⟩ := mem_dropNames.mp hn
      have : ∃ c ∈ cs, c.name = n := by
        rcases h5.namesOf n h6 with h | h
        · exact h5.gone n h h7
        · exact h
      obtain ⟨c, hc, e⟩ := this
      exact ⟨c, (h3 c).mp hc, e⟩
    · obtain ⟨h6, h7⟩ := mem_removeAnchors.mp hc
      have hmem : c.name ∈ names' → c.name ∈ old'.foldl (fun l n => dropName n l) names' := fun h => mem_dropNames.mpr ⟨h, h7⟩
      rcases h5.anchorsOf c h6 with h | h
      · by_cases hf : From E now d c
        · obtain ⟨h8, t, h9, h10⟩ := hf
          exact .inl ⟨hmem (h5.keep _ h8), t, h9, h10⟩
        · exact .inr ⟨h, hf⟩
      · exact .inl ⟨hmem (h5.all c h), now, Nat.le_refl _, (h3 c).mp h⟩

theorem DynOk.mono {now now' : Nat} {d : Dyn} (h : DynOk E now d) (hn : now ≤ now') : DynOk E now' d := by
  obtain ⟨t, h1, h2⟩ := h.expire
  exact ⟨t, Nat.le_trans h1 hn, h2⟩

theorem From.mono {now now' : Nat} {d : Dyn} {c : SData} (h : From E now d c) (hn : now ≤ now') : From E now' d c := by
  obtain ⟨h1, t, h2, h3⟩ := h
  exact ⟨h1, t, Nat.le_trans h2 hn, h3⟩

theorem refreshAll_ok (hE : Steady E) (now : Nat) : ∀ (groups : List (Str × Group)) (anchors : List SData),
    (∀ g d, (g, .dynamic d) ∈ groups → DynOk E now d) →
    ∃ groups' anchors', refreshAll E now groups anchors = (groups', anchors', .ok ()) ∧
      (∀ g d', (g, Group.dynamic d') ∈ groups' → ∃ d, (g, Group.dynamic d) ∈ groups ∧ d'.path = d.path ∧
        d'.isDirectory = d.isDirectory ∧ d'.refreshPeriod = d.refreshPeriod ∧ DynOk E now d' ∧
        (0 < d.refreshPeriod → now < d'.expireTime)) ∧
      ∀ c ∈ anchors', (∃ g d', (g, Group.dynamic d') ∈ groups' ∧ From E now d' c) ∨
        (c ∈ anchors ∧ ∀ g d, (g, Group.dynamic d) ∈ groups → ¬ From E now d c) := by
  intro groups
  induction groups with
  | nil => exact fun anchors _ => ⟨[], anchors, rfl, by simp, fun c hc => .inr ⟨hc, by simp⟩⟩
  | cons x rest ih =>
    intro anchors hok
    obtain ⟨g, x⟩ := x
    cases x with
    | static names =>
      obtain ⟨groups', anchors', h1, h2, h3⟩ := ih anchors fun g d h => hok g d (by simp [h])
      refine ⟨(g, .static names) :: groups', anchors', ?_, fun g' d' hd => ?_, fun c hc => ?_⟩
      · unfold refreshAll
        rw [h1]
      · rcases List.mem_cons.mp hd with h | h
        · cases h
        · obtain ⟨d, h4, h5⟩ := h2 g' d' h
          exact ⟨d, by simp [h4], h5⟩
      · rcases h3 c hc with ⟨g', d', h4, h5⟩ | ⟨h4, h5⟩
        · exact .inl ⟨g', d', by simp [h4], h5⟩
        · refine .inr ⟨h4, fun g' d hd => ?_⟩
          rcases List.mem_cons.mp hd with h | h
          · cases h
          · exact h5 g' d h
    | dynamic d =>
      obtain ⟨d1, anchors1, h1, h2⟩ := refresh_ok hE now d anchors fun _ => hok g d (by simp)
      obtain ⟨groups', anchors', h3, h4, h5⟩ := ih anchors1 fun g d h => hok g d (by simp [h])
      refine ⟨(g, .dynamic d1) :: groups', anchors', ?_, fun g' d' hd => ?_, fun c hc => ?_⟩
      · unfold refreshAll
        rw [h1]
        dsimp only
        rw [h3]
      · rcases List.mem_cons.mp hd with h | h
        · cases h
          exact ⟨d, by simp, h2.path, h2.isDirectory, h2.refreshPeriod, h2.ok, h2.expire⟩
        · obtain ⟨d, h6, h7⟩ := h4 g' d' h
          exact ⟨d, by simp [h6], h7⟩
      · rcases h5 c hc with ⟨g', d', h6, h7⟩ | ⟨h6, h7⟩
        · exact .inl ⟨g', d', by simp [h6], h7⟩
        · rcases h2.anchors c h6 with h | ⟨h8, h9⟩
          · exact .inl ⟨g, d1, by simp, h⟩
          · refine .inr ⟨h8, fun g' d' hd => ?_⟩
            rcases List.mem_cons.mp hd with h | h
            · cases h
              exact h9
            · exact h7 g' d' h

/-! ### The invariant -/

theorem mem_setGroup {g : Str} {x : Group} : ∀ {l : List (Str × Group)} {y : Str × Group}, y ∈ setGroup g x l → y = (g, x) ∨ y ∈ l := by
  intro l
  induction l with
  | nil =>
    intro y h
    unfold setGroup at h
    exact .inl (List.mem_singleton.mp h)
  | cons z l ih =>
    intro y h
    unfold setGroup at h
    split at h
    · rcases List.mem_cons.mp h with h | h
      · exact .inl h
      · exact .inr (by simp [h])
    · rcases List.mem_cons.mp h with h | h
      · exact .inr (by simp [h])
      · rcases ih h with h | h
        · exact .inl h
        · exact .inr (by simp [h])

theorem mem_setGroup_self {g : Str} {x : Group} {l : List (Str × Group)} : (g, x) ∈ setGroup g x l := by
  induction l with
  | nil => simp [setGroup]
  | cons z l ih =>
    unfold setGroup
    split
    · simp
    · exact List.mem_cons_of_mem _ ih

/-- A group that is not dynamic is replaced. -/
theorem setGroup_keep {g : Str} {x : Group} : ∀ {l : List (Str × Group)} {y : Str} {d : Dyn}, (∀ d, lookup g l ≠ some (.dynamic d)) →
    (y, .dynamic d) ∈ l → (y, .dynamic d) ∈ setGroup g x l := by
  intro l
  induction l with
  | nil => exact fun _ h => absurd h (by simp)
  | cons z l ih =>
    intro y d hl h
    unfold lookup at hl
    unfold setGroup
    split
    · rename_i hz
      rcases List.mem_cons.mp h with h | h
      · subst h
        rw [if_pos hz] at hl
        exact absurd rfl (hl d)
      · simp [h]
    · rename_i hz
      rw [if_neg hz] at hl
      rcases List.mem_cons.mp h with h | h
      · simp [h]
      · exact List.mem_cons_of_mem _ (ih hl h)

structure Inv (E : Env) (h : List (Op × Obs)) (s : State) : Prop where
  anchorsOf : ∀ c ∈ s.anchors, AddedBy h c ∨ ∃ g d, (g, .dynamic d) ∈ s.groups ∧ From E s.now d c
  dyns : ∀ g d, (g, .dynamic d) ∈ s.groups → 0 < d.refreshPeriod ∧ Watched h d.path d.refreshPeriod d.isDirectory ∧ DynOk E s.now d

theorem addedBy_snoc {h : List (Op × Obs)} {c : SData} {e : Op × Obs} (ha : AddedBy h c) (h1 : e.1 ≠ .clear)
    (h2 : ∀ g, e ≠ (.remove g c.name, .done)) : AddedBy (h ++ [e]) c := by
  obtain ⟨g, before, after, h3, h4, h5⟩ := ha
  refine ⟨g, before, after ++ [e], by rw [h3]; simp, fun o ho => ?_, fun g' hg => ?_⟩
  · rcases List.mem_append.mp ho with h | h
    · exact h4 o h
    · exact h1 (by rw [← List.mem_singleton.mp h])
  · rcases List.mem_append.mp hg with h | h
    · exact h5 g' h
    · exact h2 g' (List.mem_singleton.mp h).symm

theorem watched_snoc {h : List (Op × Obs)} {path : Str} {p : Nat} {b : Bool} {e : Op × Obs} (ha : Watched h path p b)
    (h1 : e.1 ≠ .clear) : Watched (h ++ [e]) path p b := by
  obtain ⟨g, before, after, h3, h4⟩ := ha
  refine ⟨g, before, after ++ [e], by rw [h3]; simp, fun o ho => ?_⟩
  rcases List.mem_append.mp ho with h | h
  · exact h4 o h
  · exact h1 (by rw [← List.mem_singleton.mp h])

/-- A call that changes neither the anchors nor the groups. -/
theorem Inv.same {h : List (Op × Obs)} {s : State} {e : Op × Obs} (hi : Inv E h s) (h1 : e.1 ≠ .clear)
    (h2 : ∀ c ∈ s.anchors, ∀ g, e ≠ (.remove g c.name, .done)) : Inv E (h ++ [e]) s := by
  refine ⟨fun c hc => ?_, fun g d hd => ?_⟩
  · rcases hi.anchorsOf c hc with h | h
    · exact .inl (addedBy_snoc h h1 (h2 c hc))
    · exact .inr h
  · obtain ⟨h3, h4, h5⟩ := hi.dyns g d hd
    exact ⟨h3, watched_snoc h4 h1, h5⟩

/-- A call that sets a static group. -/
theorem Inv.setStatic {h : List (Op × Obs)} {s : State} {e : Op × Obs} {g : Str} {names : List Name} {anchors : List SData}
    (hi : Inv E h s) (h1 : e.1 ≠ .clear) (hl : ∀ d, lookup g s.groups ≠ some (.dynamic d))
    (ha : ∀ c ∈ anchors, (c ∈ s.anchors ∧ ∀ g, e ≠ (.remove g c.name, .done)) ∨ AddedBy (h ++ [e]) c) :
    Inv E (h ++ [e]) { s with groups := setGroup g (.static names) s.groups, anchors := anchors } := by
  refine ⟨fun c hc => ?_, fun g' d hd => ?_⟩
  · rcases ha c hc with ⟨h2, h3⟩ | h2
    · rcases hi.anchorsOf c h2 with h4 | ⟨g', d, h4, h5⟩
      · exact .inl (addedBy_snoc h4 h1 h3)
      · exact .inr ⟨g', d, setGroup_keep hl h4, h5⟩
    · exact .inl h2
  · rcases mem_setGroup hd with h2 | h2
    · cases h2
    · obtain ⟨h3, h4, h5⟩ := hi.dyns g' d h2
      exact ⟨h3, watched_snoc h4 h1, h5⟩

theorem addedBy_now {h : List (Op × Obs)} {g : Str} {c : SData} : AddedBy (h ++ [(.insert g c, .done)]) c :=
  ⟨g, h, [], rfl, by simp, by simp⟩

theorem insert_inv {h : List (Op × Obs)} {s : State} {g : Str} {c : SData} (hi : Inv E h s) :
    Inv E (h ++ [(.insert g c, (s.insert g c).2)]) (s.insert g c).1 := by
  have key : ∀ names, (∀ d, lookup g s.groups ≠ some (.dynamic d)) → Inv E (h ++ [(.insert g c, Obs.done)])
      { s with groups := setGroup g (.static names) s.groups, anchors := addAnchor c s.anchors } := by
    intro names hl
    refine hi.setStatic (by simp) hl fun x hx => ?_
    rcases mem_addAnchor hx with rfl | hx
    · exact .inr addedBy_now
    · exact .inl ⟨hx, by simp⟩
  have bad : ∀ names r, (∀ d, lookup g s.groups ≠ some (.dynamic d)) → Inv E (h ++ [(.insert g c, Obs.raised r)])
      { s with groups := setGroup g (.static names) s.groups } := by
    intro names r hl
    exact hi.setStatic (by simp) hl fun x hx => .inl ⟨hx, by simp⟩
  unfold State.insert
  rcases hl : lookup g s.groups with _ | (names | d)
  · dsimp only
    rcases checkFormat c with r | _
    · exact bad _ r (by simp [hl])
    · exact key _ (by simp [hl])
  · dsimp only
    split
    · exact hi.same (by simp) (by simp)
    · rcases checkFormat c with r | _
      · exact bad _ r (by simp [hl])
      · exact key _ (by simp [hl])
  · exact hi.same (by simp) (by simp)

theorem insertPath_inv (hE : Steady E) {h : List (Op × Obs)} {s : State} {g path : Str} {p : Nat} {b : Bool} (hi : Inv E h s) :
    Inv E (h ++ [(.insertPath g path p b, (s.insertPath E g path p b).2)]) (s.insertPath E g path p b).1 := by
  unfold State.insertPath
  rcases hl : lookup g s.groups with _ | x
  · dsimp only
    split
    · exact hi.same (by simp) (by simp)
    · rename_i hp
      obtain ⟨d, anchors, h1, h2⟩ := refresh_ok hE s.now { path := path, isDirectory := b, refreshPeriod := p } s.anchors
        (fun h => absurd h (by simp))
      rw [h1]
      dsimp only
      refine ⟨fun c hc => ?_, fun g' d' hd => ?_⟩
      · rcases h2.anchors c hc with h3 | ⟨h3, _⟩
        · exact .inr ⟨g, d, mem_setGroup_self, h3⟩
        · rcases hi.anchorsOf c h3 with h4 | ⟨g', d', h4, h5⟩
          · exact .inl (addedBy_snoc h4 (by simp) (by simp))
          · exact .inr ⟨g', d', setGroup_keep (by simp [hl]) h4, h5⟩
      · rcases mem_setGroup hd with h3 | h3
        · cases h3
          refine ⟨?_, ?_, h2.ok⟩
          · rw [h2.refreshPeriod]
            exact Nat.pos_of_ne_zero hp
          · rw [h2.refreshPeriod, h2.path, h2.isDirectory]
            exact ⟨g, h, [], rfl, by simp⟩
        · obtain ⟨h4, h5, h6⟩ := hi.dyns g' d' h3
          exact ⟨h4, watched_snoc h5 (by simp), h6⟩
  · exact hi.same (by simp) (by simp)

theorem remove_inv {h : List (Op × Obs)} {s : State} {g : Str} {n : Name} (hi : Inv E h s) :
    Inv E (h ++ [(.remove g n, (s.remove g n).2)]) (s.remove g n).1 := by
  unfold State.remove
  rcases hl : lookup g s.groups with _ | (names | d)
  · exact hi.same (by simp) (by simp)
  · refine hi.setStatic (by simp) (by simp [hl]) fun x hx => .inl ?_
    obtain ⟨h1, h2⟩ := mem_removeAnchor.mp hx
    refine ⟨h1, fun g' e => h2 ?_⟩
    injection e with e _
    injection e with _ e
    exact e.symm
  · exact hi.same (by simp) (by simp)

/-- After the groups have been refreshed, each anchor has been added by the application, or comes from a group that has been read less
than its period ago. -/
theorem find_inv (hE : Steady E) {h : List (Op × Obs)} {s : State} (hi : Inv E h s) (look : List SData → Except Err (Option SData))
    {o : Op} (ho : o ≠ .clear) (hr : ∀ g n, o ≠ .remove g n) :
    Inv E (h ++ [(o, (s.find E look).2)]) (s.find E look).1 ∧
      ∃ anchors, (s.find E look).2 = (match look anchors with | .error e => .raised e | .ok r => .found r) ∧
        ∀ c ∈ anchors, AddedBy h c ∨ ReadBy E h s.now c := by
  obtain ⟨groups, anchors, h1, h2, h3⟩ := refreshAll_ok hE s.now s.groups s.anchors fun g d hd => (hi.dyns g d hd).2.2
  have h4 : ∀ c ∈ anchors, AddedBy h c ∨ ∃ g d', (g, Group.dynamic d') ∈ groups ∧ From E s.now d' c := by
    intro c hc
    rcases h3 c hc with h4 | ⟨h4, h5⟩
    · exact .inr h4
    · rcases hi.anchorsOf c h4 with h6 | ⟨g, d, h6, h7⟩
      · exact .inl h6
      · exact absurd h7 (h5 g d h6)
  unfold State.find
  rw [h1]
  dsimp only
  refine ⟨⟨fun c hc => ?_, fun g d' hd => ?_⟩, anchors, rfl, fun c hc => ?_⟩
  · rcases h4 c hc with h5 | h5
    · exact .inl (addedBy_snoc h5 ho fun g e => hr g c.name (congrArg Prod.fst e))
    · exact .inr h5
  · obtain ⟨d, h5, h6, h7, h8, h9, _⟩ := h2 g d' hd
    obtain ⟨h10, h11, _⟩ := hi.dyns g d h5
    rw [h6, h7, h8]
    exact ⟨h10, watched_snoc h11 ho, h9⟩
  · rcases h4 c hc with h5 | ⟨g, d', h5, h6, t, h7, h8⟩
    · exact .inl h5
    · obtain ⟨d, h9, h10, h11, h12, h13, h14⟩ := h2 g d' h5
      obtain ⟨h15, h16, _⟩ := hi.dyns g d h9
      obtain ⟨t', h17, h18, h19⟩ := h13.expire
      refine .inr ⟨d.path, d.refreshPeriod, d.isDirectory, h16, ⟨t, h7, ?_⟩, t', h17, ?_, ?_⟩
      · rw [← h10, ← h11]
        exact h8
      · rw [← h12, ← h18]
        exact h14 h15
      · rw [← h10, ← h11]
        exact h19 _ h6

theorem step_inv (hE : Steady E) {h : List (Op × Obs)} {s : State} (hi : Inv E h s) (o : Op) :
    Inv E (h ++ [(o, (step E s o).2)]) (step E s o).1 := by
  cases o with
  | insert g c => exact insert_inv hi
  | insertPath g path p b => exact insertPath_inv hE hi
  | remove g n => exact remove_inv hi
  | clear => exact ⟨fun c hc => absurd hc (by simp [step]), fun g d hd => absurd hd (by simp [step])⟩
  | find n => exact (find_inv hE hi _ (by simp) (by simp)).1
  | findInterest i => exact (find_inv hE hi _ (by simp) (by simp)).1
  | wait ms =>
    have h1 := hi.same (e := (Op.wait ms, Obs.done)) (by simp) (by simp)
    have hn : s.now ≤ s.now + ms := Nat.le_add_right _ _
    refine ⟨fun c hc => ?_, fun g d hd => ?_⟩
    · rcases h1.anchorsOf c hc with h2 | ⟨g, d, h2, h3⟩
      · exact .inl h2
      · exact .inr ⟨g, d, h2, h3.mono hn⟩
    · obtain ⟨h2, h3, h4⟩ := h1.dyns g d hd
      exact ⟨h2, h3, h4.mono hn⟩

theorem run_inv (hE : Steady E) (ops : List Op) : ∀ {h : List (Op × Obs)} {s : State}, Inv E h s →
    Inv E (h ++ trace E s ops) (run E s ops) := by
  induction ops with
  | nil =>
    intro h s hi
    rw [show trace E s [] = [] from rfl, List.append_nil]
    exact hi
  | cons o os ih =>
    intro h s hi
    have h1 := ih (step_inv hE hi o)
    rw [List.append_assoc] at h1
    exact h1

theorem init_inv (t : Nat) : Inv E [] (init t) := ⟨fun c hc => absurd hc (by simp [init]), fun g d hd => absurd hd (by simp [init])⟩

end PyNDN.TrustAnchors
