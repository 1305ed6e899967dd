import Verif.Spec.PibSqlite
import Verif.Props.Name
import Verif.Props.Data
/-
Lemmas for C74: tables.
-/
namespace PyNDN.PibSqlite
open Spec.PibSqlite (TableOk Integrity)

/-! ### Select -/

theorem find_some {t : Table} {n : Bytes} {r : Row} (h : t.find n = some r) : r ∈ t ∧ r.name = n :=
  ⟨List.mem_of_find?_eq_some h, by have := List.find?_some h; simpa using this⟩

theorem find_none {t : Table} {n : Bytes} (h : t.find n = none) {r : Row} (hr : r ∈ t) : r.name ≠ n := by
  have := List.find?_eq_none.mp h r hr
  simpa using this

theorem nodup_inj {f : Row → β} {t : Table} (h : (t.map f).Nodup) {r s : Row} (hr : r ∈ t) (hs : s ∈ t) (e : f r = f s) : r = s := by
  induction t with
  | nil => cases hr
  | cons x t ih =>
    rw [List.map_cons, List.nodup_cons] at h
    rcases List.mem_cons.mp hr with rfl | hr'
    · rcases List.mem_cons.mp hs with rfl | hs'
      · rfl
      · exact absurd (List.mem_map.mpr ⟨s, hs', e.symm⟩) h.1
    · rcases List.mem_cons.mp hs with rfl | hs'
      · exact absurd (List.mem_map.mpr ⟨r, hr', e⟩) h.1
      · exact ih h.2 hr' hs'

theorem find_mem {t : Table} (h : (t.map (·.name)).Nodup) {r : Row} (hr : r ∈ t) : t.find r.name = some r := by
  cases e : t.find r.name with
  | none => exact absurd rfl (find_none e hr)
  | some s =>
    obtain ⟨h1, h2⟩ := find_some e
    rw [nodup_inj h h1 hr h2]

/-! ### Insert -/

theorem foldl_max (t : Table) : ∀ m, m ≤ t.foldl (fun m r => max m r.id) m ∧ ∀ r ∈ t, r.id ≤ t.foldl (fun m r => max m r.id) m := by
  induction t with
  | nil => intro m; exact ⟨Nat.le_refl _, fun r hr => nomatch hr⟩
  | cons x t ih =>
    intro m
    obtain ⟨h1, h2⟩ := ih (max m x.id)
    refine ⟨by simp only [List.foldl_cons]; omega, fun r hr => ?_⟩
    simp only [List.foldl_cons]
    rcases List.mem_cons.mp hr with rfl | hr
    · omega
    · exact h2 r hr

theorem id_lt {t : Table} {r : Row} (h : r ∈ t) : r.id < t.nextId := by
  have := (foldl_max t 0).2 r h
  unfold Table.nextId
  omega

/-- The row that is inserted. -/
def newRow (t : Table) (parent : Nat) (name data : Bytes) : Row :=
  ⟨t.nextId, parent, name, data, !(t.any fun r => r.isDefault ∧ r.parent = parent)⟩

/-- What `UPDATE ... is_default=1` makes of a row, where `p` is the parent of the row with the name. -/
def marked (n : Bytes) (p : Nat) (x : Row) : Row :=
  { x with isDefault := if x.name = n then true else if x.parent = p then false else x.isDefault }

theorem setDefault_eq {t : Table} {n : Bytes} {r : Row} (hf : t.find n = some r)
    (h1 : ∀ r ∈ t, ∀ s ∈ t, r.isDefault → s.isDefault → r.parent = s.parent → r = s) :
    t.setDefault n = t.map (marked n r.parent) := by
  unfold Table.setDefault
  obtain ⟨hr, hn⟩ := find_some hf
  simp only [hf]
  split
  · rename_i hd
    refine List.map_congr_left fun x hx => ?_
    unfold marked
    split
    · rfl
    · rename_i hxn
      split
      · rename_i hp
        cases e : x.isDefault with
        | false => rw [← e]
        | true => exact absurd (by rw [h1 x hx r hr e hd hp, hn]) hxn
      · rfl
  · rw [List.map_map]
    refine List.map_congr_left fun x hx => ?_
    unfold marked
    simp only [Function.comp_apply]
    by_cases hp : x.parent = r.parent <;> by_cases hxn : x.name = n <;> simp [hp, hxn]

theorem insert_eq {t : Table} {p : Nat} {n d : Bytes} (hn : ∀ r ∈ t, r.name ≠ n) : t.insert p n d = some (t ++ [newRow t p n d]) := by
  unfold Table.insert
  have h0 : (t.any fun r => decide (r.name = n)) = false := by
    rw [List.any_eq_false]
    intro r hr
    simpa using hn r hr
  simp only [h0, Bool.false_eq_true, if_false]
  have h1 : (List.any (t ++ [⟨t.nextId, p, n, d, false⟩]) fun r => decide (r.isDefault ∧ r.parent = p)) =
      t.any fun r => decide (r.isDefault ∧ r.parent = p) := by simp
  rw [h1]
  unfold newRow
  cases e : t.any fun r => decide (r.isDefault ∧ r.parent = p) with
  | true => simp
  | false =>
    have hnd : ∀ x ∈ t, x.parent = p → x.isDefault = false := by
      intro x hx hp
      have := (List.any_eq_false.mp e) x hx
      cases hxd : x.isDefault with
      | false => rfl
      | true => simp [hxd, hp] at this
    simp only [Bool.false_eq_true, if_false, Bool.not_false, Option.some.injEq]
    have hf : Table.find (t ++ [⟨t.nextId, p, n, d, false⟩]) n = some ⟨t.nextId, p, n, d, false⟩ := by
      unfold Table.find
      rw [List.find?_append]
      have : List.find? (fun r => decide (r.name = n)) t = none := by
        rw [List.find?_eq_none]; intro r hr; simpa using hn r hr
      rw [this]
      simp
    unfold Table.setDefault
    simp only [hf, Bool.false_eq_true, if_false, List.map_append, List.map_map]
    refine congr (congrArg _ ?_) ?_
    · conv => rhs; rw [← List.map_id t]
      refine List.map_congr_left fun x hx => ?_
      simp only [Function.comp_apply, id]
      by_cases hp : x.parent = p
      · have h2 := hnd x hx hp
        have hxn := hn x hx
        rw [if_pos hp]
        simp only [hxn, if_false]
        rw [← h2]
      · rw [if_neg hp, if_neg (hn x hx)]
    · simp

theorem insert_name {t t' : Table} {p : Nat} {n d : Bytes} (h : t.insert p n d = some t') : ∀ r ∈ t, r.name ≠ n := by
  unfold Table.insert at h
  split at h
  · cases h
  · rename_i hn
    intro r hr e
    exact hn (List.any_eq_true.mpr ⟨r, hr, by simp [e]⟩)

theorem setDefault_none {t : Table} {n : Bytes} (h : t.find n = none) : t.setDefault n = t := by
  unfold Table.setDefault; rw [h]

/-! ### Integrity -/

theorem tableOk_insert {t t' : Table} {p : Nat} {n d : Bytes} (h : TableOk t) (hi : t.insert p n d = some t') :
    TableOk t' ∧ t' = t ++ [newRow t p n d] := by
  have hn := insert_name hi
  rw [insert_eq hn] at hi
  cases hi
  refine ⟨⟨?_, ?_, ?_⟩, rfl⟩
  · rw [List.map_append, List.nodup_append]
    refine ⟨h.1, by simp, ?_⟩
    intro a ha b hb e
    obtain ⟨r, hr, rfl⟩ := List.mem_map.mp ha
    simp only [List.map_cons, List.map_nil, List.mem_singleton, newRow] at hb
    have := id_lt hr
    omega
  · rw [List.map_append, List.nodup_append]
    refine ⟨h.2.1, by simp, ?_⟩
    intro a ha b hb e
    obtain ⟨r, hr, rfl⟩ := List.mem_map.mp ha
    simp only [List.map_cons, List.map_nil, List.mem_singleton, newRow] at hb
    exact hn r hr (e.trans hb)
  · have key : ∀ r ∈ t, r.isDefault → (newRow t p n d).isDefault → r.parent ≠ p := by
      intro r hr hd hd' hp
      have : (t.any fun r => r.isDefault ∧ r.parent = p) = true := List.any_eq_true.mpr ⟨r, hr, by simp [hd, hp]⟩
      simp only [newRow, this] at hd'
      cases hd'
    intro r hr s hs hd hd' hp
    rcases List.mem_append.mp hr with hr | hr <;> rcases List.mem_append.mp hs with hs | hs
    · exact h.2.2 r hr s hs hd hd' hp
    · rw [List.mem_singleton] at hs
      subst hs
      exact absurd hp (key r hr hd hd')
    · rw [List.mem_singleton] at hr
      subst hr
      exact absurd hp.symm (key s hs hd' hd)
    · rw [List.mem_singleton] at hr hs
      rw [hr, hs]

theorem map_ids (f : Row → Row) (hf : ∀ x, (f x).id = x.id) (t : Table) : (t.map f).map (·.id) = t.map (·.id) := by
  rw [List.map_map]; exact List.map_congr_left fun x _ => hf x

theorem map_names (f : Row → Row) (hf : ∀ x, (f x).name = x.name) (t : Table) : (t.map f).map (·.name) = t.map (·.name) := by
  rw [List.map_map]; exact List.map_congr_left fun x _ => hf x

theorem tableOk_setData {t : Table} {n d : Bytes} (h : TableOk t) : TableOk (t.setData n d) := by
  unfold Table.setData
  refine ⟨?_, ?_, ?_⟩
  · rw [map_ids _ (fun x => by split <;> rfl)]; exact h.1
  · rw [map_names _ (fun x => by split <;> rfl)]; exact h.2.1
  · intro r hr s hs hd hd' hp
    obtain ⟨x, hx, rfl⟩ := List.mem_map.mp hr
    obtain ⟨y, hy, rfl⟩ := List.mem_map.mp hs
    have e : ∀ z : Row, (if z.name = n then { z with data := d } else z).isDefault = z.isDefault ∧
        (if z.name = n then { z with data := d } else z).parent = z.parent := fun z => by split <;> exact ⟨rfl, rfl⟩
    rw [(e x).1] at hd
    rw [(e y).1] at hd'
    rw [(e x).2, (e y).2] at hp
    rw [h.2.2 x hx y hy hd hd' hp]

theorem tableOk_setDefault {t : Table} {n : Bytes} (h : TableOk t) : TableOk (t.setDefault n) := by
  cases hf : t.find n with
  | none => rw [setDefault_none hf]; exact h
  | some r =>
    rw [setDefault_eq hf h.2.2]
    obtain ⟨hr, hn⟩ := find_some hf
    refine ⟨?_, ?_, ?_⟩
    · rw [map_ids (marked n r.parent) (fun x => rfl)]; exact h.1
    · rw [map_names (marked n r.parent) (fun x => rfl)]; exact h.2.1
    · intro a ha b hb hd hd' hp
      obtain ⟨x, hx, rfl⟩ := List.mem_map.mp ha
      obtain ⟨y, hy, rfl⟩ := List.mem_map.mp hb
      simp only [marked] at hd hd' hp
      have same : ∀ z ∈ t, z.name = n → z = r := fun z hz e => nodup_inj h.2.1 hz hr (e.trans hn.symm)
      by_cases hx1 : x.name = n <;> by_cases hy1 : y.name = n
      · rw [same x hx hx1, same y hy hy1]
      · have := same x hx hx1
        subst this
        rw [if_neg hy1, if_pos hp.symm] at hd'
        cases hd'
      · have := same y hy hy1
        subst this
        rw [if_neg hx1, if_pos hp] at hd
        cases hd
      · by_cases hx2 : x.parent = r.parent
        · rw [if_neg hx1, if_pos hx2] at hd
          cases hd
        · by_cases hy2 : y.parent = r.parent
          · rw [if_neg hy1, if_pos hy2] at hd'
            cases hd'
          · rw [if_neg hx1, if_neg hx2] at hd
            rw [if_neg hy1, if_neg hy2] at hd'
            rw [h.2.2 x hx y hy hd hd' hp]

theorem tableOk_filter {t : Table} (p : Row → Bool) (h : TableOk t) : TableOk (t.filter p) :=
  ⟨h.1.sublist (List.filter_sublist.map _), h.2.1.sublist (List.filter_sublist.map _), fun r hr s hs =>
    h.2.2 r (List.mem_filter.mp hr).1 s (List.mem_filter.mp hs).1⟩

theorem integrity_empty : Integrity {} := by
  refine ⟨?_, ?_, ?_, ?_, ?_, ?_⟩ <;> simp [TableOk]

theorem mem_setDefault {t : Table} {n : Bytes} {x : Row} (h : x ∈ t.setDefault n) : ∃ y ∈ t, y.id = x.id ∧ y.parent = x.parent ∧ y.name = x.name := by
  unfold Table.setDefault at h
  split at h
  · exact ⟨x, h, rfl, rfl, rfl⟩
  · rename_i r _
    dsimp only at h
    obtain ⟨y, hy, rfl⟩ := List.mem_map.mp h
    split at hy
    · exact ⟨y, hy, by split <;> rfl, by split <;> rfl, by split <;> rfl⟩
    · obtain ⟨z, hz, rfl⟩ := List.mem_map.mp hy
      refine ⟨z, hz, ?_⟩
      split <;> split <;> exact ⟨rfl, rfl, rfl⟩

theorem setDefault_mem {t : Table} {n : Bytes} {y : Row} (h : y ∈ t) : ∃ x ∈ t.setDefault n, x.id = y.id := by
  unfold Table.setDefault
  split
  · exact ⟨y, h, rfl⟩
  · dsimp only
    split
    · exact ⟨_, List.mem_map.mpr ⟨y, h, rfl⟩, by split <;> rfl⟩
    · refine ⟨_, List.mem_map.mpr ⟨_, List.mem_map.mpr ⟨y, h, rfl⟩, rfl⟩, ?_⟩
      split <;> split <;> rfl

theorem integrity_deleteKeys {db : DB} (p : Row → Bool) (h : Integrity db) : Integrity (db.deleteKeys p) := by
  obtain ⟨h1, h2, h3, h4, h5, h6⟩ := h
  refine ⟨h1, tableOk_filter _ h2, tableOk_filter _ h3, h4, fun k hk => h5 k (List.mem_filter.mp hk).1, fun c hc => ?_⟩
  obtain ⟨hc1, hc2⟩ := List.mem_filter.mp hc
  obtain ⟨k, hk, e⟩ := h6 c hc1
  refine ⟨k, List.mem_filter.mpr ⟨hk, ?_⟩, e⟩
  cases hp : p k with
  | false => rfl
  | true =>
    have : (List.any (db.keys.filter p) fun r => decide (r.id = c.parent)) = true :=
      List.any_eq_true.mpr ⟨k, List.mem_filter.mpr ⟨hk, hp⟩, by simpa using e⟩
    rw [this] at hc2
    cases hc2

theorem integrity_deleteIdentities {db : DB} (p : Row → Bool) (h : Integrity db) : Integrity (db.deleteIdentities p) := by
  obtain ⟨h1, h2, h3, h4, h5, h6⟩ := integrity_deleteKeys (fun k => (db.identities.filter p).any fun r => r.id = k.parent) h
  refine ⟨tableOk_filter _ h1, h2, h3, fun i hi => h4 i (List.mem_filter.mp hi).1, fun k hk => ?_, h6⟩
  obtain ⟨i, hi, e⟩ := h5 k hk
  refine ⟨i, List.mem_filter.mpr ⟨hi, ?_⟩, e⟩
  cases hp : p i with
  | false => rfl
  | true =>
    have hk2 := (List.mem_filter.mp hk).2
    have : (List.any (db.identities.filter p) fun r => decide (r.id = k.parent)) = true :=
      List.any_eq_true.mpr ⟨i, List.mem_filter.mpr ⟨hi, hp⟩, by simpa using e⟩
    dsimp only at hk2
    rw [this] at hk2
    cases hk2

theorem setData_mem {t : Table} {n d : Bytes} {y : Row} (h : y ∈ t) : ∃ x ∈ t.setData n d, x.id = y.id :=
  ⟨_, List.mem_map.mpr ⟨y, h, rfl⟩, by split <;> rfl⟩

theorem mem_setData {t : Table} {n d : Bytes} {x : Row} (h : x ∈ t.setData n d) : ∃ y ∈ t, y.id = x.id ∧ y.parent = x.parent ∧ y.name = x.name := by
  obtain ⟨y, hy, rfl⟩ := List.mem_map.mp h
  exact ⟨y, hy, by split <;> rfl, by split <;> rfl, by split <;> rfl⟩

theorem integrity_exec {db db' : DB} {q : Stmt} (h : Integrity db) (e : exec db q = some db') : Integrity db' := by
  obtain ⟨h1, h2, h3, h4, h5, h6⟩ := h
  cases q with
  | insertTpm l => cases e; exact ⟨h1, h2, h3, h4, h5, h6⟩
  | updateTpm l => cases e; exact ⟨h1, h2, h3, h4, h5, h6⟩
  | insertIdentity n =>
    obtain ⟨t, ht, rfl⟩ := Option.map_eq_some_iff.mp e
    obtain ⟨g1, rfl⟩ := tableOk_insert h1 ht
    refine ⟨g1, h2, h3, fun i hi => ?_, fun k hk => ?_, h6⟩
    · rcases List.mem_append.mp hi with hi | hi
      · exact h4 i hi
      · rw [List.mem_singleton.mp hi]; rfl
    · obtain ⟨i, hi, q⟩ := h5 k hk
      exact ⟨i, List.mem_append_left _ hi, q⟩
  | deleteIdentity n => cases e; exact integrity_deleteIdentities _ ⟨h1, h2, h3, h4, h5, h6⟩
  | deleteIdentities => cases e; exact integrity_deleteIdentities _ ⟨h1, h2, h3, h4, h5, h6⟩
  | defaultIdentity n =>
    cases e
    refine ⟨tableOk_setDefault h1, h2, h3, fun i hi => ?_, fun k hk => ?_, h6⟩
    · obtain ⟨y, hy, _, q, _⟩ := mem_setDefault hi
      rw [← q]; exact h4 y hy
    · obtain ⟨i, hi, q⟩ := h5 k hk
      obtain ⟨x, hx, q'⟩ := setDefault_mem (n := n) hi
      exact ⟨x, hx, q'.trans q⟩
  | insertKey i k bits =>
    simp only [exec] at e
    split at e
    · cases e
    · rename_i r hr
      obtain ⟨t, ht, rfl⟩ := Option.map_eq_some_iff.mp e
      obtain ⟨g1, rfl⟩ := tableOk_insert h2 ht
      refine ⟨h1, g1, h3, h4, fun k hk => ?_, fun c hc => ?_⟩
      · rcases List.mem_append.mp hk with hk | hk
        · exact h5 k hk
        · rw [List.mem_singleton.mp hk]; exact ⟨r, (find_some hr).1, rfl⟩
      · obtain ⟨k, hk, q⟩ := h6 c hc
        exact ⟨k, List.mem_append_left _ hk, q⟩
  | updateKey k bits =>
    cases e
    refine ⟨h1, tableOk_setData h2, h3, h4, fun k hk => ?_, fun c hc => ?_⟩
    · obtain ⟨y, hy, _, q, _⟩ := mem_setData hk
      rw [← q]; exact h5 y hy
    · obtain ⟨k, hk, q⟩ := h6 c hc
      obtain ⟨x, hx, q'⟩ := setData_mem hk
      exact ⟨x, hx, q'.trans q⟩
  | deleteKey k => cases e; exact integrity_deleteKeys _ ⟨h1, h2, h3, h4, h5, h6⟩
  | defaultKey k =>
    cases e
    refine ⟨h1, tableOk_setDefault h2, h3, h4, fun k hk => ?_, fun c hc => ?_⟩
    · obtain ⟨y, hy, _, q, _⟩ := mem_setDefault hk
      rw [← q]; exact h5 y hy
    · obtain ⟨k, hk, q⟩ := h6 c hc
      obtain ⟨x, hx, q'⟩ := setDefault_mem hk
      exact ⟨x, hx, q'.trans q⟩
  | insertCert k c d =>
    simp only [exec] at e
    split at e
    · cases e
    · rename_i r hr
      obtain ⟨t, ht, rfl⟩ := Option.map_eq_some_iff.mp e
      obtain ⟨g1, rfl⟩ := tableOk_insert h3 ht
      refine ⟨h1, h2, g1, h4, h5, fun c hc => ?_⟩
      rcases List.mem_append.mp hc with hc | hc
      · exact h6 c hc
      · rw [List.mem_singleton.mp hc]; exact ⟨r, (find_some hr).1, rfl⟩
  | updateCert c d =>
    cases e
    refine ⟨h1, h2, tableOk_setData h3, h4, h5, fun c hc => ?_⟩
    obtain ⟨y, hy, _, q, _⟩ := mem_setData hc
    rw [← q]; exact h6 y hy
  | deleteCert c => cases e; exact ⟨h1, h2, tableOk_filter _ h3, h4, h5, fun c hc => h6 c (List.mem_filter.mp hc).1⟩
  | defaultCert c =>
    cases e
    refine ⟨h1, h2, tableOk_setDefault h3, h4, h5, fun c hc => ?_⟩
    obtain ⟨y, hy, _, q, _⟩ := mem_setDefault hc
    rw [← q]; exact h6 y hy

/-! ### A table stands for a map with a default for each group -/

open Spec.PibSqlite (NameOk)

theorem enc_inj {n m : Name} (hn : NameOk n) (hm : NameOk m) (h : encodeName n = encodeName m) : n = m :=
  C09_injective n m hn.1 hm.1 hn.2 hm.2 h

structure TRep {β : Type} (G : Name → Nat → Prop) (group : Name → Name) (D : Bytes → β → Prop) (t : Table) (val : Name → Option β)
    (dflt : Name → Option Name) : Prop where
  ids : (t.map (·.id)).Nodup
  names : (t.map (·.name)).Nodup
  row : ∀ r ∈ t, ∃ n, NameOk n ∧ r.name = encodeName n ∧ G (group n) r.parent ∧ ∃ v, val n = some v ∧ D r.data v
  hval : ∀ n v, val n = some v → NameOk n ∧ ∃ r ∈ t, r.name = encodeName n
  hdflt : ∀ g n, dflt g = some n → g = group n ∧ NameOk n ∧ ∃ r ∈ t, r.name = encodeName n ∧ r.isDefault = true
  mark : ∀ r ∈ t, r.isDefault = true → ∀ n, NameOk n → r.name = encodeName n → dflt (group n) = some n

/-- Groups and row numbers of the parents are in one to one correspondence. -/
def Functional (G : Name → Nat → Prop) : Prop := (∀ g g' i, G g i → G g' i → g = g') ∧ ∀ g i i', G g i → G g i' → i = i'

section
variable {β : Type} {G : Name → Nat → Prop} {group : Name → Name} {D : Bytes → β → Prop} {t : Table} {val : Name → Option β}
  {dflt : Name → Option Name}

theorem TRep.rowOf (h : TRep G group D t val dflt) {r : Row} (hr : r ∈ t) {n : Name} (hn : NameOk n) (e : r.name = encodeName n) :
    G (group n) r.parent ∧ ∃ v, val n = some v ∧ D r.data v := by
  obtain ⟨m, hm, e', g, v⟩ := h.row r hr
  have : m = n := enc_inj hm hn (e'.symm.trans e)
  subst this
  exact ⟨g, v⟩

theorem TRep.one (h : TRep G group D t val dflt) (hG : Functional G) :
    ∀ r ∈ t, ∀ s ∈ t, r.isDefault → s.isDefault → r.parent = s.parent → r = s := by
  intro r hr s hs hd hd' hp
  obtain ⟨n, hn, e, g, _⟩ := h.row r hr
  obtain ⟨m, hm, e', g', _⟩ := h.row s hs
  rw [hp] at g
  have hgg := hG.1 _ _ _ g g'
  have h1 := h.mark r hr hd n hn e
  have h2 := h.mark s hs hd' m hm e'
  rw [hgg, h2] at h1
  cases h1
  exact nodup_inj h.names hr hs (e.trans e'.symm)

theorem TRep.find (h : TRep G group D t val dflt) {n : Name} (hn : NameOk n) : (t.find (encodeName n)).isSome = (val n).isSome := by
  cases hf : t.find (encodeName n) with
  | some r =>
    obtain ⟨hr, e⟩ := find_some hf
    obtain ⟨_, v, hv, _⟩ := h.rowOf hr hn e
    rw [hv]; rfl
  | none =>
    cases hv : val n with
    | none => rfl
    | some v =>
      obtain ⟨_, r, hr, e⟩ := h.hval n v hv
      exact absurd e (find_none hf hr)

theorem TRep.findSome (h : TRep G group D t val dflt) {n : Name} {v : β} (hv : val n = some v) :
    ∃ r, r ∈ t ∧ t.find (encodeName n) = some r ∧ r.name = encodeName n ∧ G (group n) r.parent ∧ D r.data v := by
  obtain ⟨hn, r, hr, e⟩ := h.hval n v hv
  obtain ⟨g, w, hw, d⟩ := h.rowOf hr hn e
  rw [hv] at hw
  cases hw
  exact ⟨r, hr, by rw [← e]; exact find_mem h.names hr, e, g, d⟩

theorem TRep.fresh (h : TRep G group D t val dflt) {n : Name} (hn : NameOk n) (hv : val n = none) : ∀ r ∈ t, r.name ≠ encodeName n := by
  intro r hr e
  obtain ⟨_, v, hv', _⟩ := h.rowOf hr hn e
  rw [hv] at hv'
  cases hv'

theorem TRep.congr {G' : Name → Nat → Prop} (h : TRep G group D t val dflt) (hG : ∀ r ∈ t, ∀ g, G g r.parent → G' g r.parent) :
    TRep G' group D t val dflt :=
  ⟨h.ids, h.names, fun r hr => by
    obtain ⟨n, h1, h2, h3, h4⟩ := h.row r hr
    exact ⟨n, h1, h2, hG r hr _ h3, h4⟩, h.hval, h.hdflt, h.mark⟩

theorem TRep.insert (h : TRep G group D t val dflt) (hG : Functional G) {n : Name} (hn : NameOk n) (hv : val n = none) {p : Nat}
    (hp : G (group n) p) {d : Bytes} {v : β} (hd : D d v) :
    t.insert p (encodeName n) d = some (t ++ [newRow t p (encodeName n) d]) ∧
    TRep G group D (t ++ [newRow t p (encodeName n) d]) (Spec.PibSqlite.upd val n (some v))
      (Spec.PibSqlite.upd dflt (group n) (dflt (group n) <|> some n)) := by
  have hf := h.fresh hn hv
  have hi := insert_eq (p := p) (d := d) hf
  have ht : TableOk t := ⟨h.ids, h.names, h.one hG⟩
  obtain ⟨hok, _⟩ := tableOk_insert ht hi
  -- the row is a default just if there is none
  have hnew : (newRow t p (encodeName n) d).isDefault = true ↔ dflt (group n) = none := by
    simp only [newRow, Bool.not_eq_true', List.any_eq_false, decide_eq_true_eq]
    constructor
    · intro hany
      cases hg : dflt (group n) with
      | none => rfl
      | some m =>
        obtain ⟨hgm, hm, r, hr, e, hrd⟩ := h.hdflt _ _ hg
        have := (h.rowOf hr hm e).1
        rw [← hgm] at this
        exact absurd ⟨hrd, hG.2 _ _ _ this hp⟩ (hany r hr)
    · intro hg r hr ⟨hrd, hrp⟩
      obtain ⟨m, hm, e, g, _⟩ := h.row r hr
      rw [hrp] at g
      have hgg := hG.1 _ _ _ g hp
      have := h.mark r hr hrd m hm e
      rw [hgg, hg] at this
      cases this
  refine ⟨hi, hok.1, hok.2.1, ?_, ?_, ?_, ?_⟩
  · intro r hr
    rcases List.mem_append.mp hr with hr | hr
    · obtain ⟨m, hm, e, g, w, hw, hdw⟩ := h.row r hr
      refine ⟨m, hm, e, g, w, ?_, hdw⟩
      unfold Spec.PibSqlite.upd
      rw [if_neg (fun q => hf r hr (by rw [e, q]))]
      exact hw
    · rw [List.mem_singleton.mp hr]
      exact ⟨n, hn, rfl, hp, v, by simp [Spec.PibSqlite.upd], hd⟩
  · intro m w hw
    unfold Spec.PibSqlite.upd at hw
    split at hw
    · rename_i q
      subst q
      exact ⟨hn, _, List.mem_append_right _ (List.mem_singleton.mpr rfl), rfl⟩
    · obtain ⟨hm, r, hr, e⟩ := h.hval m w hw
      exact ⟨hm, r, List.mem_append_left _ hr, e⟩
  · intro g m hg
    unfold Spec.PibSqlite.upd at hg
    split at hg
    · rename_i q
      subst q
      cases hgg : dflt (group n) with
      | none =>
        rw [hgg] at hg
        cases hg
        exact ⟨rfl, hn, _, List.mem_append_right _ (List.mem_singleton.mpr rfl), rfl, hnew.mpr hgg⟩
      | some k =>
        rw [hgg] at hg
        cases hg
        obtain ⟨h1, h2, r, hr, h3, h4⟩ := h.hdflt _ _ hgg
        exact ⟨h1, h2, r, List.mem_append_left _ hr, h3, h4⟩
    · obtain ⟨h1, h2, r, hr, h3, h4⟩ := h.hdflt _ _ hg
      exact ⟨h1, h2, r, List.mem_append_left _ hr, h3, h4⟩
  · intro r hr hrd m hm e
    rcases List.mem_append.mp hr with hr | hr
    · have := h.mark r hr hrd m hm e
      unfold Spec.PibSqlite.upd
      split
      · rename_i q
        rw [← q, this]; rfl
      · exact this
    · rw [List.mem_singleton.mp hr] at hrd e
      have q : n = m := enc_inj hn hm e
      subst q
      unfold Spec.PibSqlite.upd
      rw [if_pos rfl, hnew.mp hrd]; rfl

theorem TRep.setDefault (h : TRep G group D t val dflt) (hG : Functional G) {n : Name} {v : β} (hv : val n = some v) :
    TRep G group D (t.setDefault (encodeName n)) val (Spec.PibSqlite.upd dflt (group n) (some n)) := by
  obtain ⟨r, hr, hf, e, g, _⟩ := h.findSome hv
  have hn := (h.hval n v hv).1
  have ht : TableOk t := ⟨h.ids, h.names, h.one hG⟩
  have hok := tableOk_setDefault (n := encodeName n) ht
  rw [setDefault_eq hf ht.2.2] at hok ⊢
  refine ⟨hok.1, hok.2.1, ?_, ?_, ?_, ?_⟩
  · intro x hx
    obtain ⟨y, hy, rfl⟩ := List.mem_map.mp hx
    exact h.row y hy
  · intro m w hw
    obtain ⟨hm, y, hy, e'⟩ := h.hval m w hw
    exact ⟨hm, _, List.mem_map.mpr ⟨y, hy, rfl⟩, e'⟩
  · intro g' m hg
    unfold Spec.PibSqlite.upd at hg
    split at hg
    · rename_i q
      subst q
      cases hg
      exact ⟨rfl, hn, _, List.mem_map.mpr ⟨r, hr, rfl⟩, e, by simp only [marked, if_pos e]⟩
    · rename_i q
      obtain ⟨h1, h2, y, hy, h3, h4⟩ := h.hdflt _ _ hg
      refine ⟨h1, h2, _, List.mem_map.mpr ⟨y, hy, rfl⟩, h3, ?_⟩
      have hyn : y.name ≠ encodeName n := by
        intro q'
        rw [h3] at q'
        exact q (by rw [h1, enc_inj h2 hn q'])
      have hyp : y.parent ≠ r.parent := by
        intro q'
        have := (h.rowOf hy h2 h3).1
        rw [q'] at this
        exact q (by rw [h1, hG.1 _ _ _ this g])
      simp only [marked, if_neg hyn, if_neg hyp, h4]
  · intro x hx hxd m hm e'
    obtain ⟨y, hy, rfl⟩ := List.mem_map.mp hx
    simp only [marked] at hxd e'
    unfold Spec.PibSqlite.upd
    by_cases hyn : y.name = encodeName n
    · have : m = n := enc_inj hm hn (e'.symm.trans hyn)
      subst this
      rw [if_pos rfl]
    · rw [if_neg hyn] at hxd
      by_cases hyp : y.parent = r.parent
      · rw [if_pos hyp] at hxd; cases hxd
      · rw [if_neg hyp] at hxd
        have hgm := (h.rowOf hy hm e').1
        rw [if_neg]
        · exact h.mark y hy hxd m hm e'
        · intro q
          rw [q] at hgm
          exact hyp (hG.2 _ _ _ hgm g)

theorem TRep.setData (h : TRep G group D t val dflt) {n : Name} {v : β} (hv : val n = some v) {d : Bytes} {w : β} (hd : D d w) :
    TRep G group D (t.setData (encodeName n) d) (Spec.PibSqlite.upd val n (some w)) dflt := by
  have hn := (h.hval n v hv).1
  have en : ∀ z : Row, (if z.name = encodeName n then { z with data := d } else z).name = z.name := fun z => by split <;> rfl
  have ed : ∀ z : Row, (if z.name = encodeName n then { z with data := d } else z).isDefault = z.isDefault := fun z => by split <;> rfl
  have ep : ∀ z : Row, (if z.name = encodeName n then { z with data := d } else z).parent = z.parent := fun z => by split <;> rfl
  unfold Table.setData
  refine ⟨?_, ?_, ?_, ?_, ?_, ?_⟩
  · rw [map_ids _ (fun x => by split <;> rfl)]; exact h.ids
  · rw [map_names _ en]; exact h.names
  · intro x hx
    obtain ⟨y, hy, rfl⟩ := List.mem_map.mp hx
    obtain ⟨m, hm, e, g, u, hu, hdu⟩ := h.row y hy
    rw [en, ep]
    refine ⟨m, hm, e, g, ?_⟩
    unfold Spec.PibSqlite.upd
    by_cases q : m = n
    · subst q
      exact ⟨w, if_pos rfl, by rw [if_pos e]; exact hd⟩
    · refine ⟨u, by rw [if_neg q]; exact hu, ?_⟩
      rw [if_neg (fun q' => q (enc_inj hm hn (e.symm.trans q')))]
      exact hdu
  · intro m u hu
    unfold Spec.PibSqlite.upd at hu
    have : NameOk m ∧ ∃ r ∈ t, r.name = encodeName m := by
      split at hu
      · rename_i q; subst q; exact h.hval m v hv
      · exact h.hval m u hu
    obtain ⟨hm, y, hy, e⟩ := this
    exact ⟨hm, _, List.mem_map.mpr ⟨y, hy, rfl⟩, by rw [en]; exact e⟩
  · intro g m hg
    obtain ⟨h1, h2, y, hy, h3, h4⟩ := h.hdflt _ _ hg
    exact ⟨h1, h2, _, List.mem_map.mpr ⟨y, hy, rfl⟩, by rw [en]; exact h3, by rw [ed]; exact h4⟩
  · intro x hx hxd m hm e
    obtain ⟨y, hy, rfl⟩ := List.mem_map.mp hx
    rw [ed] at hxd
    rw [en] at e
    exact h.mark y hy hxd m hm e

theorem TRep.filter (h : TRep G group D t val dflt) (keep : Name → Bool) (p : Row → Bool)
    (hp : ∀ r ∈ t, ∀ n, NameOk n → r.name = encodeName n → p r = keep n) :
    TRep G group D (t.filter p) (fun n => if keep n then val n else none) (fun g => (dflt g).filter keep) := by
  refine ⟨h.ids.sublist (List.filter_sublist.map _), h.names.sublist (List.filter_sublist.map _), ?_, ?_, ?_, ?_⟩
  · intro r hr
    obtain ⟨hr, hk⟩ := List.mem_filter.mp hr
    obtain ⟨m, hm, e, g, u, hu, hdu⟩ := h.row r hr
    rw [hp r hr m hm e] at hk
    exact ⟨m, hm, e, g, u, by rw [if_pos hk]; exact hu, hdu⟩
  · intro m u hu
    split at hu
    · rename_i hk
      obtain ⟨hm, r, hr, e⟩ := h.hval m u hu
      exact ⟨hm, r, List.mem_filter.mpr ⟨hr, by rw [hp r hr m hm e]; exact hk⟩, e⟩
    · cases hu
  · intro g m hg
    obtain ⟨hg, hk⟩ := Option.filter_eq_some_iff.mp hg
    obtain ⟨h1, h2, r, hr, h3, h4⟩ := h.hdflt _ _ hg
    exact ⟨h1, h2, r, List.mem_filter.mpr ⟨hr, by rw [hp r hr m h2 h3]; exact hk⟩, h3, h4⟩
  · intro r hr hrd m hm e
    obtain ⟨hr, hk⟩ := List.mem_filter.mp hr
    rw [hp r hr m hm e] at hk
    show (dflt (group m)).filter keep = some m
    rw [h.mark r hr hrd m hm e]
    simp [Option.filter, hk]

/-! ### Select by the group -/

/-- The rows of a group. -/
def Sel (u t : Table) (group : Name → Name) (g : Name) : Prop :=
  ∀ r, r ∈ u ↔ r ∈ t ∧ ∃ m, NameOk m ∧ r.name = encodeName m ∧ group m = g

theorem TRep.default (h : TRep G group D t val dflt) {u : Table} {g : Name} (hu : Sel u t group g) :
    match u.find? (·.isDefault) with
    | none => dflt g = none
    | some r => ∃ m, NameOk m ∧ r ∈ t ∧ r.name = encodeName m ∧ dflt g = some m := by
  cases hf : u.find? (·.isDefault) with
  | none =>
    cases hg : dflt g with
    | none => rfl
    | some m =>
      obtain ⟨h1, h2, r, hr, h3, h4⟩ := h.hdflt _ _ hg
      have := List.find?_eq_none.mp hf r ((hu r).mpr ⟨hr, m, h2, h3, h1.symm⟩)
      exact absurd h4 this
  | some r =>
    obtain ⟨hr, m, hm, e, hgm⟩ := (hu r).mp (List.mem_of_find?_eq_some hf)
    have hd := List.find?_some hf
    have := h.mark r hr hd m hm e
    rw [hgm] at this
    exact ⟨m, hm, hr, e, this⟩

theorem decodedAll_spec (u : Table) (hu : ∀ r ∈ u, ∃ m, NameOk m ∧ r.name = encodeName m) (s : Conn) :
    ∃ l, decodedAll u s = (.ok l, s) ∧ l.Nodup ∧ ∀ n, n ∈ l ↔ NameOk n ∧ ∃ r ∈ u, r.name = encodeName n := by
  induction u with
  | nil => exact ⟨[], rfl, List.nodup_nil, fun n => by simp⟩
  | cons r u ih =>
    obtain ⟨m, hm, e⟩ := hu r List.mem_cons_self
    obtain ⟨l, h1, h2, h3⟩ := ih fun x hx => hu x (List.mem_cons_of_mem _ hx)
    have hd : decodeName r.name = .ok m := by
      have := C09_roundtrip m hm.1 hm.2 []
      rw [List.append_nil] at this
      rw [e, this]
    have hrun : decodedAll (r :: u) s = (.ok (if m ∈ l then l else m :: l), s) := by
      simp only [decodedAll, decoded, hd, bind, M.bind, pure, M.pure, h1]
    refine ⟨_, hrun, ?_, ?_⟩
    · split
      · exact h2
      · rename_i hml; exact List.nodup_cons.mpr ⟨hml, h2⟩
    · intro n
      have h4 : n ∈ (if m ∈ l then l else m :: l) ↔ n = m ∨ n ∈ l := by
        split
        · rename_i hml
          exact ⟨.inr, fun q => q.elim (fun q => q ▸ hml) id⟩
        · exact List.mem_cons
      rw [h4, h3]
      constructor
      · rintro (rfl | ⟨hn, x, hx, e'⟩)
        · exact ⟨hm, r, List.mem_cons_self, e⟩
        · exact ⟨hn, x, List.mem_cons_of_mem _ hx, e'⟩
      · rintro ⟨hn, x, hx, e'⟩
        rcases List.mem_cons.mp hx with rfl | hx
        · exact .inl (enc_inj hn hm (e'.symm.trans e))
        · exact .inr ⟨hn, x, hx, e'⟩

theorem TRep.all (h : TRep G group D t val dflt) {u : Table} {g : Name} (hu : Sel u t group g) (s : Conn) :
    ∃ l, decodedAll u s = (.ok l, s) ∧ l.Nodup ∧ ∀ n, n ∈ l ↔ (val n).isSome = true ∧ group n = g := by
  obtain ⟨l, h1, h2, h3⟩ := decodedAll_spec u (fun r hr => by
    obtain ⟨_, m, hm, e, _⟩ := (hu r).mp hr
    exact ⟨m, hm, e⟩) s
  refine ⟨l, h1, h2, fun n => ?_⟩
  rw [h3]
  constructor
  · rintro ⟨hn, r, hr, e⟩
    obtain ⟨hr, m, hm, e', hg⟩ := (hu r).mp hr
    have q : m = n := enc_inj hm hn (e'.symm.trans e)
    subst q
    obtain ⟨_, v, hv, _⟩ := h.rowOf hr hn e
    exact ⟨by rw [hv]; rfl, hg⟩
  · rintro ⟨hv, hg⟩
    obtain ⟨v, hv⟩ := Option.isSome_iff_exists.mp hv
    obtain ⟨hn, r, hr, e⟩ := h.hval n v hv
    exact ⟨hn, r, (hu r).mpr ⟨hr, n, hn, e, hg⟩, e⟩

end

end PyNDN.PibSqlite
