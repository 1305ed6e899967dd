import Verif.Spec.Storage
import Verif.Props.Name
/-
C39: the InMemoryStorageRetaining.
-/
namespace PyNDN
namespace Storage

theorem holds_append (ops : List Op) (op : Op) (k : Name) : holds (ops ++ [op]) k = holdsRev (op :: ops.reverse) k := by
  unfold holds; rw [List.reverse_append]; rfl

theorem assign_spec (key : Name) (d : Data) : ∀ c : Cache, (c.map (·.1)).Nodup →
    ((assign key d c).map (·.1)).Nodup ∧ ∀ k x, (k, x) ∈ assign key d c ↔ if k = key then x = d else (k, x) ∈ c := by
  intro c
  induction c with
  | nil =>
    intro _
    refine ⟨by simp [assign], fun k x => ?_⟩
    by_cases hk : k = key
    · subst hk; simp [assign]
    · simp [assign, hk]
  | cons y c ih =>
    obtain ⟨j, y⟩ := y
    intro hnd
    rw [List.map_cons, List.nodup_cons] at hnd
    obtain ⟨h1, h2⟩ := ih hnd.2
    have hnot : ∀ x, (j, x) ∉ c := fun x hx => hnd.1 (List.mem_map.mpr ⟨_, hx, rfl⟩)
    unfold assign
    split
    · next he =>
      have hj := (name_equals_iff _ _).mp he
      subst hj
      refine ⟨by rw [List.map_cons, List.nodup_cons]; exact hnd, fun k x => ?_⟩
      by_cases hk : k = j
      · subst hk
        simp [hnot]
      · simp [hk]
    · next he =>
      have hj : j ≠ key := fun h => he ((name_equals_iff _ _).mpr h)
      constructor
      · rw [List.map_cons, List.nodup_cons]
        refine ⟨fun hm => ?_, h1⟩
        obtain ⟨⟨k, x⟩, hx, hk⟩ := List.mem_map.mp hm
        dsimp only at hk
        subst hk
        have := (h2 k x).mp hx
        rw [if_neg hj] at this
        exact hnot x this
      · intro k x
        rw [List.mem_cons, h2 k x]
        by_cases hk : k = key
        · rw [if_pos hk, if_pos hk]
          constructor
          · rintro (h | h)
            · cases h; exact absurd hk hj
            · exact h
          · exact .inr
        · rw [if_neg hk, if_neg hk, List.mem_cons]

theorem foldl_filter (keys : List Name) : ∀ c : Cache, keys.foldl (fun c key => c.filter (fun x => !x.1.equals key)) c = c.filter (fun x => decide (x.1 ∉ keys)) := by
  induction keys with
  | nil => intro c; exact (List.filter_eq_self.mpr (by simp)).symm
  | cons a keys ih =>
    intro c
    rw [List.foldl_cons, ih, List.filter_filter]
    congr 1
    funext x
    have : x.1.equals a = decide (x.1 = a) := by
      rw [Bool.eq_iff_iff, name_equals_iff]; simp
    rw [this]
    by_cases h : x.1 = a <;> simp [h]

theorem remove_spec (p : Name) (c : Cache) : (remove p c).Sublist c ∧ ∀ k x, (k, x) ∈ remove p c ↔ (k, x) ∈ c ∧ ¬ under p k := by
  unfold remove
  rw [foldl_filter]
  refine ⟨List.filter_sublist, fun k x => ?_⟩
  rw [List.mem_filter]
  have hu : under p k ↔ p.matches k = true := (matches_iff p k).symm
  constructor
  · rintro ⟨h1, h2⟩
    refine ⟨h1, fun hun => ?_⟩
    simp only [decide_eq_true_eq] at h2
    exact h2 (List.mem_filter.mpr ⟨List.mem_map.mpr ⟨_, h1, rfl⟩, hu.mp hun⟩)
  · rintro ⟨h1, h2⟩
    refine ⟨h1, ?_⟩
    simp only [decide_eq_true_eq]
    exact fun hm => h2 (hu.mpr (List.mem_filter.mp hm).2)

theorem run_spec (ops : List Op) : ((run ops).map (·.1)).Nodup ∧ ∀ k x, (k, x) ∈ run ops ↔ holds ops k = some x := by
  suffices ∀ rs : List Op, ((run rs.reverse).map (·.1)).Nodup ∧ ∀ k x, (k, x) ∈ run rs.reverse ↔ holdsRev rs k = some x by
    have := this ops.reverse
    rw [List.reverse_reverse] at this
    exact this
  intro rs
  induction rs with
  | nil => exact ⟨List.nodup_nil, fun k x => by simp [run, holdsRev]⟩
  | cons op rs ih =>
    have hrun : run (op :: rs).reverse = step (run rs.reverse) op := by
      unfold run; rw [List.reverse_cons, List.foldl_append]; rfl
    rw [hrun]
    cases op with
    | insert fn d =>
      cases fn with
      | error e => exact ih
      | ok key =>
        obtain ⟨h1, h2⟩ := assign_spec key d (run rs.reverse) ih.1
        refine ⟨h1, fun k x => ?_⟩
        show (k, x) ∈ assign key d (run rs.reverse) ↔ _
        rw [h2]
        unfold holdsRev
        split
        · exact ⟨fun h => by rw [h], fun h => by cases h; rfl⟩
        · exact ih.2 k x
    | remove p =>
      obtain ⟨h1, h2⟩ := remove_spec p (run rs.reverse)
      refine ⟨ih.1.sublist (h1.map _), fun k x => ?_⟩
      show (k, x) ∈ remove p (run rs.reverse) ↔ _
      have hr : holdsRev (.remove p :: rs) k = if under p k then none else holdsRev rs k := rfl
      rw [h2, ih.2, hr]
      split
      · next hu => exact ⟨fun h => absurd hu h.2, (fun h => by cases h)⟩
      · next hu => exact ⟨fun h => h.1, fun h => ⟨h, hu⟩⟩

theorem find_spec (name : Name) (c : Cache) : (∀ d, find name c = some d → ∃ k, (k, d) ∈ c ∧ under name k) ∧
    (find name c = none → ∀ k d, (k, d) ∈ c → ¬ under name k) := by
  have hu : ∀ k, under name k ↔ name.matches k = true := fun k => (matches_iff name k).symm
  induction c with
  | nil => exact ⟨(fun d h => by cases h), (fun _ k d h => by cases h)⟩
  | cons x c ih =>
    obtain ⟨k, x⟩ := x
    unfold find
    split
    · next hm =>
      refine ⟨fun d h => ?_, (fun h => by cases h)⟩
      cases h
      exact ⟨k, List.mem_cons_self .., (hu k).mpr hm⟩
    · next hm =>
      refine ⟨fun d h => ?_, fun h j d hj => ?_⟩
      · obtain ⟨j, h1, h2⟩ := ih.1 d h
        exact ⟨j, List.mem_cons_of_mem _ h1, h2⟩
      · rcases List.mem_cons.mp hj with he | hj
        · cases he; exact fun hun => hm ((hu _).mp hun)
        · exact ih.2 h j d hj

/-- C39: what `find` returns is a packet that the storage holds, and its full name begins with the name (by the values of the
components, see C14). -/
theorem C39_found {ops : List Op} {name : Name} {d : Data} (h : find name (run ops) = some d) : ∃ k, holds ops k = some d ∧ under name k := by
  obtain ⟨k, h1, h2⟩ := (find_spec name (run ops)).1 d h
  exact ⟨k, ((run_spec ops).2 k d).mp h1, h2⟩

/-- C39: `find` returns None only if the storage holds no such packet. -/
theorem C39_not_found {ops : List Op} {name : Name} (h : find name (run ops) = none) (k : Name) (hu : under name k) : holds ops k = none := by
  cases hk : holds ops k with
  | none => rfl
  | some d => exact absurd hu ((find_spec name (run ops)).2 h k d (((run_spec ops).2 k d).mpr hk))

/-- C39: the storage is a map: it has one item for each full name that it holds, so `size` is their number, and removing a prefix removes
exactly the packets under it. -/
theorem C39_map (ops : List Op) : ((run ops).map (·.1)).Nodup ∧ (∀ k d, (k, d) ∈ run ops ↔ holds ops k = some d) ∧
    (∀ p k, holds (ops ++ [.remove p]) k = if under p k then none else holds ops k) ∧
    (∀ n d k, holds (ops ++ [.insert (.ok n) d]) k = if k = n then some d else holds ops k) :=
  ⟨(run_spec ops).1, (run_spec ops).2, fun p k => holds_append ops _ k, fun n d k => holds_append ops _ k⟩

/-- C39, as asked: if the types of the components agree, then the full name extends the name. -/
theorem C39_found_prefix_partial {ops : List Op} {name : Name} {d : Data} (h : find name (run ops) = some d)
    (ht : ∀ k, holds ops k ≠ none → ∀ i (ha : i < name.length) (hb : i < k.length), name[i].type = k[i].type) :
    ∃ k, holds ops k = some d ∧ name <+: k := by
  obtain ⟨k, h1, h2⟩ := C39_found h
  refine ⟨k, h1, ?_⟩
  exact (C14_match_iff_prefix_partial name k (ht k (by rw [h1]; intro h; cases h))).mp ((matches_iff name k).mpr h2)

/-! ### Examples -/

def exKey (x : UInt8) : Name := [⟨.generic, [65]⟩, ⟨.generic, [x]⟩, ⟨.implicit, [x, x]⟩]
def exData (x : UInt8) : Data := { name := [⟨.generic, [65]⟩, ⟨.generic, [x]⟩], content := some [x] }

example : let ops : List Op := [.insert (.ok (exKey 1)) (exData 1), .insert (.ok (exKey 2)) (exData 2), .insert (.ok (exKey 1)) (exData 3), .insert (.error .runtime) (exData 9)]
    find [⟨.generic, [65]⟩] (run ops) = some (exData 3) ∧ find [⟨.generic, [65]⟩, ⟨.generic, [2]⟩] (run ops) = some (exData 2) ∧
    (run ops).length = 2 ∧
    find [⟨.generic, [65]⟩] (run (ops ++ [.remove [⟨.generic, [65]⟩, ⟨.generic, [1]⟩]])) = some (exData 2) ∧
    find [] (run (ops ++ [.remove [⟨.generic, [65]⟩]])) = none := by
  decide +kernel

/-- Why `C39_found_prefix_partial` is partial: `find` of a GENERIC component finds a packet with another type of component. -/
theorem C39_ignores_type : let ops : List Op := [.insert (.ok [⟨.other 32, [65]⟩, ⟨.implicit, [1]⟩]) (exData 1)]
    find [⟨.generic, [65]⟩] (run ops) = some (exData 1) ∧ ¬ ([⟨.generic, [65]⟩] : Name) <+: [⟨.other 32, [65]⟩, ⟨.implicit, [1]⟩] := by
  decide +kernel

end Storage
end PyNDN
