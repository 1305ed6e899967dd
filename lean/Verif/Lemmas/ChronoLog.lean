import Verif.Lemmas.ChronoState
/-
Lemmas for C61: the digest log.
-/
namespace PyNDN
namespace Chrono
open Spec.Chrono

theorem listing_numbers {m m' : Numbers} {l : List (Producer × Nat)} (h : Listing m l) (h' : Listing m' l) : m = m' := by
  funext p
  refine Option.ext fun k => ?_
  rw [← h.2, ← h'.2]

theorem distinct_same {sha : Bytes → Bytes} {cs cs' : List Content} (h : Distinct sha cs cs') {i j : Nat} {t t' : Tree}
    (ht : Holds sha t (heard (cs.take i))) (ht' : Holds sha t' (heard (cs'.take j))) (e : t.root = t'.root) :
    heard (cs.take i) = heard (cs'.take j) := by
  rw [ht.rootEq, ht'.rootEq] at e
  have hl := h i j _ _ ht.listing ht'.listing e
  exact listing_numbers ht.listing (hl ▸ ht'.listing)

theorem rootsDiffer_prefix {sha : Bytes → Bytes} {cs : List Content} {c : Content} (h : RootsDiffer sha (cs ++ [c])) : RootsDiffer sha cs := by
  intro i j l l' hl hl' e
  have key : ∀ k, ∃ k', (cs ++ [c]).take k' = cs.take k := by
    intro k
    by_cases hk : k ≤ cs.length
    · exact ⟨k, List.take_append_of_le_length hk⟩
    · exact ⟨cs.length, by rw [List.take_append_of_le_length (Nat.le_refl _), List.take_length, List.take_of_length_le (by omega)]⟩
  obtain ⟨i', hi⟩ := key i
  obtain ⟨j', hj⟩ := key j
  exact h i' j' l l' (hi ▸ hl) (hj ▸ hl') e

/-- What is known about the log, whatever the hash. -/
structure Logged (sha : Bytes → Bytes) (cs : List Content) (t : Tree) (lg : List (Text × Content)) : Prop where
  from' : ∀ e ∈ lg, ∃ i, e.1 = (coreOf sha (cs.take i)).1.root
  current : t.root ∈ lg.map (·.1)
  sub : (lg.map (·.2)).Sublist ([] :: cs)
  nodup : (lg.map (·.1)).Nodup

theorem logged (sha : Bytes → Bytes) (cs : List Content) : Logged sha cs (coreOf sha cs).1 (coreOf sha cs).2 := by
  refine snoc_induction (Q := fun cs => Logged sha cs (coreOf sha cs).1 (coreOf sha cs).2) ?_ (fun a c h => ?_) cs
  · refine ⟨?_, by simp [coreOf], by simp [coreOf], by simp [coreOf]⟩
    intro e he
    simp [coreOf] at he
    exact ⟨0, by rw [he]; rfl⟩
  · have hroot : (coreUpdate sha (coreOf sha a) c).1 = treeHear sha (coreOf sha a).1 c := by
      unfold coreUpdate; dsimp only; split <;> rfl
    have hfrom : ∀ e ∈ (coreOf sha a).2, ∃ i, e.1 = (coreOf sha ((a ++ [c]).take i)).1.root := by
      intro e he
      obtain ⟨i, hi⟩ := h.from' e he
      by_cases hk : i ≤ a.length
      · exact ⟨i, by rw [List.take_append_of_le_length hk]; exact hi⟩
      · refine ⟨a.length, ?_⟩
        rw [List.take_append_of_le_length (Nat.le_refl _), List.take_length]
        rw [List.take_of_length_le (by omega)] at hi
        exact hi
    have htake : (a ++ [c]).take (a.length + 1) = a ++ [c] := by rw [List.take_of_length_le]; simp
    rw [coreOf_snoc]
    by_cases hin : (treeHear sha (coreOf sha a).1 c).root ∈ (coreOf sha a).2.map (·.1)
    · have e : coreUpdate sha (coreOf sha a) c = (treeHear sha (coreOf sha a).1 c, (coreOf sha a).2) := by
        unfold coreUpdate; dsimp only; rw [if_pos hin]
      rw [e]
      exact ⟨hfrom, hin, h.sub.trans (by rw [← List.cons_append]; exact List.sublist_append_left _ _), h.nodup⟩
    · have e : coreUpdate sha (coreOf sha a) c =
          (treeHear sha (coreOf sha a).1 c, (coreOf sha a).2 ++ [((treeHear sha (coreOf sha a).1 c).root, c)]) := by
        unfold coreUpdate; dsimp only; rw [if_neg hin]
      rw [e]
      refine ⟨?_, by simp, ?_, ?_⟩
      · intro x hx
        rcases List.mem_append.1 hx with hx | hx
        · exact hfrom x hx
        · rw [List.mem_singleton.1 hx]
          exact ⟨a.length + 1, by rw [htake, coreOf_snoc, hroot]⟩
      · dsimp only
        rw [List.map_append, ← List.cons_append]
        exact h.sub.append (List.Sublist.refl _)
      · dsimp only
        rw [List.map_append, List.nodup_append]
        refine ⟨h.nodup, by simp, ?_⟩
        intro x hx y hy
        rw [List.mem_map] at hy
        obtain ⟨z, hz, rfl⟩ := hy
        rw [List.mem_singleton.1 hz]
        intro hxe
        exact hin (by rw [hxe] at hx; exact hx)

/-- The log replays the history, if the digests differ. -/
structure Replays (sha : Bytes → Bytes) (cs : List Content) (lg : List (Text × Content)) : Prop where
  all : heard (lg.map (·.2)) = heard cs
  each : ∀ j e, lg[j]? = some e → ∀ t, Holds sha t (heard ((lg.take (j + 1)).map (·.2))) → t.root = e.1
  at' : ∀ j, j < lg.length → ∃ i, heard ((lg.take (j + 1)).map (·.2)) = heard (cs.take i)

theorem replays {sha : Bytes → Bytes} {cs : List Content} : RootsDiffer sha cs → Replays sha cs (coreOf sha cs).2 := by
  refine snoc_induction (Q := fun cs => RootsDiffer sha cs → Replays sha cs (coreOf sha cs).2) (fun _ => ?_) (fun a c ih hd => ?_) cs
  · refine ⟨rfl, ?_, fun j hj => ⟨0, by simp [coreOf] at hj; subst hj; rfl⟩⟩
    intro j e he t ht
    cases j with
    | zero =>
      simp [coreOf] at he
      subst he
      have := ht.same (t' := {}) (holds_empty sha)
      rw [this]
    | succ j => simp [coreOf] at he
  · have hr := ih (rootsDiffer_prefix hd)
    have hL := logged sha a
    rw [coreOf_snoc]
    have hT : Holds sha (treeHear sha (coreOf sha a).1 c) (heard (a ++ [c])) := by
      rw [heard_snoc]; exact treeHear_holds (core_holds sha a) c
    have htake : (a ++ [c]).take (a.length + 1) = a ++ [c] := by rw [List.take_of_length_le]; simp
    have hat : ∀ j, j < (coreOf sha a).2.length → ∃ i, heard (((coreOf sha a).2.take (j + 1)).map (·.2)) = heard ((a ++ [c]).take i) := by
      intro j hj
      obtain ⟨i, hi⟩ := hr.at' j hj
      by_cases hk : i ≤ a.length
      · exact ⟨i, by rw [List.take_append_of_le_length hk, hi]⟩
      · exact ⟨a.length, by rw [hi, List.take_append_of_le_length (Nat.le_refl _), List.take_length, List.take_of_length_le (by omega)]⟩
    by_cases hin : (treeHear sha (coreOf sha a).1 c).root ∈ (coreOf sha a).2.map (·.1)
    · have e : coreUpdate sha (coreOf sha a) c = (treeHear sha (coreOf sha a).1 c, (coreOf sha a).2) := by
        unfold coreUpdate; dsimp only; rw [if_pos hin]
      rw [e]
      refine ⟨?_, hr.each, fun j hj => hat j hj⟩
      rw [hr.all]
      obtain ⟨x, hx, hxe⟩ := List.mem_map.1 hin
      obtain ⟨i, hi⟩ := hL.from' x hx
      have key : ∃ k, (a ++ [c]).take k = a.take i ∧ True := by
        by_cases hk : i ≤ a.length
        · exact ⟨i, List.take_append_of_le_length hk, trivial⟩
        · exact ⟨a.length, by rw [List.take_append_of_le_length (Nat.le_refl _), List.take_length, List.take_of_length_le (by omega)], trivial⟩
      obtain ⟨k, hk, _⟩ := key
      have h1 := distinct_same hd (i := a.length + 1) (j := k) (by rw [htake]; exact hT) (by rw [hk]; exact core_holds sha (a.take i)) (by rw [← hi, hxe])
      rw [htake, hk] at h1
      refine le_antisymm ?_ ?_
      · rw [heard_snoc]; exact hear_le _ _
      · rw [h1]; exact heard_take_le a i
    · have e : coreUpdate sha (coreOf sha a) c =
          (treeHear sha (coreOf sha a).1 c, (coreOf sha a).2 ++ [((treeHear sha (coreOf sha a).1 c).root, c)]) := by
        unfold coreUpdate; dsimp only; rw [if_neg hin]
      rw [e]
      dsimp only
      have hall : heard (((coreOf sha a).2 ++ [((treeHear sha (coreOf sha a).1 c).root, c)]).map (·.2)) = heard (a ++ [c]) := by
        rw [List.map_append, List.map_cons, List.map_nil, heard_snoc, heard_snoc, hr.all]
      refine ⟨hall, ?_, ?_⟩
      rotate_left
      · intro j hj
        by_cases hj' : j < (coreOf sha a).2.length
        · rw [List.take_append_of_le_length (by omega)]
          exact hat j hj'
        · refine ⟨a.length + 1, ?_⟩
          rw [List.take_of_length_le (by simp; omega), hall, htake]
      intro j x hx t ht
      by_cases hj : j < (coreOf sha a).2.length
      · rw [List.getElem?_append_left hj] at hx
        rw [List.take_append_of_le_length (by omega)] at ht
        exact hr.each j x hx t ht
      · rw [List.getElem?_append_right (by omega)] at hx
        have hj0 : j - (coreOf sha a).2.length = 0 := by
          cases hq : j - (coreOf sha a).2.length with
          | zero => rfl
          | succ q => rw [hq] at hx; simp at hx
        rw [hj0] at hx
        simp at hx
        subst hx
        rw [List.take_of_length_le (by simp; omega), hall] at ht
        rw [ht.same hT]

/-! ### What is collected from the log -/

/-- The state with these three fields. -/
def stateOf (x : Text × Nat × Nat) : SyncState := { name := x.1, seq := x.2.1, session := x.2.2 }

/-- What is collected if all producers are known: for each name the last state. -/
structure Collected (c : Content) (acc : List (Text × Nat × Nat)) : Prop where
  from' : ∀ y ∈ acc, ∃ x ∈ c, x.type = 0 ∧ (x.name, x.seq, x.session) = y
  last : ∀ a x b, c = a ++ x :: b → x.type = 0 → (∀ y ∈ b, y.type = 0 → y.name ≠ x.name) → (x.name, x.seq, x.session) ∈ acc
  names : (acc.map (·.1)).Nodup

theorem set_mem {α : Type} {l : List α} {i : Nat} {x y : α} (h : y ∈ l.set i x) : y = x ∨ y ∈ l := by
  rcases List.mem_or_eq_of_mem_set h with h | h
  · exact .inr h
  · exact .inl h

theorem collectOne_known {t : Tree} {x : SyncState} (h : x.type = 0 → t.find x.name x.session ≠ none) {c : Content} {acc : List (Text × Nat × Nat)}
    (hc : Collected c acc) : Collected (c ++ [x]) (collectOne t acc x) := by
  unfold collectOne
  have lastCases : ∀ {a b : Content} {z : SyncState}, c ++ [x] = a ++ z :: b → (b = [] ∧ a = c ∧ z = x) ∨ ∃ b', b = b' ++ [x] ∧ c = a ++ z :: b' := by
    intro a b z e
    rcases snoc_cases b with rfl | ⟨b', w, rfl⟩
    · have := List.append_inj' e rfl
      exact .inl ⟨rfl, this.1.symm, (List.cons.inj this.2).1.symm⟩
    · rw [← List.cons_append, ← List.append_assoc] at e
      have := List.append_inj' e rfl
      exact .inr ⟨b', by rw [(List.cons.inj this.2).1], this.1⟩
  by_cases ht : x.type = 0
  · rw [if_neg (by simpa using ht)]
    cases hf : t.find x.name x.session with
    | none => exact absurd hf (h ht)
    | some _ =>
      dsimp only
      cases hi : acc.findIdx? fun y => decide (y.1 = x.name) with
      | none =>
        rw [List.findIdx?_eq_none_iff] at hi
        dsimp only
        refine ⟨?_, ?_, ?_⟩
        · intro y hy
          rcases List.mem_append.1 hy with hy | hy
          · obtain ⟨z, hz, h1⟩ := hc.from' y hy
            exact ⟨z, List.mem_append_left _ hz, h1⟩
          · exact ⟨x, List.mem_append_right _ (List.mem_singleton.2 rfl), ht, (List.mem_singleton.1 hy).symm⟩
        · intro a z b e hz hlast
          rcases lastCases e with ⟨rfl, rfl, rfl⟩ | ⟨b', rfl, rfl⟩
          · exact List.mem_append_right _ (List.mem_singleton.2 rfl)
          · exact List.mem_append_left _ (hc.last a z b' rfl hz fun y hy => hlast y (List.mem_append_left _ hy))
        · rw [List.map_append, List.nodup_append]
          refine ⟨hc.names, by simp, ?_⟩
          intro n hn n' hn' e
          obtain ⟨y, hy, rfl⟩ := List.mem_map.1 hn
          simp at hn'
          subst hn'
          have := hi y hy
          simp [e] at this
      | some n =>
        obtain ⟨hn, hy, _⟩ := List.findIdx?_eq_some_iff_getElem.1 hi
        dsimp only
        have hy' : acc[n].1 = x.name := by simpa using hy
        refine ⟨?_, ?_, ?_⟩
        · intro y hy
          rcases set_mem hy with rfl | hy
          · exact ⟨x, List.mem_append_right _ (List.mem_singleton.2 rfl), ht, rfl⟩
          · obtain ⟨z, hz, h1⟩ := hc.from' y hy
            exact ⟨z, List.mem_append_left _ hz, h1⟩
        · intro a z b e hz hlast
          rcases lastCases e with ⟨rfl, rfl, rfl⟩ | ⟨b', rfl, rfl⟩
          · exact List.mem_iff_getElem?.2 ⟨n, by rw [List.getElem?_set_self (by omega)]⟩
          · have h1 := hc.last a z b' rfl hz fun y hy => hlast y (List.mem_append_left _ hy)
            have h2 : x.name ≠ z.name := hlast x (List.mem_append_right _ (List.mem_singleton.2 rfl)) ht
            obtain ⟨m, hm⟩ := List.mem_iff_getElem?.1 h1
            refine List.mem_iff_getElem?.2 ⟨m, ?_⟩
            rw [List.getElem?_set_ne, hm]
            rintro rfl
            rw [List.getElem?_eq_getElem hn] at hm
            have := Option.some.inj hm
            rw [this] at hy'
            exact h2 hy'.symm
        · have e : (acc.set n (x.name, x.seq, x.session)).map (·.1) = acc.map (·.1) := by
            rw [List.map_set]
            dsimp only
            rw [← hy']
            apply List.ext_getElem?
            intro k
            by_cases hk : k = n
            · subst hk
              rw [List.getElem?_set_self (by simpa using hn), List.getElem?_map, List.getElem?_eq_getElem hn]
              rfl
            · rw [List.getElem?_set_ne (by omega)]
          rw [e]
          exact hc.names
  · rw [if_pos ht]
    refine ⟨?_, ?_, hc.names⟩
    · intro y hy
      obtain ⟨z, hz, h1⟩ := hc.from' y hy
      exact ⟨z, List.mem_append_left _ hz, h1⟩
    · intro a z b e hz hlast
      rcases lastCases e with ⟨rfl, rfl, rfl⟩ | ⟨b', rfl, rfl⟩
      · exact absurd hz ht
      · exact hc.last a z b' rfl hz fun y hy => hlast y (List.mem_append_left _ hy)

theorem collected {t : Tree} (c : Content) (h : ∀ x ∈ c, x.type = 0 → t.find x.name x.session ≠ none) : Collected c (c.foldl (collectOne t) []) := by
  refine snoc_induction (Q := fun c => (∀ x ∈ c, x.type = 0 → t.find x.name x.session ≠ none) → Collected c (c.foldl (collectOne t) []))
    (fun _ => ⟨nofun, fun a x b e => by simp at e, by simp⟩) (fun a x ih hh => ?_) c h
  rw [List.foldl_append]
  exact collectOne_known (hh x (List.mem_append_right _ (List.mem_singleton.2 rfl))) (ih fun y hy => hh y (List.mem_append_left _ hy))

/-- There is a last one. -/
theorem exists_last {α : Type} (Q : α → Prop) (l : List α) (h : ∃ x ∈ l, Q x) : ∃ a x b, l = a ++ x :: b ∧ Q x ∧ ∀ y ∈ b, ¬ Q y := by
  classical
  induction l with
  | nil => obtain ⟨x, hx, _⟩ := h; exact nomatch hx
  | cons y l ih =>
    by_cases hl : ∃ x ∈ l, Q x
    · obtain ⟨a, x, b, rfl, h1, h2⟩ := ih hl
      exact ⟨y :: a, x, b, rfl, h1, h2⟩
    · obtain ⟨x, hx, hq⟩ := h
      rcases List.mem_cons.1 hx with rfl | hx
      · exact ⟨[], x, l, rfl, hq, fun z hz hq' => hl ⟨z, hz, hq'⟩⟩
      · exact absurd ⟨x, hx, hq⟩ hl

/-- With one session for each name, and numbers in order, hearing the last states is hearing them all. -/
theorem hear_collected {m : Numbers} {c : Content} {acc : List (Text × Nat × Nat)} (hc : Collected c acc)
    (ho : (c.filter fun x => x.type = 0).Pairwise fun x y => x.name = y.name → x.session = y.session ∧ x.seq ≤ y.seq) :
    m.hear (acc.map stateOf) = m.hear c := by
  refine le_antisymm (hear_bound (hear_le _ _) _ ?_) (hear_bound (hear_le _ _) _ ?_)
  · intro x hx _
    obtain ⟨y, hy, rfl⟩ := List.mem_map.1 hx
    obtain ⟨z, hz, ht, rfl⟩ := hc.from' y hy
    exact hear_mem m c z hz ht
  · intro x hx ht
    obtain ⟨a, z, b, e, ⟨hz, hzn⟩, hlast⟩ := exists_last (fun z => z.type = 0 ∧ z.name = x.name) c ⟨x, hx, ht, rfl⟩
    have hin := hc.last a z b e hz fun y hy ht' hn => hlast y hy ⟨ht', by rw [hn, hzn]⟩
    have hxz : x = z ∨ x ∈ a := by
      rw [e] at hx
      rcases List.mem_append.1 hx with hx | hx
      · exact .inr hx
      · rcases List.mem_cons.1 hx with hx | hx
        · exact .inl hx
        · exact absurd ⟨ht, rfl⟩ (hlast x hx)
    have hrel : x.session = z.session ∧ x.seq ≤ z.seq := by
      rcases hxz with rfl | hxa
      · exact ⟨rfl, Nat.le_refl _⟩
      · rw [e, List.filter_append, List.filter_cons_of_pos (by simpa using hz), List.pairwise_append] at ho
        exact ho.2.2 x (List.mem_filter.2 ⟨hxa, by simpa using ht⟩) z (List.mem_cons_self ..) hzn.symm
    obtain ⟨k, h1, h2⟩ := hear_mem m (acc.map stateOf) (stateOf (z.name, z.seq, z.session)) (List.mem_map.2 ⟨_, hin, rfl⟩) rfl
    refine ⟨k, ?_, ?_⟩
    · rw [← hzn, hrel.1]; exact h1
    · have : z.seq ≤ k := h2
      omega

end Chrono
end PyNDN
