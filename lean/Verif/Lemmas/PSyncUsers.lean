import Verif.Spec.PSyncUsers
import Verif.Props.PSyncPending
/-
Lemmas about full PSync with users.
-/
namespace PyNDN
namespace PSync
open Spec.PSync Spec.Iblt

/-! ### Numbered names -/

theorem appendNumber_eq (pre : Name) (k : Nat) : appendNumber pre k = .ok (numbered pre k) := by
  unfold appendNumber
  rw [fromNumber_eq]
  rfl

theorem numbered_prefix (pre : Name) (k : Nat) : getPrefix (numbered pre k) (-1) = .ok pre := Fetch.prefix_last _ _

theorem numbered_last (pre : Name) (k : Nat) : pyIndex (numbered pre k) (-1) = .ok ⟨.generic, Spec.nonNeg k⟩ := last_eq _ _

theorem number_number {k : Nat} (hk : k < 2 ^ 64) : Component.toNumber ⟨.generic, Spec.nonNeg k⟩ = k := accumulate_nonNeg k hk

theorem numbered_dropLast (pre : Name) (k : Nat) : (numbered pre k).dropLast = pre := by simp [numbered]

theorem numbered_inj {p p' : Name} {k k' : Nat} (hk : k < 2 ^ 64) (hk' : k' < 2 ^ 64) (h : numbered p k = numbered p' k') :
    p = p' ∧ k = k' := by
  have h1 : p = p' := by rw [← numbered_dropLast p k, h, numbered_dropLast]
  subst h1
  unfold numbered at h
  rw [List.append_cancel_left_eq] at h
  simp only [List.cons.injEq, and_true, Component.mk.injEq, true_and] at h
  refine ⟨rfl, ?_⟩
  rw [← number_number hk, h, number_number hk']

theorem numbered_prefix_eq {p p' : Name} {k k' : Nat} (h : numbered p k = numbered p' k') : p = p' := by
  rw [← numbered_dropLast p k, h, numbered_dropLast]

/-! ### Dictionaries -/

section
variable {κ ν : Type} [DecidableEq κ]

theorem dictGet_set (k key : κ) (v : ν) : ∀ (d : List (κ × ν)), dictGet k (dictSet key v d) = if k = key then some v else dictGet k d
  | [] => by
    unfold dictSet dictGet
    by_cases h : key = k
    · rw [if_pos h, if_pos h.symm]
    · rw [if_neg h, if_neg (Ne.symm h)]; rfl
  | (j, w) :: d => by
    unfold dictSet
    by_cases h : j = key
    · rw [if_pos h]
      unfold dictGet
      by_cases hk : j = k
      · rw [if_pos hk, if_pos (hk.symm.trans h)]
      · rw [if_neg hk, if_neg (by rintro rfl; exact hk h), if_neg hk]
    · rw [if_neg h]
      unfold dictGet
      by_cases hk : j = k
      · rw [if_pos hk, if_pos hk, if_neg (by rintro rfl; exact h hk)]
      · rw [if_neg hk, if_neg hk, dictGet_set k key v d]

theorem dictGet_delete (k key : κ) (d : List (κ × ν)) : dictGet k (dictDel key d) = if k = key then none else dictGet k d := by
  by_cases h : k = key
  · rw [if_pos h, dictGet_none]
    intro hm
    obtain ⟨x, hx, rfl⟩ := List.mem_map.1 hm
    have := (List.mem_filter.1 hx).2
    simp [h] at this
  · rw [if_neg h, dictGet_del h]
end

/-! ### Sequence numbers -/

/-- The number is greater than the known one. -/
def fresh (m : Seqs) (x : Name × Nat) : Bool := match m x.1 with
  | none => true
  | some k => k < x.2

theorem hear_numbered (m : Seqs) (p : Name) {k : Nat} (hk : k < 2 ^ 64) :
    m.hear (numbered p k) = if fresh m (p, k) then m.set p (some k) else m := by
  unfold Seqs.hear
  rw [numbered_dropLast, show (numbered p k).getLast? = some ⟨.generic, Spec.nonNeg k⟩ by simp [numbered]]
  dsimp only
  rw [number_number hk]
  unfold fresh
  dsimp only
  cases m p with
  | none => rfl
  | some o =>
    dsimp only
    by_cases h : o < k
    · rw [if_pos h, if_pos (by simpa using h)]
    · rw [if_neg h, if_neg (by simpa using h)]

theorem fresh_set {m : Seqs} {p : Name} {o : Option Nat} {x : Name × Nat} (h : x.1 ≠ p) : fresh (m.set p o) x = fresh m x := by
  unfold fresh Seqs.set
  rw [if_neg h]

theorem namesOf_set {m : Seqs} {p : Name} {k : Nat} (hk : k < 2 ^ 64) (hm : ∀ p o, m p = some o → o < 2 ^ 64) (x : Name) :
    NamesOf (m.set p (some k)) x ↔ (NamesOf m x ∧ ∀ o, m p = some o → x ≠ numbered p o) ∨ (0 < k ∧ x = numbered p k) := by
  constructor
  · rintro ⟨q, j, h1, h2, rfl⟩
    unfold Seqs.set at h1
    by_cases hq : q = p
    · rw [if_pos hq] at h1
      cases h1
      subst hq
      exact .inr ⟨h2, rfl⟩
    · rw [if_neg hq] at h1
      refine .inl ⟨⟨q, j, h1, h2, rfl⟩, fun o _ he => hq (numbered_prefix_eq he)⟩
  · rintro (⟨⟨q, j, h1, h2, rfl⟩, h3⟩ | ⟨h1, rfl⟩)
    · refine ⟨q, j, ?_, h2, rfl⟩
      unfold Seqs.set
      rw [if_neg]
      · exact h1
      · rintro rfl
        exact h3 j h1 rfl
    · exact ⟨p, k, by unfold Seqs.set; rw [if_pos rfl], h1, rfl⟩

theorem namesOf_delete {m : Seqs} {p : Name} (x : Name) :
    NamesOf (m.set p none) x ↔ NamesOf m x ∧ ∀ o, m p = some o → x ≠ numbered p o := by
  constructor
  · rintro ⟨q, j, h1, h2, rfl⟩
    unfold Seqs.set at h1
    by_cases hq : q = p
    · rw [if_pos hq] at h1; exact nomatch h1
    · rw [if_neg hq] at h1
      exact ⟨⟨q, j, h1, h2, rfl⟩, fun o _ he => hq (numbered_prefix_eq he)⟩
  · rintro ⟨⟨q, j, h1, h2, rfl⟩, h3⟩
    refine ⟨q, j, ?_, h2, rfl⟩
    unfold Seqs.set
    rw [if_neg]
    · exact h1
    · rintro rfl
      exact h3 j h1 rfl

/-- The application has these sequence numbers. -/
def Has (u : Users) (m : Seqs) : Prop := ∀ p, dictGet p u.prefixes = m p

theorem canAddReceived_eq {u : Users} {m : Seqs} (hu : Has u m) (p : Name) {k : Nat} (hk : k < 2 ^ 64) :
    canAddReceived u (numbered p k) = .ok (if fresh m (p, k) then (match m p with
      | none => []
      | some o => if o ≠ 0 then [numbered p o] else [], true) else ([], false)) := by
  unfold canAddReceived
  rw [numbered_prefix, numbered_last]
  show (match dictGet p u.prefixes with
    | none => _ | some old => _ : Except Err (List Name × Bool)) = _
  rw [hu p]
  unfold fresh
  dsimp only
  cases m p with
  | none => rfl
  | some o =>
    dsimp only
    rw [number_number hk]
    by_cases h : o < k
    · rw [if_pos h, if_pos (c := decide (o < k) = true) (by simpa using h)]
      by_cases ho : o ≠ 0
      · rw [if_pos ho, if_pos ho, appendNumber_eq]; rfl
      · rw [if_neg ho, if_neg ho]; rfl
    · rw [if_neg h, if_neg (c := decide (o < k) = true) (by simpa using h)]
      rfl

/-- A list of prefixes and numbers as names. -/
def asNames (qs : List (Name × Nat)) : List Name := qs.map fun x => numbered x.1 x.2

theorem asNames_of {ns : List Name} (h : ∀ n ∈ ns, Numbered n) :
    ∃ qs : List (Name × Nat), ns = asNames qs ∧ (∀ x ∈ qs, 0 < x.2 ∧ x.2 < 2 ^ 64) ∧ qs.map (·.1) = ns.map List.dropLast := by
  induction ns with
  | nil => exact ⟨[], rfl, nofun, rfl⟩
  | cons n ns ih =>
    obtain ⟨qs, h1, h2, h3⟩ := ih fun x hx => h x (List.mem_cons_of_mem _ hx)
    obtain ⟨p, k, a1, a2, rfl⟩ := h n (List.mem_cons_self ..)
    refine ⟨(p, k) :: qs, by rw [h1]; rfl, ?_, ?_⟩
    · intro x hx
      rcases List.mem_cons.1 hx with rfl | hx
      · exact ⟨a1, a2⟩
      · exact h2 x hx
    · rw [List.map_cons, List.map_cons, h3, numbered_dropLast]

def hearAll (m : Seqs) (qs : List (Name × Nat)) : Seqs := (asNames qs).foldl Seqs.hear m

theorem hearAll_cons (m : Seqs) (p : Name) (k : Nat) (qs : List (Name × Nat)) (hk : k < 2 ^ 64) :
    hearAll m ((p, k) :: qs) = hearAll (if fresh m (p, k) then m.set p (some k) else m) qs := by
  unfold hearAll asNames
  rw [List.map_cons, List.foldl_cons, hear_numbered m p hk]

theorem hearAll_other {p : Name} : ∀ (qs : List (Name × Nat)) (m : Seqs), (∀ x ∈ qs, x.2 < 2 ^ 64) → p ∉ qs.map (·.1) → hearAll m qs p = m p
  | [], _, _, _ => rfl
  | (q, k) :: qs, m, hk, hp => by
    rw [List.map_cons, List.mem_cons] at hp
    rw [hearAll_cons _ _ _ _ (hk _ (List.mem_cons_self ..)), hearAll_other qs _ (fun x hx => hk x (List.mem_cons_of_mem _ hx)) fun h => hp (.inr h)]
    split
    · unfold Seqs.set
      rw [if_neg fun h => hp (.inl h)]
    · rfl

/-- What is known after names with different prefixes were heard. -/
theorem hearAll_eq {p : Name} {k : Nat} : ∀ (qs : List (Name × Nat)) (m : Seqs), (∀ x ∈ qs, x.2 < 2 ^ 64) → (qs.map (·.1)).Nodup → (p, k) ∈ qs →
    hearAll m qs p = if fresh m (p, k) then some k else m p
  | [], _, _, _, h => nomatch h
  | (q, j) :: qs, m, hk, hn, hm => by
    rw [List.map_cons, List.nodup_cons] at hn
    have hk' : ∀ x ∈ qs, x.2 < 2 ^ 64 := fun x hx => hk x (List.mem_cons_of_mem _ hx)
    rw [hearAll_cons _ _ _ _ (hk _ (List.mem_cons_self ..))]
    rcases List.mem_cons.1 hm with h | h
    · cases h
      rw [hearAll_other qs _ hk' hn.1]
      split
      · unfold Seqs.set; rw [if_pos rfl]
      · rfl
    · have hne : p ≠ q := by
        rintro rfl
        exact hn.1 (List.mem_map.2 ⟨_, h, rfl⟩)
      rw [hearAll_eq qs _ hk' hn.2 h]
      split
      · rw [fresh_set hne]
        unfold Seqs.set
        rw [if_neg hne]
      · rfl

/-- Names with numbers and different prefixes arrive. -/
theorem arrive_users {u : Users} {m0 : Seqs} (hu : Has u m0) : ∀ (qs : List (Name × Nat)) (A new : List Name) (m : Seqs),
    (∀ x ∈ qs, 0 < x.2 ∧ x.2 < 2 ^ 64) → (qs.map (·.1)).Nodup → (∀ x ∈ qs, m x.1 = m0 x.1) → (∀ n, n ∈ A ↔ NamesOf m n) →
    (∀ p o, m p = some o → o < 2 ^ 64) →
    ∃ A', arrive (some canAddReceived) u A (asNames qs) new = (A', .ok (new ++ asNames (qs.filter (fresh m0)))) ∧
      (∀ n, n ∈ A' ↔ NamesOf (hearAll m qs) n) ∧ ∀ p o, hearAll m qs p = some o → o < 2 ^ 64
  | [], A, new, m, _, _, _, hA, hb => ⟨A, by simp [asNames, arrive], hA, hb⟩
  | (p, k) :: qs, A, new, m, hk, hn, h0, hA, hb => by
    rw [List.map_cons, List.nodup_cons] at hn
    obtain ⟨k1, k2⟩ := hk _ (List.mem_cons_self ..)
    have hk' : ∀ x ∈ qs, 0 < x.2 ∧ x.2 < 2 ^ 64 := fun x hx => hk x (List.mem_cons_of_mem _ hx)
    have hp := h0 (p, k) (List.mem_cons_self ..)
    dsimp only at hp k1 k2
    have hfr : fresh m (p, k) = fresh m0 (p, k) := by unfold fresh; dsimp only; rw [hp]
    rw [hearAll_cons _ _ _ _ k2, show asNames ((p, k) :: qs) = numbered p k :: asNames qs from rfl]
    unfold arrive
    have hset : ∀ x ∈ qs, (m.set p (some k)) x.1 = m0 x.1 := by
      intro x hx
      unfold Seqs.set
      rw [if_neg]
      · exact h0 x (List.mem_cons_of_mem _ hx)
      · intro he
        exact hn.1 (he ▸ List.mem_map.2 ⟨x, hx, rfl⟩)
    have hb' : ∀ q o, (m.set p (some k)) q = some o → o < 2 ^ 64 := by
      intro q o ho
      unfold Seqs.set at ho
      split at ho
      · cases ho; exact k2
      · exact hb q o ho
    by_cases hin : numbered p k ∈ A
    · obtain ⟨q, j, a1, a2, a3⟩ := (hA _).1 hin
      obtain ⟨rfl, rfl⟩ := numbered_inj k2 (hb q j a1) a3
      have hnf : fresh m (p, k) = false := by unfold fresh; dsimp only; rw [a1]; simp
      rw [if_pos hin, hnf, if_neg (by simp), List.filter_cons, ← hfr, hnf, if_neg (by simp)]
      exact arrive_users hu qs A new m hk' hn.2 (fun x hx => h0 x (List.mem_cons_of_mem _ hx)) hA hb
    · rw [if_neg hin]
      dsimp only
      rw [canAddReceived_eq hu p k2, hfr, List.filter_cons]
      by_cases hf : fresh m0 (p, k) = true
      · rw [hf, if_pos rfl, if_pos rfl, if_pos rfl]
        dsimp only
        have hA' : ∀ n, n ∈ (match m0 p with
            | none => []
            | some o => if o ≠ 0 then [numbered p o] else []).foldl removing A ++ [numbered p k] ↔ NamesOf (m.set p (some k)) n := by
          intro n
          rw [List.mem_append, List.mem_singleton, namesOf_set k2 hb, ← hp]
          have none' : m p = none ∨ m p = some 0 → (NamesOf m n ↔ NamesOf m n ∧ ∀ o, m p = some o → n ≠ numbered p o) := by
            intro hz
            refine ⟨fun hx => ⟨hx, ?_⟩, fun hx => hx.1⟩
            rintro o ho rfl
            obtain ⟨q, j, b1, b2, b3⟩ := hx
            obtain ⟨rfl, rfl⟩ := numbered_inj (hb p o ho) (hb q j b1) b3
            rcases hz with hz | hz
            · rw [hz] at b1; exact nomatch b1
            · rw [hz] at b1; cases b1; exact absurd b2 (by simp)
          cases ho : m p with
          | none =>
            rw [List.foldl_nil, hA, ← ho, ← none' (.inl ho)]
            simp [k1]
          | some o =>
            dsimp only
            by_cases hz : o ≠ 0
            · rw [if_pos hz, List.foldl_cons, List.foldl_nil, mem_removing, hA]
              simp [k1]
            · rw [if_neg hz, List.foldl_nil, hA, ← ho, ← none' (.inr (by rw [ho]; simp at hz; rw [hz]))]
              simp [k1]
        obtain ⟨A', b1, b2, b3⟩ := arrive_users hu qs _ (new ++ [numbered p k]) (m.set p (some k)) hk' hn.2 hset hA' hb'
        refine ⟨A', ?_, b2, b3⟩
        rw [b1, List.append_assoc]
        rfl
      · have hf' : fresh m0 (p, k) = false := by simpa using hf
        rw [hf', if_neg (by simp), if_neg (by simp), if_neg (by simp)]
        exact arrive_users hu qs A new m hk' hn.2 (fun x hx => h0 x (List.mem_cons_of_mem _ hx)) hA hb

/-- The application takes over new numbers. -/
theorem updateLoop_users : ∀ (qs : List (Name × Nat)) (ps : List (Name × Nat)) (updates : List MissingData) (m : Seqs),
    (∀ p, dictGet p ps = m p) → (∀ x ∈ qs, x.2 < 2 ^ 64) → (qs.map (·.1)).Nodup → (∀ x ∈ qs, fresh m x = true) →
    ∃ ps', updateLoop ps updates (asNames qs) = (ps', .ok (updates ++ qs.map fun x => ⟨x.1, (m x.1).getD 0 + 1, x.2⟩)) ∧
      ∀ p, dictGet p ps' = hearAll m qs p
  | [], ps, updates, m, h, _, _, _ => ⟨ps, by simp [asNames, updateLoop], h⟩
  | (p, k) :: qs, ps, updates, m, h, hk, hn, hf => by
    rw [List.map_cons, List.nodup_cons] at hn
    have k2 := hk _ (List.mem_cons_self ..)
    have hf1 := hf _ (List.mem_cons_self ..)
    have hne : ∀ x ∈ qs, x.1 ≠ p := by
      intro x hx he
      exact hn.1 (he ▸ List.mem_map.2 ⟨x, hx, rfl⟩)
    obtain ⟨ps', h1, h2⟩ := updateLoop_users qs (dictSet p k ps) (updates ++ [⟨p, (m p).getD 0 + 1, k⟩]) (m.set p (some k)) (by
        intro q
        rw [dictGet_set, h q]
        rfl) (fun x hx => hk x (List.mem_cons_of_mem _ hx)) hn.2 (by
        intro x hx
        rw [fresh_set (hne x hx)]
        exact hf x (List.mem_cons_of_mem _ hx))
    refine ⟨ps', ?_, ?_⟩
    · rw [show asNames ((p, k) :: qs) = numbered p k :: asNames qs from rfl]
      unfold updateLoop
      rw [numbered_prefix, numbered_last]
      dsimp only
      rw [number_number k2, h p, h1, List.append_assoc, List.map_cons]
      congr 3
      rw [List.singleton_append]
      congr 1
      apply List.map_congr_left
      intro x hx
      rw [show (m.set p (some k)) x.1 = m x.1 by unfold Seqs.set; rw [if_neg (hne x hx)]]
    · intro q
      rw [h2, hearAll_cons _ _ _ _ k2, hf1, if_pos rfl]

theorem hearAll_filter : ∀ (qs : List (Name × Nat)) (m0 m : Seqs), (∀ x ∈ qs, x.2 < 2 ^ 64) → (qs.map (·.1)).Nodup →
    (∀ x ∈ qs, m x.1 = m0 x.1) → hearAll m (qs.filter (fresh m0)) = hearAll m qs
  | [], _, _, _, _, _ => rfl
  | (p, k) :: qs, m0, m, hk, hn, h0 => by
    rw [List.map_cons, List.nodup_cons] at hn
    have k2 := hk _ (List.mem_cons_self ..)
    have hfr : fresh m (p, k) = fresh m0 (p, k) := by unfold fresh; rw [h0 _ (List.mem_cons_self ..)]
    rw [hearAll_cons _ _ _ _ k2, hfr, List.filter_cons]
    by_cases hf : fresh m0 (p, k) = true
    · rw [if_pos hf, if_pos hf, hearAll_cons _ _ _ _ k2, hfr, if_pos hf]
      apply hearAll_filter qs m0 _ (fun x hx => hk x (List.mem_cons_of_mem _ hx)) hn.2
      intro x hx
      unfold Seqs.set
      rw [if_neg]
      · exact h0 x (List.mem_cons_of_mem _ hx)
      · intro he
        exact hn.1 (he ▸ List.mem_map.2 ⟨x, hx, rfl⟩)
    · rw [if_neg hf, if_neg hf]
      exact hearAll_filter qs m0 m (fun x hx => hk x (List.mem_cons_of_mem _ hx)) hn.2 fun x hx => h0 x (List.mem_cons_of_mem _ hx)

end PSync
end PyNDN
