import Verif.Lemmas.IbltPeel
/-
C56: the invertible Bloom lookup table.
-/
namespace PyNDN.Props
open PyNDN PyNDN.Iblt PyNDN.Spec.Iblt

theorem new_eq (expected : Nat) : ∃ n, new expected = empty n ∧ (0 < expected → n / nHash ≠ 0) := by
  refine ⟨_, rfl, ?_⟩
  intro he
  by_cases hm : (expected + expected / 2) % nHash ≠ 0
  · rw [if_pos hm]; simp only [nHash] at *; omega
  · rw [if_neg hm]; simp only [nHash] at *; omega

/-- The table depends only on how often each key was inserted and erased, not on the order: in particular
erasing undoes inserting. -/
theorem C56_set (h : Hash) (expected : Nat) (he : 0 < expected) (ops ops' : List (Bool × Nat))
    (hn : ∀ k, net ops k = net ops' k) :
    ∃ t, apply h (new expected) ops = .ok t ∧ apply h (new expected) ops' = .ok t := by
  obtain ⟨n, hnew, hnz⟩ := new_eq expected
  have hl : (new expected).length / nHash ≠ 0 := by rw [hnew, empty_length]; exact hnz he
  refine ⟨_, apply_eq h ops _ hl, ?_⟩
  rw [apply_eq h ops' _ hl]
  congr 1
  apply runs_total h _ hl (units_signed _) (units_signed _)
  intro k
  rw [total_signed, total_signed, hn]

/-- A table for no entries cannot take a key. -/
theorem C56_zero (h : Hash) (key : Nat) : insert h (new 0) key = .error .arithmetic := rfl

/-- The signed keys of the difference of two sets. -/
def diffKeys (A B : List Nat) : List (Int × Nat) :=
  (onlyIn A B).map (fun k => ((1 : Int), k)) ++ (onlyIn B A).map fun k => ((-1 : Int), k)

theorem mem_onlyIn {A B : List Nat} {k : Nat} : k ∈ onlyIn A B ↔ k ∈ A ∧ k ∉ B := by
  simp [onlyIn]

theorem diffKeys_keys (A B : List Nat) : (diffKeys A B).map Prod.snd = onlyIn A B ++ onlyIn B A := by
  simp [diffKeys, Function.comp_def]

theorem diffKeys_distinct {A B : List Nat} (hA : A.Nodup) (hB : B.Nodup) : Distinct (diffKeys A B) := by
  constructor
  · intro x hx
    rcases List.mem_append.1 hx with hx | hx <;> obtain ⟨k, _, rfl⟩ := List.mem_map.1 hx <;> simp
  · rw [diffKeys_keys, List.nodup_append]
    refine ⟨hA.filter _, hB.filter _, ?_⟩
    intro a ha b hb hab
    subst hab
    exact (mem_onlyIn.1 ha).2 (mem_onlyIn.1 hb).1

theorem total_const (s : Int) : ∀ (l : List Nat) (k : Nat), l.Nodup →
    total (l.map fun k => (s, k)) k = if k ∈ l then s else 0
  | [], k, _ => rfl
  | a :: l, k, hl => by
    have ih := total_const s l k (List.nodup_cons.1 hl).2
    have hn := (List.nodup_cons.1 hl).1
    have e : total ((a :: l).map fun k => (s, k)) k = (if a = k then s else 0) + total (l.map fun k => (s, k)) k := by
      by_cases hk : a = k <;> simp [total, List.filter_cons, hk]
    rw [e, ih]
    by_cases hk : a = k
    · subst hk; simp [hn]
    · simp [hk, Ne.symm hk]

theorem diff_eq (h : Hash) {n : Nat} (hn : n / nHash ≠ 0) {A B : List Nat} {opsA opsB : List (Bool × Nat)}
    (hA : Holds A opsA) (hB : Holds B opsB) :
    difference (runs h (empty n) (opsA.map signed)) (runs h (empty n) (opsB.map signed)) =
      .ok (runs h (empty n) (diffKeys A B)) := by
  rw [difference_runs h hn]
  congr 1
  have hu : Units ((opsB.map signed).map fun x => (-x.1, x.2)) := by
    intro x hx
    obtain ⟨y, hy, rfl⟩ := List.mem_map.1 hx
    rcases units_signed opsB y hy with h1 | h1 <;> simp [h1]
  apply runs_total h _ (by rw [empty_length]; exact hn)
  · intro x hx
    rcases List.mem_append.1 hx with hx | hx
    · exact units_signed _ x hx
    · exact hu x hx
  · exact (diffKeys_distinct hA.1 hB.1).1
  · intro k
    have hneg : ∀ l : List (Int × Nat), total (l.map fun x => (-x.1, x.2)) k = - total l k := by
      intro l
      induction l with
      | nil => rfl
      | cons x l ih =>
        unfold total at *
        by_cases hk : x.2 = k
        · simp [List.filter_cons, hk] at ih ⊢
          rw [ih]; omega
        · simp [List.filter_cons, hk] at ih ⊢
          exact ih
    rw [total_append, hneg, total_signed, total_signed, hA.2, hB.2]
    unfold diffKeys
    rw [total_append, total_const _ (onlyIn A B) _ (hA.1.filter _), total_const _ (onlyIn B A) _ (hB.1.filter _)]
    simp only [mem_onlyIn]
    by_cases h1 : k ∈ A <;> by_cases h2 : k ∈ B <;> simp [h1, h2]

/-- Two tables of the same size are compared: if the check hash has no collision on the keys that are in
only one of the two sets, then `listEntries` of the difference ends, reports only such keys, on the right
side, each once, namely all that are in no entangled group; and it returns True exactly if no group of them
is entangled, and then it reports all of them. -/
theorem C56_reconcile (h : Hash) (expected : Nat) (he : 0 < expected) (A B : List Nat) (opsA opsB : List (Bool × Nat))
    (hA : Holds A opsA) (hB : Holds B opsB) (hc : NoCollision h (onlyIn A B ++ onlyIn B A)) :
    ∃ tA tB d b positive negative,
      apply h (new expected) opsA = .ok tA ∧ apply h (new expected) opsB = .ok tB ∧ difference tA tB = .ok d ∧
      (∀ fuel, (onlyIn A B ++ onlyIn B A).length < fuel →
        listEntries h fuel d = .ok (some (b, positive, negative))) ∧
      positive.Nodup ∧ negative.Nodup ∧
      (∀ k ∈ positive, k ∈ A ∧ k ∉ B) ∧ (∀ k ∈ negative, k ∈ B ∧ k ∉ A) ∧
      (b = true ↔ ¬ ∃ S, (∀ k ∈ S, k ∈ onlyIn A B ++ onlyIn B A) ∧ Entangled h (new expected).length S) ∧
      (b = true → (∀ k, k ∈ A ∧ k ∉ B → k ∈ positive) ∧ ∀ k, k ∈ B ∧ k ∉ A → k ∈ negative) ∧
      (∀ k, k ∈ positive ↔ (k ∈ A ∧ k ∉ B) ∧ ¬ Tangled h (new expected).length (onlyIn A B ++ onlyIn B A) k) ∧
      (∀ k, k ∈ negative ↔ (k ∈ B ∧ k ∉ A) ∧ ¬ Tangled h (new expected).length (onlyIn A B ++ onlyIn B A) k) := by
  obtain ⟨n, hnew, hnz⟩ := new_eq expected
  have hn := hnz he
  have hl : (empty n).length / nHash ≠ 0 := by rw [empty_length]; exact hn
  have hd := diffKeys_distinct hA.1 hB.1
  rw [← diffKeys_keys] at hc
  have hi : Peeling h n (diffKeys A B) { table := runs h (empty n) (diffKeys A B) } (diffKeys A B) :=
    ⟨rfl, by simp, fun S hS _ => hS⟩
  obtain ⟨p, R, h1, h2, h3⟩ := peelLoop_spec hn hd hc _ _ _ (Nat.le_refl _) hi
  obtain ⟨hdR, hcR⟩ := h2.remaining hd hc
  have hall := distinct_perm hd h2.perm
  have hmem : ∀ x, x ∈ diffKeys A B ↔ x ∈ R ∨ (x.1 = 1 ∧ x.2 ∈ p.positive) ∨ (x.1 = -1 ∧ x.2 ∈ p.negative) := by
    rintro ⟨s, k⟩
    rw [h2.perm.mem_iff]
    simp [eq_comm, and_comm]
  have hpos : ∀ k ∈ p.positive, k ∈ A ∧ k ∉ B := by
    intro k hk
    have := (hmem (1, k)).2 (.inr (.inl ⟨rfl, hk⟩))
    simpa [diffKeys, mem_onlyIn] using this
  have hneg : ∀ k ∈ p.negative, k ∈ B ∧ k ∉ A := by
    intro k hk
    have := (hmem (-1, k)).2 (.inr (.inr ⟨rfl, hk⟩))
    simpa [diffKeys, mem_onlyIn] using this
  have hnod : p.positive.Nodup ∧ p.negative.Nodup := by
    have := hall.2
    rw [List.map_append, List.nodup_append] at this
    have h4 := this.2.1
    rw [List.map_append, List.nodup_append] at h4
    simpa [Function.comp_def] using And.intro h4.1 h4.2.1
  have hget : ∀ j, j < n → p.table[j]? = some (entryOf h (here h n j R)) := fun j hj => h2.get hn hj
  have hplen : p.table.length = n := by rw [h2.table, runs_length, empty_length]
  have hempty : p.table.all Entry.isEmpty = true ↔ R = [] := by
    constructor
    · intro hb
      cases hR : R with
      | nil => rfl
      | cons x R' =>
        exfalso
        have hj := bucket_lt_n (h := h) hn (i := 0) (by decide) x.2
        have hx : x ∈ here h n (bucket h n 0 x.2) R :=
          List.mem_filter.2 ⟨by rw [hR]; simp, inB_iff.2 ⟨0, by decide, rfl⟩⟩
        have hem := List.all_eq_true.1 hb _ (List.mem_of_getElem? (hget _ hj))
        rw [empty_none hdR hcR hem] at hx
        exact nomatch hx
    · intro hR
      rw [h2.table, hR]
      simp [runs, empty, Entry.isEmpty]
  have hRin : ∀ k ∈ R.map Prod.snd, k ∈ (diffKeys A B).map Prod.snd := by
    intro k hk
    obtain ⟨y, hy, rfl⟩ := List.mem_map.1 hk
    exact List.mem_map_of_mem ((hmem y).2 (.inl hy))
  have hRent : R ≠ [] → Entangled h n (R.map Prod.snd) := by
      intro hR
      · refine ⟨by simpa using hR, ?_⟩
        · intro k hk i hi'
          obtain ⟨y, hy, rfl⟩ := List.mem_map.1 hk
          have hj := bucket_lt_n (h := h) hn hi' y.2
          have hy' : y ∈ here h n (bucket h n i y.2) R := List.mem_filter.2 ⟨hy, inB_iff.2 ⟨i, hi', rfl⟩⟩
          have hnp := h3 _ hj
          have hother : ∃ z ∈ here h n (bucket h n i y.2) R, z ≠ y := by
            by_contra hcon
            have hcon' : ∀ z ∈ here h n (bucket h n i y.2) R, z = y := by
              intro z hz
              by_contra hzy
              exact hcon ⟨z, hz, hzy⟩
            have hnd : (here h n (bucket h n i y.2) R).Nodup :=
              nodup_of_map (here_distinct (h := h) (n := n) (bucket h n i y.2) hdR).2
            have : here h n (bucket h n i y.2) R = [y] := by
              generalize here h n (bucket h n i y.2) R = l at hcon' hnd hy'
              match l, hcon', hnd, hy' with
              | [a], hc', _, _ => rw [hc' a (by simp)]
              | a :: b :: l, hc', hnd, _ =>
                have e1 := hc' a (by simp)
                have e2 := hc' b (by simp)
                rw [e1, e2] at hnd
                simp at hnd
            rw [single_pure hdR this] at hnp
            exact nomatch hnp
          obtain ⟨z, hz, hzy⟩ := hother
          obtain ⟨hzR, hzb⟩ := List.mem_filter.1 hz
          obtain ⟨i', hi2, hb⟩ := inB_iff.1 hzb
          have hii := bucket_index hn hi2 hi' hb
          subst hii
          refine ⟨z.2, List.mem_map_of_mem hzR, ?_, hb⟩
          intro heq
          apply hzy
          exact inj_of_nodup hdR.2 hzR hy heq
  have hent : R = [] ↔ ¬ ∃ S, (∀ k ∈ S, k ∈ (diffKeys A B).map Prod.snd) ∧ Entangled h n S := by
    constructor
    · rintro hR ⟨S, hS, hE⟩
      cases S with
      | nil => exact hE.1 rfl
      | cons k S =>
        have := h2.stuck _ hS hE k (List.mem_cons_self ..)
        rw [hR] at this
        exact nomatch this
    · intro hno
      by_contra hR
      exact hno ⟨_, hRin, hRent hR⟩
  have htan : ∀ k, Tangled h n ((diffKeys A B).map Prod.snd) k ↔ k ∈ R.map Prod.snd := by
    intro k
    constructor
    · rintro ⟨S, hS, hE, hk⟩
      exact h2.stuck S hS hE k hk
    · intro hk
      exact ⟨_, hRin, hRent (by rintro rfl; exact nomatch hk), hk⟩
  have hdisj : ∀ k, k ∈ p.positive ∨ k ∈ p.negative → k ∉ R.map Prod.snd := by
    intro k hk hR
    have := hall.2
    rw [List.map_append, List.nodup_append] at this
    refine this.2.2 k hR k ?_ rfl
    rw [List.map_append, List.mem_append]
    rcases hk with hk | hk
    · exact .inl (by simpa [Function.comp_def] using hk)
    · exact .inr (by simpa [Function.comp_def] using hk)
  refine ⟨runs h (empty n) (opsA.map signed), runs h (empty n) (opsB.map signed), _, p.table.all Entry.isEmpty,
    p.positive, p.negative, by rw [hnew]; exact apply_eq h _ _ hl, by rw [hnew]; exact apply_eq h _ _ hl,
    diff_eq h hn hA hB, ?_, hnod.1, hnod.2, hpos, hneg, ?_, ?_, ?_, ?_⟩
  · intro fuel hf
    unfold listEntries
    rw [h1 fuel (by rw [← List.length_map (f := Prod.snd), diffKeys_keys]; exact hf)]
    rfl
  · rw [hempty, hent, diffKeys_keys, hnew, empty_length]
  · intro hb
    have hR := hempty.1 hb
    constructor
    · intro k hk
      have : (1, k) ∈ diffKeys A B := List.mem_append_left _ (List.mem_map_of_mem (mem_onlyIn.2 hk))
      rcases (hmem _).1 this with h4 | h4 | h4
      · rw [hR] at h4; exact nomatch h4
      · exact h4.2
      · exact absurd h4.1 (by simp)
    · intro k hk
      have : (-1, k) ∈ diffKeys A B := List.mem_append_right _ (List.mem_map_of_mem (mem_onlyIn.2 hk))
      rcases (hmem _).1 this with h4 | h4 | h4
      · rw [hR] at h4; exact nomatch h4
      · exact absurd h4.1 (by simp)
      · exact h4.2
  · intro k
    rw [← diffKeys_keys, hnew, empty_length, htan]
    constructor
    · exact fun hk => ⟨hpos k hk, hdisj k (.inl hk)⟩
    · rintro ⟨hk, hk'⟩
      have : (1, k) ∈ diffKeys A B := List.mem_append_left _ (List.mem_map_of_mem (mem_onlyIn.2 hk))
      rcases (hmem _).1 this with h4 | h4 | h4
      · exact absurd (List.mem_map_of_mem (f := Prod.snd) h4) hk'
      · exact h4.2
      · exact absurd h4.1 (by simp)
  · intro k
    rw [← diffKeys_keys, hnew, empty_length, htan]
    constructor
    · exact fun hk => ⟨hneg k hk, hdisj k (.inr hk)⟩
    · rintro ⟨hk, hk'⟩
      have : (-1, k) ∈ diffKeys A B := List.mem_append_right _ (List.mem_map_of_mem (mem_onlyIn.2 hk))
      rcases (hmem _).1 this with h4 | h4 | h4
      · exact absurd (List.mem_map_of_mem (f := Prod.snd) h4) hk'
      · exact absurd h4.1 (by simp)
      · exact h4.2

/-! ### An entry in the wrong place -/

/-- A table of which all keys are copies of `k`. -/
def OnlyKey (h : Hash) (k : Nat) (e : Entry) : Prop :=
  (e.count % 2 = 0 ∧ e.keySum = 0 ∧ e.keyCheck = 0) ∨ (e.count % 2 = 1 ∧ e.keySum = k ∧ e.keyCheck = h nHashCheck k)

theorem onlyKey_change {h : Hash} {k : Nat} {e : Entry} (he : OnlyKey h k e) {s : Int} (hs : s = 1 ∨ s = -1) :
    OnlyKey h k (e.change h s k) := by
  unfold OnlyKey Entry.change at *
  dsimp only
  rcases he with ⟨h1, h2, h3⟩ | ⟨h1, h2, h3⟩
  · right
    rw [h2, h3, Nat.zero_xor, Nat.zero_xor]
    exact ⟨by omega, rfl, rfl⟩
  · left
    rw [h2, h3, Nat.xor_self, Nat.xor_self]
    exact ⟨by omega, rfl, rfl⟩

structure Stuck (h : Hash) (n k : Nat) (p : Peel) : Prop where
  len : p.table.length = n
  only : ∀ e ∈ p.table, OnlyKey h k e
  first : ∃ c : Int, (c = 1 ∨ c = -1) ∧ p.table[0]? = some ⟨c, k, h nHashCheck k⟩

theorem stuck_peelOne {h : Hash} {n k : Nat} (hn : n / nHash ≠ 0) (hk : bucket h n 0 k ≠ 0) {p : Peel}
    (hs : Stuck h n k p) (j : Nat) :
    ∃ p', peelOne h p j = .ok p' ∧ Stuck h n k p' ∧ p.erased ≤ p'.erased ∧ (j = 0 → p'.erased = p.erased + 1) := by
  have hl : p.table.length / nHash ≠ 0 := by rw [hs.len]; exact hn
  have hb := bucket_lt h hn k
  have h0 : inB h n k 0 = false := by
    have h1 : bucket h n 1 k ≠ 0 := by simp only [nHash] at hn; omega
    have h2 : bucket h n 2 k ≠ 0 := by simp only [nHash] at hn; omega
    simp [inB, hk, h1, h2, Ne.symm hk, Ne.symm h1, Ne.symm h2]
  obtain ⟨c, hc1, hfirst⟩ := hs.first
  unfold peelOne
  cases hj : p.table[j]? with
  | none =>
    refine ⟨p, rfl, hs, Nat.le_refl _, ?_⟩
    rintro rfl
    rw [hfirst] at hj
    exact nomatch hj
  | some e =>
    dsimp only
    by_cases hp : e.isPure h = true
    · rw [if_pos hp, update_eq, if_neg hl]
      have hc : e.count = 1 ∨ e.count = -1 := by
        simp only [Entry.isPure, Bool.and_eq_true, Bool.or_eq_true, beq_iff_eq] at hp
        exact hp.1
      have hkey : e.keySum = k := by
        rcases hs.only e (List.mem_of_getElem? hj) with ⟨h1, _, _⟩ | ⟨_, h2, _⟩
        · omega
        · exact h2
      refine ⟨_, rfl, ⟨?_, ?_, ⟨c, hc1, ?_⟩⟩, Nat.le_succ _, fun _ => rfl⟩
      · dsimp only; rw [upd_length, hs.len]
      · intro x hx
        dsimp only at hx
        obtain ⟨i, hi⟩ := List.mem_iff_getElem?.1 hx
        rw [upd_get h _ hl, hkey] at hi
        cases hy : p.table[i]? with
        | none => rw [hy] at hi; exact nomatch hi
        | some y =>
          rw [hy] at hi
          simp only [Option.map_some, Option.some.injEq] at hi
          have ho := hs.only y (List.mem_of_getElem? hy)
          rw [← hi]
          split
          · exact onlyKey_change ho (by omega)
          · exact ho
      · dsimp only
        rw [upd_get h _ hl, hkey, hs.len, h0, hfirst]
        rfl
    · rw [if_neg hp]
      refine ⟨p, rfl, hs, Nat.le_refl _, ?_⟩
      rintro rfl
      rw [hfirst] at hj
      simp only [Option.some.injEq] at hj
      rw [← hj] at hp
      rcases hc1 with rfl | rfl <;> simp [Entry.isPure] at hp

theorem stuck_fold {h : Hash} {n k : Nat} (hn : n / nHash ≠ 0) (hk : bucket h n 0 k ≠ 0) : ∀ (js : List Nat) (p : Peel),
    Stuck h n k p → ∃ p', js.foldlM (peelOne h) p = .ok p' ∧ Stuck h n k p' ∧ p.erased ≤ p'.erased ∧
      (0 ∈ js → p.erased < p'.erased)
  | [], p, hs => ⟨p, rfl, hs, Nat.le_refl _, (nomatch ·)⟩
  | j :: js, p, hs => by
    obtain ⟨p1, a1, a2, a3, a4⟩ := stuck_peelOne hn hk hs j
    obtain ⟨p2, b1, b2, b3, b4⟩ := stuck_fold hn hk js p1 a2
    refine ⟨p2, ?_, b2, by omega, ?_⟩
    · rw [List.foldlM_cons, a1]; exact b1
    · intro h0
      rcases List.mem_cons.1 h0 with h0 | h0
      · have := a4 h0.symm; omega
      · have := b4 h0; omega

theorem diverges (h : Hash) (n k : Nat) (hn : n / nHash ≠ 0) (hk : bucket h n 0 k ≠ 0) (c : Int) (hc : c = 1 ∨ c = -1)
    (fuel : Nat) : listEntries h fuel (⟨c, k, h nHashCheck k⟩ :: List.replicate (n - 1) {}) = .ok none := by
  have hpos : 0 < n := by
    rcases Nat.eq_zero_or_pos n with h0 | h0
    · rw [h0] at hn; exact absurd rfl hn
    · exact h0
  have key : ∀ (fuel : Nat) (p : Peel), Stuck h n k p → peelLoop h fuel p = .ok none := by
    intro fuel
    induction fuel with
    | zero => intro p _; rfl
    | succ fuel ih =>
      intro p hs
      have hs0 : Stuck h n k { p with erased := 0 } := ⟨hs.len, hs.only, hs.first⟩
      obtain ⟨p', a1, a2, _, a4⟩ := stuck_fold hn hk (List.range n) _ hs0
      have e : peelLoop h (fuel + 1) p = (do
          let p ← peelRound h p
          if p.erased > 0 then peelLoop h fuel p else return some p) := rfl
      rw [e]
      unfold peelRound
      rw [hs.len, a1]
      show (if p'.erased > 0 then _ else _) = _
      rw [if_pos (Nat.lt_of_le_of_lt (Nat.zero_le _) (a4 (List.mem_range.2 hpos)))]
      exact ih p' a2
  unfold listEntries
  rw [key fuel _ ⟨by simp; omega, ?_, c, hc, rfl⟩]
  · rfl
  · intro e he
    rcases List.mem_cons.1 he with rfl | he
    · exact .inr ⟨by dsimp only; omega, rfl, rfl⟩
    · rw [List.eq_of_mem_replicate he]
      exact .inl ⟨rfl, rfl, rfl⟩

/-- A received table with one key in an entry where that key does not belong: `listEntries` does not end. -/
theorem C56_diverges (h : Hash) (n k : Nat) (hn : n / nHash ≠ 0) (hk : bucket h n 0 k ≠ 0) (fuel : Nat) :
    listEntries h fuel (⟨1, k, h nHashCheck k⟩ :: List.replicate (n - 1) {}) = .ok none :=
  diverges h n k hn hk 1 (.inl rfl) fuel

/-! ### The wire -/

theorem le4_decode (v : Nat) (hv : v < 2 ^ 32) (rest : Bytes) : decodeRaw (le4 v ++ rest) = v :: decodeRaw rest := by
  have e : ∀ m : Nat, m < 256 → (UInt8.ofNat m).toNat = m := by
    intro m hm
    simp only [UInt8.toNat_ofNat']
    omega
  simp only [le4, List.cons_append, List.nil_append, decodeRaw]
  congr 1
  have c1 : ((v : Int) % 256).toNat = v % 256 := by omega
  have c2 : ((v : Int) / 2 ^ 8 % 256).toNat = v / 2 ^ 8 % 256 := by omega
  have c3 : ((v : Int) / 2 ^ 16 % 256).toNat = v / 2 ^ 16 % 256 := by omega
  have c4 : ((v : Int) / 2 ^ 24 % 256).toNat = v / 2 ^ 24 % 256 := by omega
  rw [c1, c2, c3, c4, e _ (by omega), e _ (by omega), e _ (by omega), e _ (by omega)]
  simp only [Nat.shiftLeft_eq]
  omega

/-- The entries that the encoding can carry. -/
def Carried (e : Entry) : Prop :=
  0 ≤ e.count ∧ e.count < 2 ^ 32 ∧ e.keySum < 2 ^ 32 ∧ e.keyCheck < 2 ^ 32 ∧ (e.count = 0 → e = {})

theorem decode_encode : ∀ (t : Table), (∀ e ∈ t, Carried e) →
    decodeRaw (encodeRaw t) = (t.map fun e => [e.count.toNat, e.keySum, e.keyCheck]).flatten
  | [], _ => rfl
  | e :: t, h => by
    have ih := decode_encode t (fun x hx => h x (List.mem_cons_of_mem _ hx))
    obtain ⟨h1, h2, h3, h4, _⟩ := h e (List.mem_cons_self ..)
    have hc : e.count = (e.count.toNat : Int) := by omega
    unfold encodeRaw at *
    simp only [List.map_cons, List.flatten_cons]
    have e1 : le4 e.count = le4 (e.count.toNat : Int) := by rw [← hc]
    rw [e1, List.append_assoc, List.append_assoc, le4_decode _ (by omega), le4_decode _ h3, le4_decode _ h4, ih]
    rfl

theorem fill_eq : ∀ (t t0 : Table), (∀ e ∈ t, Carried e) → t0 = empty t.length →
    fill t0 (t.map fun e => [e.count.toNat, e.keySum, e.keyCheck]).flatten = t
  | [], t0, _, h0 => by rw [h0]; rfl
  | e :: t, t0, h, h0 => by
    obtain ⟨h1, h2, h3, h4, h5⟩ := h e (List.mem_cons_self ..)
    have ih := fill_eq t _ (fun x hx => h x (List.mem_cons_of_mem _ hx)) rfl
    rw [h0]
    show (if e.count.toNat ≠ 0 then (⟨e.count.toNat, e.keySum, e.keyCheck⟩ : Entry) else {}) :: fill (empty t.length) _ = _
    congr 1
    by_cases hz : e.count = 0
    · rw [h5 hz]; rfl
    · rw [if_pos (by omega)]
      have hc : (e.count.toNat : Int) = e.count := by omega
      rw [hc]

/-- A table all of whose entries can be carried comes back from its encoding. -/
theorem wire_roundtrip (compress : Bytes → Bytes) (decompress : Bytes → Except Err Bytes)
    (hz : ∀ b, decompress (compress b) = .ok b) (t : Table) (ht : ∀ e ∈ t, Carried e) :
    initializeTable decompress (empty t.length) (encode compress t) = .ok t := by
  unfold initializeTable encode
  rw [hz]
  show (if 3 * (empty t.length).length ≠ (decodeRaw (encodeRaw t)).length then _ else _) = _
  rw [decode_encode t ht, fill_eq t _ ht rfl, if_neg]
  · rfl
  · rw [empty_length]
    have : ∀ t : Table, (t.map fun e => [e.count.toNat, e.keySum, e.keyCheck]).flatten.length = 3 * t.length := by
      intro t
      induction t with
      | nil => rfl
      | cons e t ih => simp only [List.map_cons, List.flatten_cons, List.length_append, ih, List.length_cons, List.length_nil]; omega
    rw [this]
    simp

theorem xorAll_lt : ∀ (l : List Nat), (∀ k ∈ l, k < 2 ^ 32) → xorAll l < 2 ^ 32
  | [], _ => by decide
  | k :: l, h => Nat.xor_lt_two_pow (h k (List.mem_cons_self ..))
      (xorAll_lt l fun x hx => h x (List.mem_cons_of_mem _ hx))

/-- The table of a set of 32-bit keys comes back from its encoding (which a sync Interest carries), if
the decompression undoes the compression. -/
theorem C56_wire (h : Hash) (compress : Bytes → Bytes) (decompress : Bytes → Except Err Bytes)
    (hz : ∀ b, decompress (compress b) = .ok b) (hh : ∀ k, h nHashCheck k < 2 ^ 32) (expected : Nat) (he : 0 < expected)
    (A : List Nat) (ops : List (Bool × Nat)) (hA : Holds A ops) (hlen : A.length < 2 ^ 32)
    (hk : ∀ k ∈ A, k < 2 ^ 32) :
    ∃ t, apply h (new expected) ops = .ok t ∧
      initializeTable decompress (new expected) (encode compress t) = .ok t := by
  obtain ⟨n, hnew, hnz⟩ := new_eq expected
  have hn := hnz he
  have hl : (empty n).length / nHash ≠ 0 := by rw [empty_length]; exact hn
  have ht : apply h (new expected) ops = .ok (runs h (empty n) (A.map fun k => ((1 : Int), k))) := by
    rw [hnew, apply_eq h _ _ hl]
    congr 1
    apply runs_total h _ hl (units_signed _)
    · intro x hx
      obtain ⟨k, _, rfl⟩ := List.mem_map.1 hx
      exact .inl rfl
    · intro k
      rw [total_signed, hA.2, total_const _ A _ hA.1]
  refine ⟨_, ht, ?_⟩
  have hlen' : (runs h (empty n) (A.map fun k => ((1 : Int), k))).length = n := by rw [runs_length, empty_length]
  rw [hnew]
  have hgoal := wire_roundtrip compress decompress hz (runs h (empty n) (A.map fun k => ((1 : Int), k)))
  rw [hlen'] at hgoal
  apply hgoal
  intro e he'
  obtain ⟨j, hj⟩ := List.mem_iff_getElem?.1 he'
  have hjn : j < n := by
    have := (List.getElem?_eq_some_iff.1 hj).1
    omega
  rw [runs_get h hn _ j hjn] at hj
  simp only [Option.some.injEq] at hj
  have hhere : here h n j (A.map fun k => ((1 : Int), k)) = (A.filter fun k => inB h n k j).map fun k => ((1 : Int), k) := by
    unfold here
    rw [List.filter_map]; rfl
  rw [hhere] at hj
  have hsub : ∀ k ∈ A.filter (fun k => inB h n k j), k ∈ A := fun k hk => (List.mem_filter.1 hk).1
  have hle : (A.filter fun k => inB h n k j).length ≤ A.length := List.length_filter_le ..
  generalize A.filter (fun k => inB h n k j) = l at hj hsub hle
  have hcount : ∀ l : List Nat, ((l.map fun k => ((1 : Int), k)).map Prod.fst).sum = l.length := by
    intro l
    induction l with
    | nil => rfl
    | cons a l ih =>
      simp only [List.map_cons, List.sum_cons, ih, List.length_cons]
      omega
  have hkeys : (l.map fun k => ((1 : Int), k)).map Prod.snd = l := by simp [Function.comp_def]
  unfold entryOf at hj
  rw [hcount, hkeys] at hj
  rw [← hj]
  refine ⟨by simp, by dsimp only; omega, xorAll_lt l fun k hk' => hk k (hsub k hk'), xorAll_lt _ ?_, ?_⟩
  · intro x hx
    obtain ⟨k, _, rfl⟩ := List.mem_map.1 hx
    exact hh k
  · intro h0
    have : l = [] := by
      cases l with
      | nil => rfl
      | cons => simp at h0; omega
    subst this
    rfl

/-- An encoding that does not have three values for each entry is refused. -/
theorem C56_wrong_size (decompress : Bytes → Except Err Bytes) (t : Table) (encoding raw : Bytes)
    (hz : decompress encoding = .ok raw) (hl : raw.length / 4 ≠ 3 * t.length) :
    initializeTable decompress t encoding = .error .runtime := by
  have hlen : ∀ (m : Nat) (b : Bytes), b.length ≤ m → (decodeRaw b).length = b.length / 4 := by
    intro m
    induction m with
    | zero =>
      intro b hb
      cases b with
      | nil => rfl
      | cons => simp at hb
    | succ m ih =>
      intro b hb
      match b with
      | [] => rfl
      | [_] => simp [decodeRaw]
      | [_, _] => simp [decodeRaw]
      | [_, _, _] => simp [decodeRaw]
      | a :: b :: c :: d :: rest =>
        simp only [decodeRaw, List.length_cons] at *
        rw [ih rest (by omega)]
        omega
  unfold initializeTable
  rw [hz]
  show (if 3 * t.length ≠ (decodeRaw raw).length then _ else _) = _
  rw [hlen _ raw (Nat.le_refl _), if_pos (fun h => hl h.symm)]

/-- The table of `C56_diverges` can arrive in an Interest. -/
theorem C56_diverges_on_the_wire (h : Hash) (compress : Bytes → Bytes) (decompress : Bytes → Except Err Bytes)
    (hz : ∀ b, decompress (compress b) = .ok b) (hh : ∀ k, h nHashCheck k < 2 ^ 32) (n k : Nat) (hn : 0 < n)
    (hk : k < 2 ^ 32) :
    initializeTable decompress (List.replicate n {}) (encode compress (⟨1, k, h nHashCheck k⟩ :: List.replicate (n - 1) {})) =
      .ok (⟨1, k, h nHashCheck k⟩ :: List.replicate (n - 1) {}) := by
  have := wire_roundtrip compress decompress hz (⟨1, k, h nHashCheck k⟩ :: List.replicate (n - 1) {}) (by
    intro e he
    rcases List.mem_cons.1 he with rfl | he
    · exact ⟨by simp, by simp, hk, hh k, fun h0 => absurd h0 (by simp)⟩
    · rw [List.eq_of_mem_replicate he]
      exact ⟨by decide, by decide, by decide, by decide, fun _ => rfl⟩)
  rw [show (⟨1, k, h nHashCheck k⟩ :: List.replicate (n - 1) ({} : Entry)).length = n by simp; omega] at this
  exact this

/-! ### Examples -/

/-- A hash for the examples. -/
def exHash : Hash := fun seed key => if seed = nHashCheck then 2 ^ key else key / (seed + 1)

/-- Sets with a difference of three keys, without collision. -/
theorem exNoCollision : NoCollision exHash (onlyIn [1, 2, 3, 9] [9, 4] ++ onlyIn [9, 4] [1, 2, 3, 9]) := by
  have hl : onlyIn [1, 2, 3, 9] [9, 4] ++ onlyIn [9, 4] [1, 2, 3, 9] = [1, 2, 3, 4] := by decide
  rw [hl]
  have hbit : ∀ (T : List Nat), T.Nodup → ∀ j, (xorAll (T.map (exHash nHashCheck))).testBit j = decide (j ∈ T) := by
    intro T
    induction T with
    | nil => intro _ j; simp [xorAll]
    | cons k T ih =>
      intro hnd j
      obtain ⟨h1, h2⟩ := List.nodup_cons.1 hnd
      rw [List.map_cons, xorAll_cons, Nat.testBit_xor, ih h2 j]
      have : exHash nHashCheck k = 2 ^ k := rfl
      rw [this, Nat.testBit_two_pow]
      by_cases hj : k = j
      · subst hj; simp [h1]
      · simp [hj, Ne.symm hj]
  constructor
  · intro T hnd _ hlen _ heq
    have hb := hbit T hnd
    rw [← heq] at hb
    have e : exHash nHashCheck (xorAll T) = 2 ^ xorAll T := rfl
    rw [e] at hb
    match T, hnd, hlen with
    | a :: b :: l, hnd, _ =>
      have ha := hb a
      have hb' := hb b
      rw [Nat.testBit_two_pow] at ha hb'
      simp at ha hb' hnd
      omega
  · intro T hnd _ hlen _ heq
    have hb := hbit T hnd
    rw [heq.2] at hb
    match T, hlen with
    | a :: l, _ =>
      have := hb a
      simp at this

/-- Here everything is found. -/
example : (do
    let a ← apply exHash (new 6) [(true, 9), (true, 1), (true, 7), (true, 2), (false, 7), (true, 3)]
    let b ← apply exHash (new 6) [(true, 4), (true, 9)]
    let d ← difference a b
    listEntries exHash 5 d) = .ok (some (true, [1, 2, 3], [4])) := by decide +kernel

example : Holds [1, 2, 3, 9] [(true, 9), (true, 1), (true, 7), (true, 2), (false, 7), (true, 3)] := by
  refine ⟨by decide, ?_⟩
  intro k
  by_cases h1 : k = 1
  · subst h1; decide
  by_cases h2 : k = 2
  · subst h2; decide
  by_cases h3 : k = 3
  · subst h3; decide
  by_cases h4 : k = 9
  · subst h4; decide
  by_cases h5 : k = 7
  · subst h5; decide
  simp [net, List.filter_cons, Ne.symm h1, Ne.symm h2, Ne.symm h3, Ne.symm h4, Ne.symm h5, h1, h2, h3, h4]

/-- A key in the wrong entry. -/
example : bucket exHash 6 0 1 ≠ 0 := by decide

end PyNDN.Props
