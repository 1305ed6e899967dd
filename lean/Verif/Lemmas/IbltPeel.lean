import Verif.Lemmas.Iblt
/-
Peeling an invertible Bloom lookup table.
-/
namespace PyNDN.Iblt
open PyNDN PyNDN.Spec.Iblt

theorem xorAll_cons (k : Nat) (l : List Nat) : xorAll (k :: l) = k ^^^ xorAll l := rfl

theorem xorAll_append : ∀ (a b : List Nat), xorAll (a ++ b) = xorAll a ^^^ xorAll b
  | [], b => by simp [xorAll]
  | k :: a, b => by
    rw [List.cons_append, xorAll_cons, xorAll_cons, xorAll_append a b, Nat.xor_assoc]

/-- The signed keys of an entry. -/
def here (h : Hash) (n j : Nat) (l : List (Int × Nat)) : List (Int × Nat) := l.filter fun x => inB h n x.2 j

/-- The entry with some signed keys. -/
def entryOf (h : Hash) (l : List (Int × Nat)) : Entry :=
  ⟨(l.map Prod.fst).sum, xorAll (l.map Prod.snd), xorAll ((l.map Prod.snd).map (h nHashCheck))⟩

theorem entryOf_concat (h : Hash) (l : List (Int × Nat)) (s : Int) (k : Nat) :
    entryOf h (l ++ [(s, k)]) = (entryOf h l).change h s k := by
  have e : ∀ k, xorAll [k] = k := fun k => by simp [xorAll]
  simp only [entryOf, Entry.change, List.map_append, List.map_cons, List.map_nil, xorAll_append, e,
    List.sum_append, List.sum_cons, List.sum_nil, Int.add_zero]

/-- The empty table. -/
def empty (n : Nat) : Table := List.replicate n {}

theorem runs_get (h : Hash) {n : Nat} (hn : n / nHash ≠ 0) : ∀ (l : List (Int × Nat)) (j : Nat), j < n →
    (runs h (empty n) l)[j]? = some (entryOf h (here h n j l)) := by
  intro l
  rw [← List.reverse_reverse l]
  induction l.reverse with
  | nil =>
    intro j hj
    simp [runs, empty, hj, here, entryOf, xorAll]
  | cons x m ih =>
    intro j hj
    rw [List.reverse_cons]
    generalize m.reverse = l at ih ⊢
    have hlen : (runs h (empty n) l).length = n := by rw [runs_length]; simp [empty]
    rw [runs_append]
    show (upd h (runs h (empty n) l) x.1 x.2)[j]? = _
    rw [upd_get h _ (by rw [hlen]; exact hn), hlen, ih j hj]
    simp only [Option.map_some, here, List.filter_append]
    congr 1
    by_cases hb : inB h n x.2 j = true
    · rw [if_pos hb]
      simp only [List.filter_cons, hb, if_true, List.filter_nil]
      exact (entryOf_concat ..).symm
    · rw [if_neg hb]
      simp [List.filter_cons, hb]

theorem empty_length (n : Nat) : (empty n).length = n := by simp [empty]

/-- The difference of two tables. -/
theorem difference_runs (h : Hash) {n : Nat} (hn : n / nHash ≠ 0) (a b : List (Int × Nat)) :
    difference (runs h (empty n) a) (runs h (empty n) b) =
      .ok (runs h (empty n) (a ++ b.map fun x => (-x.1, x.2))) := by
  unfold difference
  rw [if_neg (by simp [runs_length])]
  congr 1
  apply List.ext_getElem?
  intro j
  by_cases hj : j < n
  · rw [List.getElem?_zipWith, runs_get h hn a j hj, runs_get h hn b j hj, runs_get h hn _ j hj]
    simp only [here, List.filter_append, entryOf, List.map_append, xorAll_append, List.sum_append, Option.some.injEq,
      Entry.mk.injEq]
    have e1 : (b.map fun x => (-x.1, x.2)).filter (fun x => inB h n x.2 j) =
        (b.filter fun x => inB h n x.2 j).map fun x => (-x.1, x.2) := by
      rw [List.filter_map]; rfl
    rw [e1]
    refine ⟨?_, by simp [Function.comp_def], by simp [Function.comp_def]⟩
    have e2 : ∀ l : List (Int × Nat), ((l.map fun x => (-x.1, x.2)).map Prod.fst).sum = -(l.map Prod.fst).sum := by
      intro l
      induction l with
      | nil => rfl
      | cons x l ih =>
        simp only [List.map_cons, List.sum_cons, ih]
        omega
    rw [e2]
    omega
  · rw [List.getElem?_eq_none (by simp [runs_length, empty_length]; omega),
      List.getElem?_eq_none (by simp [runs_length, empty_length]; omega)]

/-! ### Pure entries -/

/-- Signed keys: every key once. -/
structure Distinct (R : List (Int × Nat)) : Prop where
  units : Units R
  nodup : (R.map Prod.snd).Nodup

theorem sum_parity : ∀ (l : List (Int × Nat)), Units l → ((l.map Prod.fst).sum - l.length) % 2 = 0
  | [], _ => rfl
  | x :: l, hu => by
    have ih := sum_parity l (fun y hy => hu y (List.mem_cons_of_mem _ hy))
    simp only [List.map_cons, List.sum_cons, List.length_cons]
    push_cast
    rcases hu x (List.mem_cons_self ..) with h1 | h1 <;> rw [h1] <;> omega

theorem here_sub {h : Hash} {n j : Nat} {R : List (Int × Nat)} : ∀ x ∈ here h n j R, x ∈ R :=
  fun _ hx => (List.mem_filter.1 hx).1

theorem here_distinct {h : Hash} {n : Nat} (j : Nat) {R : List (Int × Nat)} (hd : Distinct R) :
    Distinct (here h n j R) :=
  ⟨fun x hx => hd.1 x (here_sub x hx), hd.2.sublist (List.filter_sublist.map _)⟩

theorem xorAll_one (h : Nat) : xorAll [h] = h := by simp [xorAll]

/-- An entry that looks pure has exactly one key. -/
theorem pure_single {h : Hash} {n j : Nat} {R : List (Int × Nat)} (hd : Distinct R)
    (hc : NoCollision h (R.map Prod.snd)) (hp : (entryOf h (here h n j R)).isPure h = true) :
    ∃ x, here h n j R = [x] := by
  obtain ⟨hu, hnd⟩ := here_distinct (h := h) (n := n) j hd
  have hpar := sum_parity _ hu
  unfold Entry.isPure entryOf at hp
  simp only [Bool.and_eq_true, Bool.or_eq_true, beq_iff_eq] at hp
  obtain ⟨hp1, hp2⟩ := hp
  have hodd : (here h n j R).length % 2 = 1 := by omega
  by_cases hl : (here h n j R).length = 1
  · exact List.length_eq_one_iff.1 hl
  · have := hc.one ((here h n j R).map Prod.snd) hnd (by
      intro k hk
      obtain ⟨x, hx, rfl⟩ := List.mem_map.1 hk
      exact List.mem_map_of_mem (here_sub x hx)) (by rw [List.length_map]; omega) (by rw [List.length_map]; omega)
    exact absurd hp2.symm this

theorem single_pure {h : Hash} {n j : Nat} {R : List (Int × Nat)} {x : Int × Nat} (hd : Distinct R)
    (hx : here h n j R = [x]) : (entryOf h (here h n j R)).isPure h = true := by
  rw [hx]
  have hu := hd.1 x (here_sub x (by rw [hx]; simp))
  simp [Entry.isPure, entryOf, xorAll]
  exact hu

/-- An entry that looks empty has no key. -/
theorem empty_none {h : Hash} {n j : Nat} {R : List (Int × Nat)} (hd : Distinct R)
    (hc : NoCollision h (R.map Prod.snd)) (he : (entryOf h (here h n j R)).isEmpty = true) :
    here h n j R = [] := by
  obtain ⟨hu, hnd⟩ := here_distinct (h := h) (n := n) j hd
  have hpar := sum_parity _ hu
  unfold Entry.isEmpty entryOf at he
  simp only [Bool.and_eq_true, beq_iff_eq] at he
  obtain ⟨⟨h1, h2⟩, h3⟩ := he
  have heven : (here h n j R).length % 2 = 0 := by omega
  by_cases h4 : 4 ≤ (here h n j R).length
  · exfalso
    refine hc.none ((here h n j R).map Prod.snd) hnd ?_ (by simpa using h4) (by simpa using heven) ⟨h2, h3⟩
    intro k hk
    obtain ⟨x, hx, rfl⟩ := List.mem_map.1 hk
    exact List.mem_map_of_mem (here_sub x hx)
  · cases hm : here h n j R with
    | nil => rfl
    | cons x l =>
      rw [hm] at h2 hnd heven h4
      simp only [List.length_cons] at heven h4
      have hl : l.length = 1 := by omega
      obtain ⟨y, rfl⟩ := List.length_eq_one_iff.1 hl
      exfalso
      simp only [List.map_cons, List.map_nil, List.nodup_cons, List.mem_singleton] at hnd
      simp only [List.map_cons, List.map_nil, xorAll_cons] at h2
      have h5 : xorAll [] = 0 := rfl
      rw [h5, Nat.xor_zero] at h2
      have h6 : x.2 ^^^ y.2 ^^^ y.2 = 0 ^^^ y.2 := by rw [h2]
      rw [Nat.xor_assoc, Nat.xor_self, Nat.xor_zero, Nat.zero_xor] at h6
      exact hnd.1 h6

theorem inj_of_nodup {R : List (Int × Nat)} (hnd : (R.map Prod.snd).Nodup) {x y : Int × Nat} (hx : x ∈ R) (hy : y ∈ R)
    (he : x.2 = y.2) : x = y := by
  induction R with
  | nil => exact nomatch hx
  | cons a R ih =>
    rw [List.map_cons, List.nodup_cons] at hnd
    rcases List.mem_cons.1 hx with h1 | h1 <;> rcases List.mem_cons.1 hy with h2 | h2
    · rw [h1, h2]
    · exact absurd (by rw [← h1, he]; exact List.mem_map_of_mem h2) hnd.1
    · exact absurd (by rw [← h2, ← he]; exact List.mem_map_of_mem h1) hnd.1
    · exact ih hnd.2 h1 h2

theorem nodup_of_map : ∀ {R : List (Int × Nat)}, (R.map Prod.snd).Nodup → R.Nodup
  | [], _ => List.nodup_nil
  | x :: R, h => by
    rw [List.map_cons, List.nodup_cons] at h
    exact List.nodup_cons.2 ⟨fun hx => h.1 (List.mem_map_of_mem hx), nodup_of_map h.2⟩

/-! ### Peeling -/

theorem inB_iff {h : Hash} {n k j : Nat} : inB h n k j = true ↔ ∃ i, i < nHash ∧ bucket h n i k = j := by
  simp only [inB, Bool.or_eq_true, beq_iff_eq, nHash]
  constructor
  · rintro ((h1 | h1) | h1)
    · exact ⟨0, by omega, h1.symm⟩
    · exact ⟨1, by omega, h1.symm⟩
    · exact ⟨2, by omega, h1.symm⟩
  · rintro ⟨i, hi, h1⟩
    match i, hi with
    | 0, _ => exact .inl (.inl h1.symm)
    | 1, _ => exact .inl (.inr h1.symm)
    | 2, _ => exact .inr h1.symm

theorem bucket_index {h : Hash} {n : Nat} (hn : n / nHash ≠ 0) {i i' k k' : Nat} (hi : i < nHash) (hi' : i' < nHash)
    (he : bucket h n i k = bucket h n i' k') : i = i' := by
  have h1 := bucket_lt h hn k
  have h2 := bucket_lt h hn k'
  simp only [nHash] at hi hi'
  match i, hi, i', hi' with
  | 0, _, 0, _ => rfl
  | 0, _, 1, _ => omega
  | 0, _, 2, _ => omega
  | 1, _, 0, _ => omega
  | 1, _, 1, _ => rfl
  | 1, _, 2, _ => omega
  | 2, _, 0, _ => omega
  | 2, _, 1, _ => omega
  | 2, _, 2, _ => rfl

theorem bucket_lt_n {h : Hash} {n : Nat} (hn : n / nHash ≠ 0) {i : Nat} (hi : i < nHash) (k : Nat) : bucket h n i k < n := by
  have h1 := bucket_lt h hn k
  simp only [nHash] at hi
  match i, hi with
  | 0, _ => omega
  | 1, _ => omega
  | 2, _ => omega

/-- What holds while the table of `D` is peeled: the remaining keys. -/
structure Peeling (h : Hash) (n : Nat) (D : List (Int × Nat)) (p : Peel) (R : List (Int × Nat)) : Prop where
  table : p.table = runs h (empty n) R
  perm : D.Perm (R ++ (p.positive.map (fun k => ((1 : Int), k)) ++ p.negative.map (fun k => ((-1 : Int), k))))
  stuck : ∀ S, (∀ k ∈ S, k ∈ D.map Prod.snd) → Entangled h n S → ∀ k ∈ S, k ∈ R.map Prod.snd

theorem distinct_perm {a b : List (Int × Nat)} (hd : Distinct a) (hp : a.Perm b) : Distinct b :=
  ⟨fun x hx => hd.1 x (hp.mem_iff.2 hx), (hp.map _).nodup_iff.1 hd.2⟩

theorem distinct_left {a b : List (Int × Nat)} (hd : Distinct (a ++ b)) : Distinct a :=
  ⟨fun x hx => hd.1 x (List.mem_append_left _ hx), by
    have := hd.2
    rw [List.map_append] at this
    exact (List.nodup_append.1 this).1⟩

theorem noCollision_sub {h : Hash} {a b : List Nat} (hc : NoCollision h b) (hs : ∀ k ∈ a, k ∈ b) : NoCollision h a :=
  ⟨fun T h1 h2 => hc.one T h1 (fun k hk => hs k (h2 k hk)), fun T h1 h2 => hc.none T h1 (fun k hk => hs k (h2 k hk))⟩

theorem Peeling.remaining {h : Hash} {n : Nat} {D R : List (Int × Nat)} {p : Peel} (hd : Distinct D)
    (hc : NoCollision h (D.map Prod.snd)) (hi : Peeling h n D p R) : Distinct R ∧ NoCollision h (R.map Prod.snd) := by
  refine ⟨distinct_left (distinct_perm hd hi.perm), noCollision_sub hc ?_⟩
  intro k hk
  obtain ⟨x, hx, rfl⟩ := List.mem_map.1 hk
  exact List.mem_map_of_mem (hi.perm.mem_iff.2 (List.mem_append_left _ hx))

theorem Peeling.get {h : Hash} {n : Nat} (hn : n / nHash ≠ 0) {D R : List (Int × Nat)} {p : Peel}
    (hi : Peeling h n D p R) {j : Nat} (hj : j < n) : p.table[j]? = some (entryOf h (here h n j R)) := by
  rw [hi.table, runs_get h hn R j hj]

/-- One entry: nothing happens if it is not pure; otherwise a remaining key is taken. -/
theorem peelOne_spec {h : Hash} {n : Nat} (hn : n / nHash ≠ 0) {D R : List (Int × Nat)} {p : Peel} (hd : Distinct D)
    (hc : NoCollision h (D.map Prod.snd)) (hi : Peeling h n D p R) {j : Nat} (hj : j < n) :
    ((entryOf h (here h n j R)).isPure h = false ∧ peelOne h p j = .ok p) ∨
    ∃ p' R', peelOne h p j = .ok p' ∧ Peeling h n D p' R' ∧ R'.length + 1 = R.length ∧ p'.erased = p.erased + 1 := by
  unfold peelOne
  rw [hi.get hn hj]
  dsimp only
  cases hp : (entryOf h (here h n j R)).isPure h with
  | false => exact .inl ⟨rfl, by simp⟩
  | true =>
    right
    obtain ⟨hdR, hcR⟩ := hi.remaining hd hc
    obtain ⟨⟨s, k⟩, hx⟩ := pure_single hdR hcR hp
    have hxR : (s, k) ∈ R := here_sub _ (by rw [hx]; simp)
    have hxj : inB h n k j = true := by
      have : (s, k) ∈ here h n j R := by rw [hx]; simp
      exact (List.mem_filter.1 this).2
    have hlen : p.table.length = n := by rw [hi.table, runs_length, empty_length]
    have he : entryOf h (here h n j R) = ⟨s, k, h nHashCheck k⟩ := by rw [hx]; simp [entryOf, xorAll]
    have hs := hdR.1 _ hxR
    rw [if_pos rfl, he, update_eq, if_neg (by rw [hlen]; exact hn)]
    dsimp only
    have hperm := List.perm_cons_erase hxR
    have htab : upd h p.table (-s) k = runs h (empty n) (R.erase (s, k)) := by
      rw [hi.table, runs_perm h hperm _ (by rw [empty_length]; exact hn)]
      show upd h (runs h (upd h (empty n) s k) _) (-s) k = _
      rw [runs_upd h _ _ (by rw [empty_length]; exact hn), upd_cancel h _ (by rw [runs_length, empty_length]; exact hn)]
    have hfresh : k ∉ p.positive ∧ k ∉ p.negative := by
      have hnd := (distinct_perm hd hi.perm).2
      rw [List.map_append, List.nodup_append] at hnd
      have hk : k ∈ R.map Prod.snd := List.mem_map_of_mem hxR
      constructor
      · intro hm
        exact hnd.2.2 k hk k (by
          rw [List.map_append]
          refine List.mem_append_left _ ?_
          rw [List.map_map]
          exact List.mem_map.2 ⟨k, hm, rfl⟩) rfl
      · intro hm
        exact hnd.2.2 k hk k (by
          rw [List.map_append]
          refine List.mem_append_right _ ?_
          rw [List.map_map]
          exact List.mem_map.2 ⟨k, hm, rfl⟩) rfl
    refine ⟨_, R.erase (s, k), rfl, ⟨htab, ?_, ?_⟩, ?_, rfl⟩
    · refine hi.perm.trans ?_
      refine (hperm.append_right _).trans ?_
      simp only [addTo, if_neg hfresh.1, if_neg hfresh.2]
      rcases hs with h1 | h1 <;> dsimp only at h1 <;> subst h1
      · rw [if_pos rfl, if_pos rfl]
        simp only [List.map_cons, List.cons_append]
        exact List.perm_middle.symm
      · rw [if_neg (by omega), if_neg (by omega)]
        simp only [List.map_cons, List.cons_append]
        rw [← List.append_assoc, ← List.append_assoc]
        exact List.perm_middle.symm
    · intro S hS hE k' hk'
      have hkR := hi.stuck S hS hE k' hk'
      obtain ⟨⟨s', k''⟩, hm, rfl⟩ := List.mem_map.1 hkR
      have hne : (s', k'') ≠ (s, k) := by
        intro heq
        simp only [Prod.mk.injEq] at heq
        obtain ⟨rfl, rfl⟩ := heq
        obtain ⟨i, hilt, hib⟩ := inB_iff.1 hxj
        obtain ⟨k2, hk2, hne, hb⟩ := hE.2 _ hk' i hilt
        obtain ⟨⟨s2, k2'⟩, hm2, h2⟩ := List.mem_map.1 (hi.stuck S hS hE k2 hk2)
        dsimp only at h2 hne hb
        subst h2
        have : (s2, k2') ∈ here h n j R := List.mem_filter.2 ⟨hm2, inB_iff.2 ⟨i, hilt, by rw [hb, hib]⟩⟩
        rw [hx, List.mem_singleton] at this
        simp only [Prod.mk.injEq] at this
        exact hne this.2
      exact List.mem_map_of_mem ((List.mem_erase_of_ne hne).2 hm)
    · rw [List.length_erase_of_mem hxR]
      have := List.length_pos_of_mem hxR
      omega

/-- The entries of a list of indices, in order. -/
theorem peelFold_spec {h : Hash} {n : Nat} (hn : n / nHash ≠ 0) {D : List (Int × Nat)} (hd : Distinct D)
    (hc : NoCollision h (D.map Prod.snd)) : ∀ (js : List Nat) (R : List (Int × Nat)) (p : Peel), (∀ j ∈ js, j < n) →
    Peeling h n D p R →
    ∃ p' R', js.foldlM (peelOne h) p = .ok p' ∧ Peeling h n D p' R' ∧ R'.length + p'.erased = R.length + p.erased ∧
      p.erased ≤ p'.erased ∧
      (p'.erased = p.erased → p' = p ∧ ∀ j ∈ js, (entryOf h (here h n j R)).isPure h = false)
  | [], R, p, _, hi => ⟨p, R, rfl, hi, rfl, Nat.le_refl _, fun _ => ⟨rfl, fun _ h => nomatch h⟩⟩
  | j :: js, R, p, hjs, hi => by
    rw [List.foldlM_cons]
    rcases peelOne_spec hn hd hc hi (hjs j (List.mem_cons_self ..)) with ⟨h1, h2⟩ | ⟨p1, R1, h1, h2, h3, h4⟩
    · rw [h2]
      obtain ⟨p', R', a1, a2, a3, a4, a5⟩ := peelFold_spec hn hd hc js R p
        (fun x hx => hjs x (List.mem_cons_of_mem _ hx)) hi
      refine ⟨p', R', a1, a2, a3, a4, fun he => ⟨(a5 he).1, ?_⟩⟩
      intro x hx
      rcases List.mem_cons.1 hx with rfl | hx
      · exact h1
      · exact (a5 he).2 x hx
    · rw [h1]
      obtain ⟨p', R', a1, a2, a3, a4, a5⟩ := peelFold_spec hn hd hc js R1 p1
        (fun x hx => hjs x (List.mem_cons_of_mem _ hx)) h2
      exact ⟨p', R', a1, a2, by omega, by omega, fun he => absurd he (by omega)⟩

/-- The loop ends, with no pure entry left. -/
theorem peelLoop_spec {h : Hash} {n : Nat} (hn : n / nHash ≠ 0) {D : List (Int × Nat)} (hd : Distinct D)
    (hc : NoCollision h (D.map Prod.snd)) : ∀ (m : Nat) (R : List (Int × Nat)) (p : Peel), R.length ≤ m →
    Peeling h n D p R →
    ∃ p' R', (∀ fuel, m < fuel → peelLoop h fuel p = .ok (some p')) ∧ Peeling h n D p' R' ∧
      ∀ j, j < n → (entryOf h (here h n j R')).isPure h = false := by
  intro m
  induction m with
  | zero =>
    intro R p hR hi
    have hi0 : Peeling h n D { p with erased := 0 } R := ⟨hi.table, hi.perm, hi.stuck⟩
    have hlen : p.table.length = n := by rw [hi.table, runs_length, empty_length]
    obtain ⟨p', R', a1, a2, a3, a4, a5⟩ := peelFold_spec hn hd hc (List.range n) R _
      (fun j hj => List.mem_range.1 hj) hi0
    dsimp only at a3 a5
    have he : p'.erased = 0 := by omega
    refine ⟨p', R, ?_, ?_, ?_⟩
    · intro fuel hf
      match fuel, hf with
      | fuel + 1, _ =>
        have e : peelLoop h (fuel + 1) p = (do
            let p ← peelRound h p
            if p.erased > 0 then peelLoop h fuel p else return some p) := rfl
        rw [e]
        unfold peelRound
        rw [hlen, a1]
        show (if p'.erased > 0 then _ else _) = _
        rw [if_neg (by omega)]; rfl
    · rw [(a5 he).1]; exact hi0
    · exact fun j hj => (a5 he).2 j (List.mem_range.2 hj)
  | succ m ih =>
    intro R p hR hi
    have hi0 : Peeling h n D { p with erased := 0 } R := ⟨hi.table, hi.perm, hi.stuck⟩
    have hlen : p.table.length = n := by rw [hi.table, runs_length, empty_length]
    obtain ⟨p', R', a1, a2, a3, a4, a5⟩ := peelFold_spec hn hd hc (List.range n) R _
      (fun j hj => List.mem_range.1 hj) hi0
    dsimp only at a3 a5
    have hstep : ∀ fuel, peelLoop h (fuel + 1) p =
        if p'.erased > 0 then peelLoop h fuel p' else .ok (some p') := by
      intro fuel
      have e : peelLoop h (fuel + 1) p = (do
          let p ← peelRound h p
          if p.erased > 0 then peelLoop h fuel p else return some p) := rfl
      rw [e]
      unfold peelRound
      rw [hlen, a1]; rfl
    by_cases he : p'.erased = 0
    · refine ⟨p', R, ?_, ?_, ?_⟩
      · intro fuel hf
        match fuel, hf with
        | fuel + 1, _ => rw [hstep, if_neg (by omega)]
      · rw [(a5 he).1]; exact hi0
      · exact fun j hj => (a5 he).2 j (List.mem_range.2 hj)
    · obtain ⟨p2, R2, b1, b2, b3⟩ := ih R' p' (by omega) a2
      refine ⟨p2, R2, ?_, b2, b3⟩
      intro fuel hf
      match fuel, hf with
      | fuel + 1, hf => rw [hstep, if_pos (by omega)]; exact b1 fuel (by omega)

end PyNDN.Iblt
