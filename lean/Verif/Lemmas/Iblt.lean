import Verif.Spec.Iblt
import Mathlib.Tactic.Linarith
import Mathlib.Tactic.Ring
/-
Lemmas on the invertible Bloom lookup table.
-/
namespace PyNDN.Iblt
open PyNDN PyNDN.Spec.Iblt

/-- `_update` when it does not raise. -/
def upd (h : Hash) (t : Table) (s : Int) (k : Nat) : Table :=
  (List.range nHash).foldl (fun t' i => t'.modify (bucket h t.length i k) (Entry.change h s k)) t

theorem update_eq (h : Hash) (t : Table) (s : Int) (k : Nat) :
    update h t s k = if t.length / nHash = 0 then .error .arithmetic else .ok (upd h t s k) := rfl

/-- The entries of a key. -/
def inB (h : Hash) (n k j : Nat) : Bool :=
  j == bucket h n 0 k || j == bucket h n 1 k || j == bucket h n 2 k

theorem bucket_lt (h : Hash) {n : Nat} (hn : n / nHash ≠ 0) (k : Nat) :
    bucket h n 0 k < n / 3 ∧ n / 3 ≤ bucket h n 1 k ∧ bucket h n 1 k < 2 * (n / 3) ∧
    2 * (n / 3) ≤ bucket h n 2 k ∧ bucket h n 2 k < 3 * (n / 3) ∧ 3 * (n / 3) ≤ n := by
  unfold bucket
  simp only [nHash] at *
  have h0 := Nat.mod_lt (h 0 k) (Nat.pos_of_ne_zero hn)
  have h1 := Nat.mod_lt (h 1 k) (Nat.pos_of_ne_zero hn)
  have h2 := Nat.mod_lt (h 2 k) (Nat.pos_of_ne_zero hn)
  omega

theorem upd_length (h : Hash) (t : Table) (s : Int) (k : Nat) : (upd h t s k).length = t.length := by
  simp [upd, nHash, List.range_succ]

theorem upd_get (h : Hash) (t : Table) (hn : t.length / nHash ≠ 0) (s : Int) (k j : Nat) :
    (upd h t s k)[j]? = (t[j]?).map fun e => if inB h t.length k j then e.change h s k else e := by
  have hb := bucket_lt h hn k
  simp only [upd, nHash, List.range_succ, List.range_zero, List.nil_append, List.cons_append,
    List.foldl_cons, List.foldl_nil, List.getElem?_modify, inB]
  cases t[j]? with
  | none => simp
  | some e =>
    simp only [Option.map_some]
    congr 1
    by_cases h0 : bucket h t.length 0 k = j
    · have h1 : bucket h t.length 1 k ≠ j := by omega
      have h2 : bucket h t.length 2 k ≠ j := by omega
      simp [h0, h1, h2]
    · by_cases h1 : bucket h t.length 1 k = j
      · have h2 : bucket h t.length 2 k ≠ j := by omega
        simp [h0, h1, h2, Ne.symm h0]
      · by_cases h2 : bucket h t.length 2 k = j
        · simp [h0, h1, h2, Ne.symm h0, Ne.symm h1]
        · simp [h0, h1, h2, Ne.symm h0, Ne.symm h1, Ne.symm h2]

theorem change_comm (h : Hash) (s s' : Int) (k k' : Nat) (e : Entry) :
    (e.change h s k).change h s' k' = (e.change h s' k').change h s k := by
  simp only [Entry.change, Entry.mk.injEq]
  refine ⟨by omega, ?_, ?_⟩
  · rw [Nat.xor_assoc, Nat.xor_comm k k', Nat.xor_assoc]
  · rw [Nat.xor_assoc, Nat.xor_comm (h nHashCheck k), Nat.xor_assoc]

theorem change_cancel (h : Hash) (s : Int) (k : Nat) (e : Entry) : (e.change h s k).change h (-s) k = e := by
  cases e
  simp only [Entry.change, Entry.mk.injEq]
  refine ⟨by omega, ?_, ?_⟩
  · rw [Nat.xor_assoc, Nat.xor_self, Nat.xor_zero]
  · rw [Nat.xor_assoc, Nat.xor_self, Nat.xor_zero]

theorem upd_comm (h : Hash) (t : Table) (hn : t.length / nHash ≠ 0) (s s' : Int) (k k' : Nat) :
    upd h (upd h t s k) s' k' = upd h (upd h t s' k') s k := by
  apply List.ext_getElem?
  intro j
  rw [upd_get h _ (by rw [upd_length]; exact hn), upd_get h _ hn, upd_get h _ (by rw [upd_length]; exact hn),
    upd_get h _ hn, upd_length, upd_length]
  cases t[j]? with
  | none => rfl
  | some e =>
    simp only [Option.map_some]
    congr 1
    split <;> split <;> first | rfl | exact change_comm ..

theorem upd_cancel (h : Hash) (t : Table) (hn : t.length / nHash ≠ 0) (s : Int) (k : Nat) :
    upd h (upd h t s k) (-s) k = t := by
  apply List.ext_getElem?
  intro j
  rw [upd_get h _ (by rw [upd_length]; exact hn), upd_get h _ hn, upd_length]
  cases t[j]? with
  | none => rfl
  | some e =>
    simp only [Option.map_some]
    congr 1
    split
    · exact change_cancel ..
    · rfl

/-! ### Histories -/

/-- A list of signed keys, in order. -/
def runs (h : Hash) (t : Table) (l : List (Int × Nat)) : Table := l.foldl (fun t x => upd h t x.1 x.2) t

theorem runs_length (h : Hash) : ∀ (l : List (Int × Nat)) (t : Table), (runs h t l).length = t.length
  | [], _ => rfl
  | x :: l, t => by
    show (runs h (upd h t x.1 x.2) l).length = _
    rw [runs_length h l, upd_length]

theorem runs_append (h : Hash) (t : Table) (a b : List (Int × Nat)) : runs h t (a ++ b) = runs h (runs h t a) b := by
  simp [runs]

theorem runs_upd (h : Hash) : ∀ (l : List (Int × Nat)) (t : Table), t.length / nHash ≠ 0 → ∀ (s : Int) (k : Nat),
    runs h (upd h t s k) l = upd h (runs h t l) s k
  | [], _, _, _, _ => rfl
  | x :: l, t, hn, s, k => by
    show runs h (upd h (upd h t s k) x.1 x.2) l = upd h (runs h (upd h t x.1 x.2) l) s k
    rw [upd_comm h t hn, runs_upd h l _ (by rw [upd_length]; exact hn)]

theorem runs_perm (h : Hash) {a b : List (Int × Nat)} (hp : a.Perm b) : ∀ (t : Table), t.length / nHash ≠ 0 →
    runs h t a = runs h t b := by
  induction hp with
  | nil => intro t _; rfl
  | cons x _ ih =>
    intro t hn
    exact ih (upd h t x.1 x.2) (by rw [upd_length]; exact hn)
  | swap x y l =>
    intro t hn
    show runs h (upd h (upd h t y.1 y.2) x.1 x.2) l = runs h (upd h (upd h t x.1 x.2) y.1 y.2) l
    rw [upd_comm h t hn]
  | trans _ _ ih1 ih2 =>
    intro t hn
    rw [ih1 t hn, ih2 t hn]

/-- The operations as signed keys. -/
def signed (o : Bool × Nat) : Int × Nat := (if o.1 then 1 else -1, o.2)

theorem apply_eq (h : Hash) : ∀ (ops : List (Bool × Nat)) (t : Table), t.length / nHash ≠ 0 →
    apply h t ops = .ok (runs h t (ops.map signed))
  | [], _, _ => rfl
  | (true, k) :: ops, t, hn => by
    unfold apply insert
    rw [update_eq, if_neg hn]
    exact apply_eq h ops _ (by rw [upd_length]; exact hn)
  | (false, k) :: ops, t, hn => by
    unfold apply erase
    rw [update_eq, if_neg hn]
    exact apply_eq h ops _ (by rw [upd_length]; exact hn)

/-- The sum of the signs of a key. -/
def total (l : List (Int × Nat)) (k : Nat) : Int := ((l.filter fun x => x.2 == k).map Prod.fst).sum

theorem total_append (a b : List (Int × Nat)) (k : Nat) : total (a ++ b) k = total a k + total b k := by
  simp [total]

theorem sum_perm {a b : List Int} (hp : a.Perm b) : a.sum = b.sum := by
  induction hp with
  | nil => rfl
  | cons x _ ih => simp only [List.sum_cons, ih]
  | swap x y l => simp only [List.sum_cons]; omega
  | trans _ _ h1 h2 => exact h1.trans h2

theorem total_perm {a b : List (Int × Nat)} (hp : a.Perm b) (k : Nat) : total a k = total b k :=
  sum_perm ((hp.filter _).map _)

theorem total_signed : ∀ (ops : List (Bool × Nat)) (k : Nat), total (ops.map signed) k = net ops k
  | [], k => rfl
  | (b, k') :: ops, k => by
    have ih := total_signed ops k
    have e1 : total (((b, k') :: ops).map signed) k = (if k' = k then (if b then 1 else -1) else 0) + total (ops.map signed) k := by
      by_cases hk : k' = k <;> simp [total, signed, List.filter_cons, hk]
    have e2 : net ((b, k') :: ops) k = (if k' = k then (if b then 1 else -1) else 0) + net ops k := by
      by_cases hk : k' = k <;> cases b <;> simp [net, List.filter_cons, hk] <;> omega
    rw [e1, e2, ih]

def Units (l : List (Int × Nat)) : Prop := ∀ x ∈ l, x.1 = 1 ∨ x.1 = -1

theorem units_signed (ops : List (Bool × Nat)) : Units (ops.map signed) := by
  intro x hx
  obtain ⟨o, _, rfl⟩ := List.mem_map.1 hx
  unfold signed
  split <;> simp

/-- A list in which all keys cancel changes nothing. -/
theorem runs_zero (h : Hash) (t : Table) (hn : t.length / nHash ≠ 0) : ∀ (m : Nat) (l : List (Int × Nat)),
    l.length ≤ m → Units l → (∀ k, total l k = 0) → runs h t l = t := by
  intro m
  induction m with
  | zero =>
    intro l hl _ _
    cases l with
    | nil => rfl
    | cons => simp at hl
  | succ m ih =>
    intro l hl hu hz
    cases l with
    | nil => rfl
    | cons x l =>
      obtain ⟨s, k⟩ := x
      have hs := hu _ (List.mem_cons_self ..)
      have hk := hz k
      have hmem : (-s, k) ∈ l := by
        by_contra hno
        have hall : ∀ x ∈ l.filter (fun x => x.2 == k), x.1 = s := by
          intro x hx
          obtain ⟨hx1, hx2⟩ := List.mem_filter.1 hx
          have hx3 : x.2 = k := by simpa using hx2
          rcases hu x (List.mem_cons_of_mem _ hx1) with h1 | h1 <;> rcases hs with h2 | h2 <;> dsimp only at h2
          · rw [h1, h2]
          · exact absurd (by rw [h2, ← hx3]; simpa [← h1] using hx1) hno
          · exact absurd (by rw [h2, ← hx3]; simpa [← h1] using hx1) hno
          · rw [h1, h2]
        have hsum : ∀ l : List Int, (∀ x ∈ l, x = s) → l.sum = l.length * s := by
          intro l
          induction l with
          | nil => simp
          | cons a l ih =>
            intro hl
            rw [List.sum_cons, ih (fun x hx => hl x (List.mem_cons_of_mem _ hx)), hl a (List.mem_cons_self ..)]
            simp only [List.length_cons]
            push_cast
            ring
        have h1 : total ((s, k) :: l) k = s + ((l.filter fun x => x.2 == k).map Prod.fst).sum := by
          simp [total]
        rw [h1, hsum _ (by
          intro x hx
          obtain ⟨y, hy, rfl⟩ := List.mem_map.1 hx
          exact hall y hy)] at hk
        rcases hs with h2 | h2 <;> dsimp only at h2 <;> subst h2 <;> omega
      have hp : ((s, k) :: l).Perm ((s, k) :: (-s, k) :: l.erase (-s, k)) :=
        (List.perm_cons_erase hmem).cons _
      rw [runs_perm h hp t hn]
      show runs h (upd h (upd h t s k) (-s) k) _ = t
      rw [upd_cancel h t hn]
      refine ih _ ?_ ?_ ?_
      · have := List.length_erase_of_mem hmem
        simp only [List.length_cons] at hl
        omega
      · intro x hx
        exact hu x (List.mem_cons_of_mem _ (List.mem_of_mem_erase hx))
      · intro k'
        have := total_perm hp k'
        rw [hz k'] at this
        have h2 : total ((s, k) :: (-s, k) :: l.erase (-s, k)) k' = total (l.erase (-s, k)) k' := by
          unfold total
          by_cases hkk : k = k'
          · subst hkk; simp
          · simp [hkk]
        rw [← h2]; exact this.symm

theorem runs_total (h : Hash) (t : Table) (hn : t.length / nHash ≠ 0) {a b : List (Int × Nat)} (ha : Units a)
    (hb : Units b) (ht : ∀ k, total a k = total b k) : runs h t a = runs h t b := by
  let b' := b.map fun x => (-x.1, x.2)
  have hb' : Units b' := by
    intro x hx
    obtain ⟨y, hy, rfl⟩ := List.mem_map.1 hx
    rcases hb y hy with h1 | h1 <;> simp [h1]
  have htb : ∀ k, total b' k = - total b k := by
    intro k
    simp only [total, b']
    clear hb hb' ht
    induction b with
    | nil => rfl
    | cons x b ih =>
      by_cases hk : x.2 = k
      · simp [List.filter_cons, hk] at ih ⊢
        rw [ih]; omega
      · simp [List.filter_cons, hk] at ih ⊢
        exact ih
  have hu : ∀ {x y : List (Int × Nat)}, Units x → Units y → Units (x ++ y) := by
    intro x y hx hy z hz
    rcases List.mem_append.1 hz with hz | hz
    · exact hx z hz
    · exact hy z hz
  have h1 : runs h t (a ++ (b' ++ b)) = runs h t a := by
    rw [runs_append]
    exact runs_zero h _ (by rw [runs_length]; exact hn) _ _ (Nat.le_refl _) (hu hb' hb)
      (fun k => by rw [total_append, htb]; omega)
  have h2 : runs h t (b ++ (b' ++ a)) = runs h t b := by
    rw [runs_append]
    exact runs_zero h _ (by rw [runs_length]; exact hn) _ _ (Nat.le_refl _) (hu hb' ha)
      (fun k => by rw [total_append, htb, ht]; omega)
  rw [← h1, ← h2]
  apply runs_perm h _ t hn
  have e1 : (a ++ (b' ++ b)).Perm ((b' ++ b) ++ a) := List.perm_append_comm
  have e2 : ((b' ++ b) ++ a).Perm ((b ++ b') ++ a) := List.perm_append_comm.append_right a
  exact e1.trans (e2.trans (by rw [List.append_assoc]))

end PyNDN.Iblt
