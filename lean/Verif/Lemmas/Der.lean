import Verif.Spec.Der
/-
Lemmas for C71: numbers, headers, encoding.
-/
namespace PyNDN.Der
open Spec.Der

/-! ### Numbers -/

theorem number_snoc (base : Nat) (l : List Nat) (x : Nat) : number base (l ++ [x]) = number base l * base + x := by
  induction l with
  | nil => simp [number]
  | cons b r ih =>
    show b * base ^ (r ++ [x]).length + number base (r ++ [x]) = (b * base ^ r.length + number base r) * base + x
    rw [ih, List.length_append, List.length_singleton, Nat.pow_succ, Nat.add_mul, Nat.mul_assoc, Nat.add_assoc]

theorem number_lt (base : Nat) (l : List Nat) (h : ∀ x ∈ l, x < base) : number base l < base ^ l.length := by
  induction l with
  | nil => exact Nat.one_pos
  | cons b r ih =>
    have h1 := ih fun x hx => h x (List.mem_cons_of_mem _ hx)
    have h2 := h b (List.mem_cons_self ..)
    show b * base ^ r.length + number base r < base ^ (r.length + 1)
    rw [Nat.pow_succ]
    calc b * base ^ r.length + number base r < b * base ^ r.length + base ^ r.length := by omega
      _ = (b + 1) * base ^ r.length := by rw [Nat.add_mul, Nat.one_mul]
      _ ≤ base * base ^ r.length := Nat.mul_le_mul_right _ h2
      _ = base ^ r.length * base := Nat.mul_comm ..

theorem beBytes_pos {n : Nat} (h : n ≠ 0) : beBytes n = beBytes (n / 256) ++ [UInt8.ofNat (n % 256)] := by
  rw [beBytes, if_neg h]

theorem beBytes_zero : beBytes 0 = [] := by rw [beBytes, if_pos rfl]

theorem beBytes_number (n : Nat) : number 256 ((beBytes n).map (·.toNat)) = n := by
  induction n using Nat.strongRecOn with
  | ind n ih =>
    by_cases h : n = 0
    · rw [h, beBytes_zero]; rfl
    · rw [beBytes_pos h, List.map_append, List.map_singleton, number_snoc, ih _ (by omega), UInt8.toNat_ofNat']
      omega

theorem beBytes_head (n : Nat) : n ≠ 0 → ∃ b r, beBytes n = b :: r ∧ b ≠ 0 := by
  induction n using Nat.strongRecOn with
  | ind n ih =>
    intro h
    rw [beBytes_pos h]
    by_cases h2 : n / 256 = 0
    · refine ⟨UInt8.ofNat (n % 256), [], by rw [h2, beBytes_zero]; rfl, fun hc => h ?_⟩
      have := congrArg UInt8.toNat hc
      rw [UInt8.toNat_ofNat'] at this
      have h0 : (0 : UInt8).toNat = 0 := rfl
      omega
    · obtain ⟨b, r, hb, h0⟩ := ih (n / 256) (by omega) h2
      exact ⟨b, r ++ [UInt8.ofNat (n % 256)], by rw [hb]; rfl, h0⟩

theorem beBytes_length (k n : Nat) (h : n < 256 ^ k) : (beBytes n).length ≤ k := by
  induction k generalizing n with
  | zero =>
    rw [show n = 0 by omega, beBytes_zero]
    exact Nat.le_refl _
  | succ k ih =>
    by_cases h0 : n = 0
    · rw [h0, beBytes_zero]; exact Nat.zero_le _
    · rw [beBytes_pos h0, List.length_append, List.length_singleton]
      have := ih (n / 256) (by rw [Nat.pow_succ] at h; omega)
      omega

/-- The only bytes of a number that do not begin with 0. -/
theorem beBytes_unique (l : Bytes) (h : ∀ b r, l = b :: r → b ≠ 0) : beBytes (number 256 (l.map (·.toNat))) = l := by
  induction hn : l.length generalizing l with
  | zero => rw [List.eq_nil_of_length_eq_zero hn]; exact beBytes_zero
  | succ k ih =>
    rcases List.eq_nil_or_concat l with rfl | ⟨l', x, rfl⟩
    · exact beBytes_zero
    · rw [List.concat_eq_append] at *
      have hx := x.toNat_lt
      have h' : ∀ b r, l' = b :: r → b ≠ 0 := fun b r e => h b (r ++ [x]) (by rw [e]; rfl)
      have ih := ih l' h' (by simpa using hn)
      rw [List.map_append, List.map_singleton, number_snoc]
      have h0 : number 256 (l'.map (·.toNat)) * 256 + x.toNat ≠ 0 := by
        intro hc
        rcases l' with _ | ⟨b, r⟩
        · refine h x [] rfl (UInt8.toNat_inj.mp ?_)
          have h0 : (0 : UInt8).toNat = 0 := rfl
          omega
        · have := ih
          rw [show number 256 ((b :: r).map (·.toNat)) = 0 by omega, beBytes_zero] at this
          cases this
      rw [beBytes_pos h0, show (number 256 (l'.map (·.toNat)) * 256 + x.toNat) / 256 = number 256 (l'.map (·.toNat)) by omega,
        show (number 256 (l'.map (·.toNat)) * 256 + x.toNat) % 256 = x.toNat by omega, ih, UInt8.ofNat_toNat]

/-! ### Headers -/

theorem or128 (k : Nat) (h : k < 128) : (UInt8.ofNat (128 ||| k)).toNat = 128 + k := by
  have : ∀ k : Fin 128, (UInt8.ofNat (128 ||| k.val)).toNat = 128 + k.val := by decide +kernel
  exact this ⟨k, h⟩

/-- The code makes the length octets of X.690. -/
theorem header_isLength (t : UInt8) (n : Nat) (h : n < 256 ^ 126) : ∃ l, header t n = t :: l ∧ IsLength n l := by
  unfold header
  split
  · next hs =>
    refine ⟨_, rfl, .inl ⟨hs, ?_⟩⟩
    simp only [List.map_cons, List.map_nil, UInt8.toNat_ofNat', List.cons.injEq, and_true]
    omega
  · next hs =>
    have hl := beBytes_length 126 n h
    obtain ⟨b, r, hb, h0⟩ := beBytes_head n (by omega)
    refine ⟨_, rfl, .inr ⟨by omega, UInt8.ofNat (128 ||| (beBytes n).length), b, r, by rw [hb], ?_, h0, ?_⟩⟩
    · rw [or128 _ (by omega), hb]
    · rw [← hb, beBytes_number]

/-- They are the only ones. -/
theorem isLength_header {n : Nat} {l : Bytes} (t : UInt8) (h : IsLength n l) (hn : n < 256 ^ 126) : t :: l = header t n := by
  unfold header
  rcases h with ⟨h1, h2⟩ | ⟨h1, k, b, r, rfl, h2, h3, h4⟩
  · rw [if_pos h1]
    rcases l with _ | ⟨x, _ | ⟨y, l⟩⟩
    · cases h2
    · simp only [List.map_cons, List.map_nil, List.cons.injEq, and_true] at h2
      rw [← h2, UInt8.ofNat_toNat]
    · simp at h2
  · rw [if_neg (by omega)]
    have hu := beBytes_unique (b :: r) (fun b' r' e => by cases e; exact h3)
    rw [h4] at hu
    have hl := beBytes_length 126 n hn
    have e1 : k = UInt8.ofNat (128 ||| (b :: r).length) := by
      apply UInt8.toNat_inj.mp
      rw [or128 _ (by rw [← hu]; omega), h2]
    rw [hu, e1]

theorem header_length (t : UInt8) (n : Nat) : 2 ≤ (header t n).length := by
  unfold header
  split <;> simp

/-! ### The encoding as a function -/

mutual
def der : Tree → Bytes
  | .prim tag c => header tag c.length ++ c
  | .seq items => header 48 (ders items).length ++ ders items
def ders : List Tree → Bytes
  | [] => []
  | t :: ts => der t ++ ders ts
end

mutual
theorem isDer_der : (t : Tree) → Known t → IsDer t (der t)
  | .prim tag c, h => by
    obtain ⟨l, h1, h2⟩ := header_isLength tag c.length h.2
    exact ⟨l, h2, by rw [der, h1]; rfl⟩
  | .seq items, h => by
    have h1 := isDers_ders items h.1
    obtain ⟨l, h2, h3⟩ := header_isLength 48 (ders items).length (h.2 _ h1)
    exact ⟨l, ders items, h1, h3, by rw [der, h2]; rfl⟩
theorem isDers_ders : (ts : List Tree) → Knowns ts → IsDers ts (ders ts)
  | [], _ => rfl
  | t :: ts, h => ⟨der t, ders ts, isDer_der t h.1, isDers_ders ts h.2, rfl⟩
end

mutual
theorem der_unique : (t : Tree) → Known t → ∀ b, IsDer t b → b = der t
  | .prim tag c, h, b, hb => by
    obtain ⟨l, h1, rfl⟩ := hb
    rw [der, ← isLength_header tag h1 h.2]
    rfl
  | .seq items, h, b, hb => by
    obtain ⟨l, body, h1, h2, rfl⟩ := hb
    rw [der, ← ders_unique items h.1 _ h1, ← isLength_header 48 h2 (h.2 _ h1)]
    rfl
theorem ders_unique : (ts : List Tree) → Knowns ts → ∀ b, IsDers ts b → b = ders ts
  | [], _, b, hb => hb
  | t :: ts, h, b, hb => by
    obtain ⟨x, y, h1, h2, rfl⟩ := hb
    rw [ders, ← der_unique t h.1 x h1, ← ders_unique ts h.2 y h2]
end

/-! ### Nodes whose sizes are right -/

mutual
/-- The header of a leaf is that of its payload; the size of a sequence that is not marked is right. -/
def Good : Node → Prop
  | .leaf t h p => h = header t p.length
  | .seq _ size changed cs => (changed = false → size = (ders (treesOf cs)).length) ∧ Goods cs
def Goods : List Node → Prop
  | [] => True
  | n :: ns => Good n ∧ Goods ns
end

mutual
theorem getSize_spec : (n : Node) → Good n → n.getSize.1 = (der (treeOf n)).length ∧ treeOf n.getSize.2 = treeOf n ∧ Good n.getSize.2 ∧
    n.getSize.2.depth = n.depth
  | .leaf t h p, hg => by
    have hg : h = header t p.length := hg
    refine ⟨?_, rfl, hg, rfl⟩
    show h.length + p.length = _
    rw [treeOf, der, List.length_append, hg]
  | .seq h size changed cs, hg => by
    obtain ⟨h1, h2, h3, h4⟩ := sizes_spec cs hg.2
    cases changed with
    | true =>
      refine ⟨?_, ?_, ⟨fun _ => ?_, h3⟩, ?_⟩
      · show (sizes cs).1 + (header 48 (sizes cs).1).length = _
        rw [treeOf, der, List.length_append, h1, Nat.add_comm]
      · show Tree.seq (treesOf (sizes cs).2) = _
        rw [h2, treeOf]
      · show (sizes cs).1 = _
        rw [if_pos rfl, h2, h1]
      · show depths (sizes cs).2 + 1 = depths cs + 1
        rw [h4]
    | false =>
      have e := hg.1 rfl
      refine ⟨?_, rfl, ⟨fun _ => e, hg.2⟩, rfl⟩
      show size + (header 48 size).length = _
      rw [treeOf, der, List.length_append, e, Nat.add_comm]
theorem sizes_spec : (ns : List Node) → Goods ns → (sizes ns).1 = (ders (treesOf ns)).length ∧ treesOf (sizes ns).2 = treesOf ns ∧
    Goods (sizes ns).2 ∧ depths (sizes ns).2 = depths ns
  | [], _ => ⟨rfl, rfl, trivial, rfl⟩
  | n :: ns, hg => by
    obtain ⟨a1, a2, a3, a4⟩ := getSize_spec n hg.1
    obtain ⟨b1, b2, b3, b4⟩ := sizes_spec ns hg.2
    refine ⟨?_, ?_, ⟨a3, b3⟩, ?_⟩
    · show n.getSize.1 + (sizes ns).1 = _
      rw [treesOf, ders, List.length_append, a1, b1]
    · show treeOf n.getSize.2 :: treesOf (sizes ns).2 = _
      rw [a2, b2, treesOf]
    · show max n.getSize.2.depth (depths (sizes ns).2) = max n.depth (depths ns)
      rw [a4, b4]
end

theorem encodeAll_spec (f : Nat) (ih : ∀ n : Node, Good n → n.depth ≤ f → (encodeDepth f n).1 = der (treeOf n) ∧
      treeOf (encodeDepth f n).2 = treeOf n ∧ Good (encodeDepth f n).2 ∧ (encodeDepth f n).2.depth = n.depth)
    (ns : List Node) (hg : Goods ns) (hd : depths ns ≤ f) :
    (encodeAll (encodeDepth f) ns).1 = ders (treesOf ns) ∧ treesOf (encodeAll (encodeDepth f) ns).2 = treesOf ns ∧
      Goods (encodeAll (encodeDepth f) ns).2 ∧ depths (encodeAll (encodeDepth f) ns).2 = depths ns := by
  induction ns with
  | nil => exact ⟨rfl, rfl, trivial, rfl⟩
  | cons n ns ihn =>
    have hd : max n.depth (depths ns) ≤ f := hd
    obtain ⟨a1, a2, a3, a4⟩ := ih n hg.1 (by omega)
    obtain ⟨b1, b2, b3, b4⟩ := ihn hg.2 (by omega)
    refine ⟨?_, ?_, ⟨a3, b3⟩, ?_⟩
    · show (encodeDepth f n).1 ++ (encodeAll (encodeDepth f) ns).1 = _
      rw [a1, b1, treesOf, ders]
    · show treeOf (encodeDepth f n).2 :: treesOf (encodeAll (encodeDepth f) ns).2 = _
      rw [a2, b2, treesOf]
    · show max (encodeDepth f n).2.depth (depths (encodeAll (encodeDepth f) ns).2) = max n.depth (depths ns)
      rw [a4, b4]

theorem encodeDepth_spec (f : Nat) (n : Node) (hg : Good n) (hd : n.depth ≤ f) : (encodeDepth f n).1 = der (treeOf n) ∧
    treeOf (encodeDepth f n).2 = treeOf n ∧ Good (encodeDepth f n).2 ∧ (encodeDepth f n).2.depth = n.depth := by
  induction f generalizing n with
  | zero => cases n <;> simp [Node.depth] at hd
  | succ f ih =>
    cases n with
    | leaf t h p =>
      have hg' : h = header t p.length := hg
      refine ⟨?_, rfl, hg, rfl⟩
      show h ++ p = _
      rw [treeOf, der, hg']
    | seq h size changed cs =>
      have hd : depths cs + 1 ≤ f + 1 := hd
      obtain ⟨h1, h2, h3, h4⟩ := sizes_spec cs hg.2
      obtain ⟨e1, e2, e3, e4⟩ := encodeAll_spec f ih (sizes cs).2 h3 (by omega)
      refine ⟨?_, ?_, ⟨fun _ => ?_, e3⟩, ?_⟩
      · show header 48 (sizes cs).1 ++ (encodeAll (encodeDepth f) (sizes cs).2).1 = _
        rw [e1, h2, h1, treeOf, der]
      · show Tree.seq (treesOf (encodeAll (encodeDepth f) (sizes cs).2).2) = _
        rw [e2, h2, treeOf]
      · show (sizes cs).1 = _
        rw [e2, h2, h1]
      · show depths (encodeAll (encodeDepth f) (sizes cs).2).2 + 1 = depths cs + 1
        rw [e4, h4]

theorem encode_spec (n : Node) (hg : Good n) : n.encode.1 = der (treeOf n) ∧ treeOf n.encode.2 = treeOf n ∧ Good n.encode.2 :=
  let h := encodeDepth_spec n.depth n hg (Nat.le_refl _)
  ⟨h.1, h.2.1, h.2.2.1⟩

theorem good_prim (t : UInt8) (p : Bytes) : Good (prim t p) := rfl

end PyNDN.Der
