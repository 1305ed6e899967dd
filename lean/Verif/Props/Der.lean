import Verif.Lemmas.DerValues
/-
C71: DER nodes.
-/
namespace PyNDN.Der
open Spec.Der

/-! ### Built nodes are good -/

theorem goods_get {cs : List Node} {i : Nat} {c : Node} (hg : Goods cs) (h : cs[i]? = some c) : Good c := by
  induction cs generalizing i with
  | nil => cases h
  | cons n ns ih =>
    cases i with
    | zero => cases h; exact hg.1
    | succ i => exact ih hg.2 h

theorem goods_set {cs : List Node} {c : Node} (hg : Goods cs) (hc : Good c) (i : Nat) : Goods (cs.set i c) := by
  induction cs generalizing i with
  | nil => exact trivial
  | cons n ns ih =>
    cases i with
    | zero => exact ⟨hc, hg.2⟩
    | succ i => exact ⟨hg.1, ih hg.2 i⟩

theorem goods_snoc {cs : List Node} {c : Node} (hg : Goods cs) (hc : Good c) : Goods (cs ++ [c]) := by
  induction cs with
  | nil => exact ⟨hc, trivial⟩
  | cons n ns ih => exact ⟨hg.1, ih hg.2⟩

theorem trees_snoc (cs : List Node) (c : Node) : treesOf (cs ++ [c]) = treesOf cs ++ [treeOf c] := by
  induction cs with
  | nil => rfl
  | cons n ns ih => rw [List.cons_append, treesOf, ih, treesOf]; rfl

theorem trees_set (cs : List Node) (c : Node) (i : Nat) : treesOf (cs.set i c) = (treesOf cs).set i (treeOf c) := by
  induction cs generalizing i with
  | nil => rfl
  | cons n ns ih =>
    cases i with
    | zero => rfl
    | succ i => rw [List.set_cons_succ, treesOf, ih, treesOf, List.set_cons_succ]

theorem trees_get (cs : List Node) (i : Nat) : (treesOf cs)[i]? = cs[i]?.map treeOf := by
  induction cs generalizing i with
  | nil => rfl
  | cons n ns ih =>
    cases i with
    | zero => rfl
    | succ i => rw [treesOf, List.getElem?_cons_succ, List.getElem?_cons_succ]; exact ih i

theorem addChild_spec (child : Node) (notify : Bool) (hc : Good child) : ∀ (path : List Nat) (n n' : Node), Good n →
    Node.addChild child notify path n = some n' → notify = true ∨ path = [] → Good n' := by
  intro path
  induction path with
  | nil =>
    intro n n' hg h _
    cases n with
    | leaf => cases h
    | seq hd size changed cs =>
      cases h
      exact ⟨fun hf => (nomatch hf), goods_snoc hg.2 hc⟩
  | cons i path ih =>
    intro n n' hg h hp
    have hp : notify = true := hp.resolve_right (fun h => nomatch h)
    cases n with
    | leaf => cases h
    | seq hd size changed cs =>
      unfold Node.addChild at h
      rcases hi : cs[i]? with _ | c
      · rw [hi] at h; cases h
      · rw [hi] at h
        dsimp only at h
        rcases ha : Node.addChild child notify path c with _ | c'
        · rw [ha] at h; cases h
        · rw [ha] at h
          cases h
          refine ⟨fun hf => ?_, goods_set hg.2 (ih c c' (goods_get hg.2 hi) ha (.inl hp)) i⟩
          rw [hp, Bool.or_true] at hf
          cases hf

theorem modify_spec (f : Node → Node) (hf : ∀ n, Good n → Good (f n) ∧ treeOf (f n) = treeOf n) : ∀ (path : List Nat) (n : Node), Good n →
    Good (n.modify f path) ∧ treeOf (n.modify f path) = treeOf n := by
  intro path
  induction path with
  | nil =>
    intro n hg
    cases n <;> exact hf _ hg
  | cons i path ih =>
    intro n hg
    cases n with
    | leaf => exact ⟨hg, rfl⟩
    | seq hd size changed cs =>
      unfold Node.modify
      rcases hi : cs[i]? with _ | c
      · exact ⟨hg, rfl⟩
      · obtain ⟨h1, h2⟩ := ih c (goods_get hg.2 hi)
        have e : treesOf (cs.set i (c.modify f path)) = treesOf cs := by
          rw [trees_set, h2]
          have hq : (treesOf cs)[i]? = some (treeOf c) := by rw [trees_get, hi]; rfl
          obtain ⟨hlt, hv⟩ := List.getElem?_eq_some_iff.mp hq
          rw [← hv, List.set_getElem_self]
        refine ⟨⟨fun hf => ?_, goods_set hg.2 h1 i⟩, ?_⟩
        · rw [e]; exact hg.1 hf
        · show Tree.seq (treesOf (cs.set i (c.modify f path))) = _
          rw [e, treeOf]

theorem parse_isDer {t : Tree} {b : Bytes} (hk : Known t) (hd : IsDer t b) (pre post : Bytes) :
    ∃ n, parse (pre ++ b ++ post) pre.length = .ok n ∧ treeOf n = t ∧ Good n := by
  rw [der_unique t hk b hd]
  exact parse_spec t hk pre post

theorem built_good {n : Node} (h : Built n) : Good n := by
  induction h with
  | prim => exact rfl
  | empty => exact ⟨fun _ => rfl, trivial⟩
  | @parsed t pre b post n hk hd h =>
    obtain ⟨n', h1, _, h2⟩ := parse_isDer hk hd pre post
    rw [h1] at h
    cases h
    exact h2
  | addChild _ _ h hp ih1 ih2 => exact addChild_spec _ _ ih2 _ _ _ ih1 h hp
  | getSize path _ ih => exact (modify_spec _ (fun n hg => ⟨(getSize_spec n hg).2.2.1, (getSize_spec n hg).2.1⟩) path _ ih).1
  | encode path _ ih => exact (modify_spec _ (fun n hg => ⟨(encode_spec n hg).2.2, (encode_spec n hg).2.1⟩) path _ ih).1

/-! ### C71 -/

/-- C71: whatever was done with a node, `encode` gives the DER encoding of its tree, and leaves the tree as it is. -/
theorem C71_encode {n : Node} (h : Built n) (hk : Known (treeOf n)) : IsDer (treeOf n) n.encode.1 ∧ treeOf n.encode.2 = treeOf n := by
  obtain ⟨h1, h2, _⟩ := encode_spec n (built_good h)
  rw [h1]
  exact ⟨isDer_der _ hk, h2⟩

/-- C71: `getSize` is the number of bytes that `encode` gives. -/
theorem C71_size {n : Node} (h : Built n) : n.getSize.1 = n.encode.1.length ∧ treeOf n.getSize.2 = treeOf n := by
  obtain ⟨h1, _, _⟩ := encode_spec n (built_good h)
  obtain ⟨h2, h3, _⟩ := getSize_spec n (built_good h)
  exact ⟨by rw [h1, h2], h3⟩

/-- C71: `addChild` adds the tree of the child at its place, and changes nothing else. -/
theorem C71_add (child : Node) (notify : Bool) (path : List Nat) (n : Node) :
    (Node.addChild child notify path n).map treeOf = Tree.add (treeOf child) path (treeOf n) := by
  induction path generalizing n with
  | nil =>
    cases n with
    | leaf => rfl
    | seq hd size changed cs =>
      show some (Tree.seq (treesOf (cs ++ [child]))) = some (Tree.seq (treesOf cs ++ [treeOf child]))
      rw [trees_snoc]
  | cons i path ih =>
    cases n with
    | leaf => rfl
    | seq hd size changed cs =>
      unfold Node.addChild
      rw [show treeOf (.seq hd size changed cs) = Tree.seq (treesOf cs) from rfl]
      unfold Tree.add
      rw [trees_get]
      rcases hi : cs[i]? with _ | c
      · rfl
      · dsimp only [Option.map_some]
        rw [← ih c]
        rcases Node.addChild child notify path c with _ | c'
        · rfl
        · show some (Tree.seq (treesOf (cs.set i c'))) = some (Tree.seq ((treesOf cs).set i (treeOf c')))
          rw [trees_set]

theorem toVal_tree {n m : Node} (hn : Good n) (hm : Good m) (h : treeOf n = treeOf m) : n.toVal = m.toVal := by
  cases n with
  | leaf t hd p => cases m with
    | leaf t' hd' p' =>
      have h : Tree.prim t p = Tree.prim t' p' := h
      cases h
      have h1 : hd = header t p.length := hn
      have h2 : hd' = header t p.length := hm
      rw [h1, h2]
    | seq => cases h
  | seq hd size changed cs => cases m with
    | leaf => cases h
    | seq hd' size' changed' cs' =>
      show Except.ok (Val.bytes _) = Except.ok (Val.bytes _)
      rw [(encode_spec _ hn).1, (encode_spec _ hm).1, h]

/-- C71: a DER encoding anywhere in a buffer is parsed to a node with this tree: the same values, and the same bytes again. -/
theorem C71_parse {t : Tree} {b : Bytes} (hk : Known t) (hd : IsDer t b) (pre post : Bytes) :
    ∃ n, parse (pre ++ b ++ post) pre.length = .ok n ∧ treeOf n = t ∧ n.encode.1 = b ∧ n.getSize.1 = b.length ∧
      ∀ m, Built m → treeOf m = t → n.toVal = m.toVal := by
  obtain ⟨n, h1, h2, h3⟩ := parse_isDer hk hd pre post
  have e : n.encode.1 = b := by rw [(encode_spec n h3).1, h2, der_unique t hk b hd]
  exact ⟨n, h1, h2, e, by rw [(C71_size (.parsed hk hd h1)).1, e], fun m hm hmt => toVal_tree h3 (built_good hm) (h2.trans hmt.symm)⟩

/-- C71: two trees do not have the same encoding. -/
theorem C71_unique {t t' : Tree} {b : Bytes} (hk : Known t) (hk' : Known t') (h : IsDer t b) (h' : IsDer t' b) : t = t' := by
  obtain ⟨n, h1, h2, _⟩ := C71_parse hk h [] []
  obtain ⟨n', h3, h4, _⟩ := C71_parse hk' h' [] []
  rw [h1] at h3
  cases h3
  rw [← h2, h4]

/-- C71, with a departure for IndexError: any bytes at any index are parsed, or an exception is raised; the contents of what was parsed
are parts of the bytes. -/
theorem C71_safe_partial (buf : Bytes) (idx : Nat) : (∀ e, parse buf idx = .error e → e = .decoding ∨ e = .index) ∧
    ∀ n, parse buf idx = .ok n → ∀ x ∈ leaves (treeOf n), x.1 ∈ tags ∧ x.2 <:+: buf := by
  obtain ⟨h1, h2⟩ := parseDepth_safe buf (buf.length + 1) idx (by omega) (by omega)
  exact ⟨h1, fun n hn => (h2 n hn).2.part⟩

/-- C71: `DerInteger` of a number is the INTEGER of X.690, and `toVal` gives the number; of a negative number it raises. -/
theorem C71_integer (i : Int) : (i < 0 → integer i = .error .encoding) ∧
    (0 ≤ i → ∃ n c, integer i = .ok n ∧ Built n ∧ treeOf n = .prim 2 c ∧ IsInteger i.toNat c ∧ n.toVal = .ok (.int i.toNat)) := by
  refine ⟨fun h => if_pos h, fun h => ⟨prim 2 (integerBytes i.toNat), integerBytes i.toNat, ?_, .prim .., rfl, integerBytes_spec _, ?_⟩⟩
  · exact if_neg (by omega)
  · obtain ⟨h1, b, r, h2, h3, _⟩ := integerBytes_spec i.toNat
    show (if ((integerBytes i.toNat).headD 0).toNat ≥ 0x80 then Except.error Err.decoding else .ok (Val.int (fromBe (integerBytes i.toNat)))) = _
    rw [if_neg (by rw [h2]; show ¬ b.toNat ≥ 128; omega), fromBe_number, h1]

/-- C71: `DerBoolean`, `DerOctetString`, `DerPrintableString`, `DerBitString` and `DerNull`. -/
theorem C71_simple (b : Bool) (bytes : Bytes) (padding : UInt8) :
    ((boolean b).toVal = .ok (.bool b) ∧ treeOf (boolean b) = .prim 1 [if b then 0xff else 0]) ∧
    ((octetString bytes).toVal = .ok (.bytes bytes) ∧ treeOf (octetString bytes) = .prim 4 bytes) ∧
    ((printableString bytes).toVal = .ok (.str (bytes.map (·.toNat))) ∧ treeOf (printableString bytes) = .prim 19 bytes) ∧
    treeOf (bitString bytes padding) = .prim 3 (padding :: bytes) ∧ treeOf null = .prim 5 [] := by
  refine ⟨⟨?_, rfl⟩, ⟨rfl, rfl⟩, ⟨rfl, rfl⟩, rfl, rfl⟩
  cases b <;> rfl

/-- C71: `DerOid` of two or more numbers is the OBJECT IDENTIFIER of X.690, and `toVal` gives the string with dots. -/
theorem C71_oid (a b : Nat) (rest : List Nat) (ha : a ≤ 2) (hb : b ≤ 39) :
    ∃ n c, oid ((a :: b :: rest).map fun x : Nat => (x : Int)) = .ok n ∧ Built n ∧ treeOf n = .prim 6 c ∧ IsOid (a :: b :: rest) c ∧
      n.toVal = .ok (.str (stringOfOid ((a :: b :: rest).map fun x : Nat => (x : Int)))) := by
  obtain ⟨c, h1, h2⟩ := oid_spec a b rest ha hb
  refine ⟨prim 6 c, c, h1, .prim .., rfl, h2, ?_⟩
  show (oidString c).map Val.str = _
  rw [oidString_spec h2 (fun a' b' r' e => by cases e; omega), ← dotted_eq]
  rfl

/-- C71: `OID(str(oid))` has the same numbers, for all lists of numbers but the empty one. -/
theorem C71_oid_string (value : List Int) (h : value ≠ []) : oidOfString (stringOfOid value) = .ok value := by
  cases value with
  | nil => exact absurd rfl h
  | cons i is => exact oid_string i is

/-- C71: `DerGeneralizedTime` of a time in the years 1000 to 9999 gives back the time without the fraction of the second. -/
theorem C71_time (ms : Int) (h1 : -30610224000000 ≤ ms) (h2 : ms < 253402300800000) :
    ∃ n c, generalizedTime ms = .ok n ∧ Built n ∧ treeOf n = .prim 24 c ∧ c.length = 15 ∧ n.toVal = .ok (.time (ms - ms % 1000)) := by
  obtain ⟨t, ht, hs, hrest⟩ := datetimeFromSeconds_spec (ms / 1000) (by omega) (by omega)
  have e : timeString ms = .ok (strftimeDer t) := by
    unfold timeString
    rw [ht]
  refine ⟨prim 24 (asciiBytes (strftimeDer t)), _, by unfold generalizedTime; rw [e]; rfl, .prim .., rfl, ?_, ?_⟩
  · unfold asciiBytes strftimeDer
    simp only [List.length_map, List.length_append, decimal4 _ hrest.1 hrest.2.1]
    rfl
  · show (match strptime ((asciiBytes (strftimeDer t)).map (·.toNat)) with
      | .error e => Except.error e
      | .ok d => .ok (Val.time (secondsOfDatetime d * 1000))) = _
    rw [ascii_back _ (strftimeDer_ascii t), strptime_strftime t hrest]
    show Except.ok (Val.time (secondsOfDatetime t * 1000)) = _
    rw [hs]
    congr 2
    omega

end PyNDN.Der
