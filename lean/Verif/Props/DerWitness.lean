import Verif.Props.Der
/-
C71: examples and departures.
-/
namespace PyNDN.Der
open Spec.Der

mutual
def decTree : (a b : Tree) → Decidable (a = b)
  | .prim t c, .prim t' c' => if h : t = t' ∧ c = c' then isTrue (by rw [h.1, h.2]) else isFalse (fun e => h (by cases e; exact ⟨rfl, rfl⟩))
  | .prim _ _, .seq _ => isFalse (fun e => nomatch e)
  | .seq _, .prim _ _ => isFalse (fun e => nomatch e)
  | .seq ts, .seq ts' => match decTrees ts ts' with
    | isTrue h => isTrue (by rw [h])
    | isFalse h => isFalse (fun e => h (by cases e; rfl))
def decTrees : (a b : List Tree) → Decidable (a = b)
  | [], [] => isTrue rfl
  | [], _ :: _ => isFalse (fun e => nomatch e)
  | _ :: _, [] => isFalse (fun e => nomatch e)
  | t :: ts, t' :: ts' => match decTree t t', decTrees ts ts' with
    | isTrue h, isTrue h' => isTrue (by rw [h, h'])
    | isFalse h, _ => isFalse (fun e => h (by cases e; rfl))
    | _, isFalse h => isFalse (fun e => h (by cases e; rfl))
end

instance : DecidableEq Tree := decTree

/-! ### An example -/

/-- A SubjectPublicKeyInfo: SEQUENCE { SEQUENCE { OID, NULL }, BIT STRING }. -/
def exTree : Tree := .seq [.seq [.prim 6 [0x2a, 0x86, 0x48, 0x86, 0xf7, 0x0d, 1, 1, 1], .prim 5 []], .prim 3 (0 :: List.replicate 200 7)]

theorem exKnown : Known exTree := by
  have big : ∀ n, n ≤ 300 → n < 256 ^ 126 := fun n h => Nat.lt_of_le_of_lt h (by decide +kernel)
  have k1 : Knowns [.prim 6 [0x2a, 0x86, 0x48, 0x86, 0xf7, 0x0d, 1, 1, 1], .prim 5 []] :=
    ⟨⟨by decide, big _ (by decide)⟩, ⟨by decide, big _ (by decide)⟩, trivial⟩
  have k2 : Known (.seq [.prim 6 [0x2a, 0x86, 0x48, 0x86, 0xf7, 0x0d, 1, 1, 1], .prim 5 []]) := by
    refine ⟨k1, fun b hb => ?_⟩
    rw [ders_unique _ k1 b hb]
    exact big _ (by decide +kernel)
  have k3 : Knowns [.seq [.prim 6 [0x2a, 0x86, 0x48, 0x86, 0xf7, 0x0d, 1, 1, 1], .prim 5 []], .prim 3 (0 :: List.replicate 200 7)] :=
    ⟨k2, ⟨by decide, big _ (by decide +kernel)⟩, trivial⟩
  refine ⟨k3, fun b hb => ?_⟩
  rw [ders_unique _ k3 b hb]
  exact big _ (by decide +kernel)

/-- The root, with the algorithm added before the algorithm has its parts. -/
def exNode : Option Node := do
  let a ← Node.addChild Node.empty false [] Node.empty
  let a := a.modify (fun m => m.getSize.2) []
  let o ← (oid [1, 2, 840, 113549, 1, 1, 1]).toOption
  let a ← Node.addChild o true [0] a
  let a := a.modify (fun m => m.encode.2) []
  let a ← Node.addChild null true [0] a
  Node.addChild (bitString (List.replicate 200 7) 0) false [] a

/-- The hypotheses of C71_encode and C71_parse are met. -/
example : ∃ n, exNode = some n ∧ Built n ∧ treeOf n = exTree ∧ IsDer exTree n.encode.1 ∧ parse (1 :: n.encode.1 ++ [2, 3]) 1 ≠ .error .decoding ∧
    n.encode.1.take 6 = [0x30, 0x81, 0xdb, 0x30, 0x0d, 0x06] := by
  obtain ⟨o, c, h0, ho, _⟩ := C71_oid 1 2 [840, 113549, 1, 1, 1] (by decide) (by decide)
  rcases hx : exNode with _ | n
  · have : exNode.isSome = true := by decide +kernel
    rw [hx] at this
    cases this
  · have hb : Built n := by
      unfold exNode at hx
      rw [show oid [1, 2, 840, 113549, 1, 1, 1] = .ok o from h0] at hx
      simp only [Option.bind_eq_bind, Option.bind_eq_some_iff, Except.toOption] at hx
      obtain ⟨a, ha, o', ho', b, hb, c, hc, hn⟩ := hx
      cases ho'
      refine .addChild (.addChild (.encode [] (.addChild (.getSize [] (.addChild .empty .empty ha (.inr rfl))) ?_ hb (.inl rfl))) ?_ hc (.inl rfl)) ?_ hn (.inr rfl)
      · exact ho
      · exact .prim ..
      · exact .prim ..
    have ht : treeOf n = exTree := by
      have : exNode.map treeOf = some exTree := by decide +kernel
      rw [hx] at this
      exact Option.some.inj this
    have hd := C71_encode hb (by rw [ht]; exact exKnown)
    rw [ht] at hd
    refine ⟨n, rfl, hb, ht, hd.1, ?_, ?_⟩
    · obtain ⟨m, hm, _⟩ := C71_parse exKnown hd.1 [1] [2, 3]
      rw [show parse (1 :: n.encode.1 ++ [2, 3]) 1 = .ok m from hm]
      nofun
    · have : exNode.map (fun n => n.encode.1.take 6) = some [0x30, 0x81, 0xdb, 0x30, 0x0d, 0x06] := by decide +kernel
      rw [hx] at this
      exact Option.some.inj this

/-- C71_oid, C71_integer and C71_time with concrete values. -/
example : (oid [2, 5, 4, 41]).map Node.toVal = .ok (.ok (.str [50, 46, 53, 46, 52, 46, 52, 49])) ∧
    (integer 128).map treeOf = .ok (.prim 2 [0, 128]) ∧ (generalizedTime 1000000001999).map Node.toVal = .ok (.ok (.time 1000000001000)) := by
  refine ⟨by decide +kernel, by decide +kernel, by decide +kernel⟩

/-! ### Departures -/

/-- An encoding that is cut off is parsed without an exception: an OCTET STRING of five bytes of which one is there. -/
theorem C71_truncated : (parse [4, 5, 1]).map Node.toVal = .ok (.ok (.bytes [1])) := by decide +kernel

/-- After a type that is the last byte the exception is IndexError, not DerDecodingException; so for `toVal` of an empty BOOLEAN. -/
theorem C71_index : (parse [4]).map treeOf = .error .index ∧
    (parse [1, 0]).map Node.toVal = .ok (.error .index) := by
  exact ⟨by decide +kernel, by decide +kernel⟩

/-- The indefinite form of the length, which DER forbids, is taken as length 0. -/
theorem C71_indefinite : (parse [4, 0x80, 1, 2, 0, 0]).map Node.toVal = .ok (.ok (.bytes [])) := by decide +kernel

/-- A child that is longer than its sequence is parsed; the encoding then has another length. -/
theorem C71_overrun : (parse [0x30, 3, 4, 5, 1, 2, 3, 4, 5]).map (fun n => n.encode.1) = .ok [0x30, 7, 4, 5, 1, 2, 3, 4, 5] := by decide +kernel

/-- When the length of an inner sequence is not the shortest one, which DER forbids, what follows it is parsed from the wrong place: here the
OCTET STRING aa bb becomes an INTEGER. -/
theorem C71_misaligned : (parse [0x30, 0x0a, 0x30, 0x81, 3, 4, 1, 2, 4, 2, 0xaa, 0xbb]).map treeOf =
    .ok (.seq [.seq [.prim 4 [2]], .prim 2 [2, 0xaa, 0xbb]]) := by decide +kernel

/-- An OID of one number comes back as another one. -/
theorem C71_oid_one : (oid [1]).map Node.toVal = .ok (.ok (.str [49, 46, 48])) := by decide +kernel

/-- The OID 2.999 of the standard is read as 26.39, and cannot be written. -/
theorem C71_oid_large : IsOid [2, 999] [0x88, 0x37] ∧ (prim 6 [0x88, 0x37]).toVal = .ok (.str [50, 54, 46, 51, 57]) ∧
    (oid [2, 999]).map treeOf = .error .encoding := by
  refine ⟨⟨2, 999, [], rfl, [0x88, 0x37], [], ⟨[0x88], 0x37, rfl, by decide, by decide, by decide, by decide⟩, rfl, rfl⟩, by decide +kernel, by decide +kernel⟩

/-- A negative number in an OID is not refused: it is encoded as another number. -/
theorem C71_oid_negative : (oid [1, 2, -3]).map treeOf = .ok (.prim 6 [42, 125]) ∧ (oid [1, 2, 125]).map treeOf = .ok (.prim 6 [42, 125]) := by
  exact ⟨by decide +kernel, by decide +kernel⟩

/-- Two OIDs are never equal, not even with the same numbers. -/
theorem C71_oid_equals (value : List Int) : oidEquals value value = false := rfl

/-- Without notifyParent the length of the root is wrong after a node two levels below it was changed, once the root was encoded. -/
theorem C71_stale : ∃ a b c, Node.addChild Node.empty false [] Node.empty = some a ∧ Node.addChild Node.empty false [0] a = some b ∧
    Node.addChild null false [0, 0] (b.modify (fun m => m.encode.2) []) = some c ∧ c.encode.1 = [0x30, 4, 0x30, 4, 0x30, 2, 5, 0] := by
  refine ⟨_, _, _, rfl, rfl, rfl, ?_⟩
  decide +kernel

/-- The time of the first of January of the year 999 comes back as the tenth of October of the year 9990. -/
theorem C71_year : (generalizedTime (-30641760000000)).map Node.toVal = .ok (.ok (.time 253111132800000)) := by decide +kernel

end PyNDN.Der
