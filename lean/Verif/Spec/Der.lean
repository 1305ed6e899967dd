import Verif.Model.Der
/-
Specification of DER (X.690): trees and their encoding, independently of the code.
-/
namespace PyNDN.Spec.Der
open PyNDN

/-- A primitive value with its tag and contents, or a sequence. -/
inductive Tree where
  | prim (tag : UInt8) (contents : Bytes)
  | seq (items : List Tree)

/-- The number that the bytes stand for, most significant first. -/
def number (base : Nat) : List Nat → Nat
  | [] => 0
  | b :: r => b * base ^ r.length + number base r

/-- The length octets of a length (X.690, 8.1.3 and 10.1): the short form up to 127, else the shortest long form. -/
def IsLength (n : Nat) (l : Bytes) : Prop :=
  (n ≤ 127 ∧ l.map (·.toNat) = [n]) ∨
  (127 < n ∧ ∃ k b r, l = k :: b :: r ∧ k.toNat = 128 + (b :: r).length ∧ b ≠ 0 ∧ number 256 ((b :: r).map (·.toNat)) = n)

mutual
/-- The bytes are the DER encoding of the tree. -/
def IsDer : Tree → Bytes → Prop
  | .prim tag contents, b => ∃ l, IsLength contents.length l ∧ b = tag :: (l ++ contents)
  | .seq items, b => ∃ l body, IsDers items body ∧ IsLength body.length l ∧ b = 0x30 :: (l ++ body)
def IsDers : List Tree → Bytes → Prop
  | [], b => b = []
  | t :: ts, b => ∃ x y, IsDer t x ∧ IsDers ts y ∧ b = x ++ y
end

/-- Boolean, Integer, BitString, OctetString, Null, ObjectIdentifier, PrintableString and GeneralizedTime. -/
def tags : List UInt8 := [1, 2, 3, 4, 5, 6, 19, 24]

mutual
/-- The tree has only tags that are known, and contents whose length has a long form (fewer than 256 ^ 126 bytes). -/
def Known : Tree → Prop
  | .prim tag contents => tag ∈ tags ∧ contents.length < 256 ^ 126
  | .seq items => Knowns items ∧ ∀ b, IsDers items b → b.length < 256 ^ 126
def Knowns : List Tree → Prop
  | [] => True
  | t :: ts => Known t ∧ Knowns ts
end

mutual
/-- The tree of a node. -/
def treeOf : Der.Node → Tree
  | .leaf t _ p => .prim t p
  | .seq _ _ _ cs => .seq (treesOf cs)
def treesOf : List Der.Node → List Tree
  | [] => []
  | n :: ns => treeOf n :: treesOf ns
end

/-- The contents of a non-negative INTEGER (8.3): not empty, the first nine bits are not all zero, and the sign bit is not set. -/
def IsInteger (n : Nat) (c : Bytes) : Prop :=
  number 256 (c.map (·.toNat)) = n ∧ (∃ b r, c = b :: r ∧ b.toNat < 128 ∧ (b = 0 → ∀ b' r', r = b' :: r' → 128 ≤ b'.toNat))

/-- A subidentifier (8.19.2): base 128, bit 8 in all bytes but the last, as few bytes as possible. -/
def IsSubidentifier (n : Nat) (c : Bytes) : Prop :=
  ∃ high last, c = high ++ [last] ∧ last.toNat < 128 ∧ (∀ b ∈ high, 128 ≤ b.toNat) ∧ high.head? ≠ some 128 ∧
    number 128 (high.map (·.toNat - 128) ++ [last.toNat]) = n

/-- Subidentifiers one after the other. -/
def IsSubidentifiers : List Nat → Bytes → Prop
  | [], c => c = []
  | n :: ns, c => ∃ x y, IsSubidentifier n x ∧ IsSubidentifiers ns y ∧ c = x ++ y

/-- The contents of an OBJECT IDENTIFIER (8.19): `40 a + b` and the others. -/
def IsOid (value : List Nat) (c : Bytes) : Prop :=
  ∃ a b rest, value = a :: b :: rest ∧ IsSubidentifiers ((40 * a + b) :: rest) c

mutual
/-- The primitive values in a tree, with their tags. -/
def leaves : Tree → List (UInt8 × Bytes)
  | .prim tag c => [(tag, c)]
  | .seq items => leavesAll items
def leavesAll : List Tree → List (UInt8 × Bytes)
  | [] => []
  | t :: ts => leaves t ++ leavesAll ts
end

/-- Add a tree as the last item of the sequence at the path; nothing if there is none. -/
def Tree.add (child : Tree) : List Nat → Tree → Option Tree
  | _, .prim _ _ => none
  | [], .seq items => some (.seq (items ++ [child]))
  | i :: path, .seq items => match items[i]? with
    | none => none
    | some t => (Tree.add child path t).map fun t' => .seq (items.set i t')

/-- A call that changes the node at the path. -/
def _root_.PyNDN.Der.Node.modify (f : Der.Node → Der.Node) : List Nat → Der.Node → Der.Node
  | [], n => f n
  | _, .leaf t h p => .leaf t h p
  | i :: path, .seq h size changed cs => match cs[i]? with
    | none => .seq h size changed cs
    | some c => .seq h size changed (cs.set i (modify f path c))

/-- The nodes that an application can have: what the constructors and `parse` of a DER encoding give, after any calls of `addChild`,
`getSize` and `encode` of any of their nodes, where `addChild` of a node that is not the root notifies the parent. -/
inductive Built : Der.Node → Prop where
  | prim (tag : UInt8) (contents : Bytes) : Built (Der.prim tag contents)
  | empty : Built Der.Node.empty
  | parsed {t : Tree} {pre b post : Bytes} {n : Der.Node} (known : Known t) (isDer : IsDer t b)
      (h : Der.parse (pre ++ b ++ post) pre.length = .ok n) : Built n
  | addChild {n child n' : Der.Node} {notify : Bool} {path : List Nat} (hn : Built n) (hc : Built child)
      (h : Der.Node.addChild child notify path n = some n') (hp : notify = true ∨ path = []) : Built n'
  | getSize {n : Der.Node} (path : List Nat) (hn : Built n) : Built (n.modify (fun m => m.getSize.2) path)
  | encode {n : Der.Node} (path : List Nat) (hn : Built n) : Built (n.modify (fun m => m.encode.2) path)

end PyNDN.Spec.Der
