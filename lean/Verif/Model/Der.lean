import Verif.Model.Text
/-
Model of encoding/der/der_node.py and encoding/oid.py.  A node is a tree: a node object that is added to two parents is not modelled.
The recursion limit of Python is not modelled.  A `startIdx` is not negative.
-/
namespace PyNDN.Der

/-- The exceptions: DerDecodingException, DerEncodingException (der_exceptions.py), IndexError and ValueError.  `fuel` is not an
exception; C71_safe shows that it does not happen. -/
inductive Err where
  | decoding
  | encoding
  | index
  | value
  | fuel
  deriving DecidableEq, Repr

/-- The bytes of a number with the most significant first, none for 0 (der_node.py:66-72). -/
def beBytes (n : Nat) : Bytes := if n = 0 then [] else beBytes (n / 256) ++ [UInt8.ofNat (n % 256)]

/-- `_encodeHeader` (der_node.py:53-74). -/
def header (type : UInt8) (size : Nat) : Bytes :=
  if size ≤ 127 then [type, UInt8.ofNat size] else type :: UInt8.ofNat (128 ||| (beBytes size).length) :: beBytes size

/-- A `DerNode` (der_node.py:32-43), or a `DerSequence` with `_size` and `_childChanged` (der_node.py:237-247). -/
inductive Node where
  | leaf (type : UInt8) (header payload : Bytes)
  | seq (header : Bytes) (size : Nat) (changed : Bool) (children : List Node)
  deriving Repr

mutual
/-- `getSize` (der_node.py:45-51, 249-261) with the node that it leaves. -/
def Node.getSize : Node → Nat × Node
  | .leaf t h p => (h.length + p.length, .leaf t h p)
  | .seq _ size changed cs =>
    let r := if changed then sizes cs else (size, cs)
    (r.1 + (header 48 r.1).length, .seq (header 48 r.1) r.1 false r.2)
/-- `updateSize` (der_node.py:270-280). -/
def sizes : List Node → Nat × List Node
  | [] => (0, [])
  | n :: ns => ((n.getSize).1 + (sizes ns).1, (n.getSize).2 :: (sizes ns).2)
end

mutual
/-- How deep the node is. -/
def Node.depth : Node → Nat
  | .leaf _ _ _ => 1
  | .seq _ _ _ cs => depths cs + 1
def depths : List Node → Nat
  | [] => 0
  | n :: ns => max n.depth (depths ns)
end

/-- Encode each of the children (der_node.py:315-317). -/
def encodeAll (encode : Node → Bytes × Node) : List Node → Bytes × List Node
  | [] => ([], [])
  | n :: ns => ((encode n).1 ++ (encodeAll encode ns).1, (encode n).2 :: (encodeAll encode ns).2)

/-- `encode` with a bound on the depth. -/
def encodeDepth : Nat → Node → Bytes × Node
  | _, .leaf t h p => (h ++ p, .leaf t h p)
  | 0, .seq h size changed cs => ([], .seq h size changed cs)
  | f + 1, .seq _ _ _ cs =>
    let r := sizes cs
    let e := encodeAll (encodeDepth f) r.2
    (header 48 r.1 ++ e.1, .seq (header 48 r.1) r.1 false e.2)

/-- `encode` (der_node.py:117-123, 305-319) with the node that it leaves. -/
def Node.encode (n : Node) : Bytes × Node := encodeDepth n.depth n

/-- `DerSequence()` (der_node.py:565-570). -/
def Node.empty : Node := .seq [] 0 false []

/-- `addChild` of the node at the path (der_node.py:282-303); a step of the path is the index of a child.  With `notify` the nodes above it
are marked.  None if there is no sequence at the path. -/
def Node.addChild (child : Node) (notify : Bool) : List Nat → Node → Option Node
  | _, .leaf _ _ _ => none
  | [], .seq h size _ cs => some (.seq h size true (cs ++ [child]))
  | i :: path, .seq h size changed cs =>
    match cs[i]? with
    | none => none
    | some c => (addChild child notify path c).map fun c' => .seq h size (changed || notify) (cs.set i c')

/-! ### Decoding -/

/-- The bytes of a long length (der_node.py:105-113): the bytes and the size. -/
def longLength (buf : Bytes) : Nat → Nat → Nat → Except Err (Bytes × Nat)
  | _, 0, size => .ok ([], size)
  | idx, n + 1, size =>
    match buf[idx]? with
    | none => .error .decoding
    | some b => (longLength buf (idx + 1) n (256 * size + b.toNat)).map fun r => (b :: r.1, r.2)

/-- `_decodeHeader` (der_node.py:76-115): the header and the size.  The first byte is there. -/
def decodeHeader (buf : Bytes) (idx : Nat) : Except Err (Bytes × Nat) :=
  match buf[idx]?, buf[idx + 1]? with
  | some t, some sizeLen =>
    if sizeLen.toNat < 128 then .ok ([t, sizeLen], sizeLen.toNat)
    else (longLength buf (idx + 2) (sizeLen.toNat % 128) 0).map fun r => (t :: sizeLen :: r.1, r.2)
  | _, _ => .error .index

/-- The loop of `DerStructure.decode` (der_node.py:332-339). -/
def children (parse : Nat → Except Err Node) : Nat → Nat → Nat → Nat → Except Err (List Node)
  | 0, _, _, _ => .error .fuel
  | f + 1, idx, acc, size =>
    if acc < size then
      match parse idx with
      | .error e => .error e
      | .ok node => (children parse f (idx + node.getSize.1) (acc + node.getSize.1) size).map (node.getSize.2 :: ·)
    else .ok []

/-- The types that `parse` knows, besides Sequence (der_node.py:162-181). -/
def known (t : UInt8) : Bool := [1, 2, 3, 4, 5, 6, 19, 24].contains t

/-- `DerNode.parse` with `decode` (der_node.py:125-185, 321-339) and a bound on the depth. -/
def parseDepth (buf : Bytes) : Nat → Nat → Except Err Node
  | 0, _ => .error .fuel
  | f + 1, idx =>
    match buf[idx]? with
    | none => .error .decoding
    | some t =>
      if t = 48 then
        match decodeHeader buf idx with
        | .error e => .error e
        | .ok (h, size) =>
          (children (parseDepth buf f) (buf.length + 1) (idx + h.length) 0 size).map fun cs => .seq h size (!cs.isEmpty) cs
      else if known t then
        match decodeHeader buf idx with
        | .error e => .error e
        | .ok (h, size) => .ok (.leaf t h ((buf.drop (idx + h.length)).take size))
      else .error .decoding

/-- `DerNode.parse` (der_node.py:143-185). -/
def parse (buf : Bytes) (idx : Nat := 0) : Except Err Node := parseDepth buf (buf.length + 1) idx

/-- `getChildren` (der_node.py:203-211, 263-268). -/
def Node.getChildren : Node → Except Err (List Node)
  | .leaf _ _ _ => .error .decoding
  | .seq _ _ _ cs => .ok cs

/-- `getSequence` (der_node.py:213-235). -/
def getSequence (cs : List Node) (i : Nat) : Except Err Node :=
  match cs[i]? with
  | some (.seq h size changed ns) => .ok (.seq h size changed ns)
  | _ => .error .decoding

/-- The children list with an index (IndexError). -/
def nth (cs : List Node) (i : Nat) : Except Err Node :=
  match cs[i]? with
  | some n => .ok n
  | none => .error .index

/-! ### The types -/

/-- A node with a payload (der_node.py:360-361, 381-382). -/
def prim (type : UInt8) (payload : Bytes) : Node := .leaf type (header type payload.length) payload

/-- `DerBoolean` (der_node.py:371-382). -/
def boolean (b : Bool) : Node := prim 1 [if b then 0xff else 0x00]

/-- The bytes of `DerInteger` (der_node.py:401-413). -/
def integerBytes (n : Nat) : Bytes :=
  let temp := if n = 0 then [0] else beBytes n
  if (temp.headD 0).toNat ≥ 0x80 then 0 :: temp else temp

/-- `DerInteger` (der_node.py:388-416). -/
def integer (i : Int) : Except Err Node := if i < 0 then .error .encoding else .ok (prim 2 (integerBytes i.toNat))

/-- `DerBitString` (der_node.py:429-445). -/
def bitString (bits : Bytes) (padding : UInt8) : Node := prim 3 (padding :: bits)

/-- `DerOctetString` (der_node.py:447-454). -/
def octetString (b : Bytes) : Node := prim 4 b

/-- `DerNull` (der_node.py:456-462). -/
def null : Node := prim 5 []

/-- The loop of `_encode128` (der_node.py:522-524). -/
def encode128High (n : Nat) : Bytes := if n = 0 then [] else encode128High (n / 128) ++ [UInt8.ofNat (n % 128 + 128)]

/-- `_encode128` (der_node.py:509-526).  A negative number is less than 128. -/
def encode128 (i : Int) : Bytes :=
  if i < 128 then [UInt8.ofNat (i % 128).toNat] else encode128High (i.toNat / 128) ++ [UInt8.ofNat (i.toNat % 128)]

/-- `prepareEncoding` (der_node.py:481-507). -/
def oid (value : List Int) : Except Err Node :=
  match value with
  | [] => .error .encoding
  | a :: rest =>
    if ¬ (0 ≤ a ∧ a ≤ 2) then .error .encoding
    else match rest with
      | [] => .ok (prim 6 (encode128 (a * 40)))
      | b :: rest => if ¬ (0 ≤ b ∧ b ≤ 39) then .error .encoding else .ok (prim 6 (encode128 (a * 40 + b) ++ (rest.map encode128).flatten))

/-- `DerPrintableString` (der_node.py:573-581). -/
def printableString (b : Bytes) : Node := prim 19 b

/-- `strftime("%Y%m%d%H%M%SZ")`.  On Linux `%Y` does not pad the year. -/
def strftimeDer (t : DateTime) : List Nat :=
  decimal t.year ++ pad2 t.month ++ pad2 t.day ++ pad2 t.hour ++ pad2 t.minute ++ pad2 t.second ++ [90]

/-- `toDerTimeString` (der_node.py:603-615) for a whole number of milliseconds: the fraction of the second is dropped. -/
def timeString (ms : Int) : Except Err (List Nat) :=
  match datetimeFromSeconds (ms / 1000) with
  | .ok t => .ok (strftimeDer t)
  | .error _ => .error .value

/-- `DerGeneralizedTime` (der_node.py:590-601). -/
def generalizedTime (ms : Int) : Except Err Node := (timeString ms).map fun s => prim 24 (asciiBytes s)

/-! ### `toVal` -/

/-- The values. -/
inductive Val where
  | bool (b : Bool)
  | int (n : Nat)
  | bytes (b : Bytes)
  | str (s : List Nat)
  | time (ms : Int)
  deriving DecidableEq, Repr

/-- The value of bytes with the most significant first (der_node.py:423-427). -/
def fromBe (b : Bytes) : Nat := b.foldl (fun r x => r * 256 + x.toNat) 0

/-- `_decode128` (der_node.py:528-543): the number and the bytes that follow. -/
def decode128 : Bytes → Nat → Except Err (Nat × Bytes)
  | [], _ => .error .index
  | b :: r, acc => if b.toNat ≥ 128 then decode128 r (128 * acc + b.toNat - 128) else .ok (acc * 128 + b.toNat, r)

/-- The loop of `DerOid.toVal` (der_node.py:550-555); each round takes a byte. -/
def oidParts : Nat → Bytes → Except Err (List Nat)
  | _, [] => .ok []
  | 0, _ => .error .fuel
  | f + 1, b => match decode128 b 0 with
    | .error e => .error e
    | .ok (n, r) => (oidParts f r).map (n :: ·)

/-- `'.'.join` of the decimal numbers (der_node.py:561). -/
def dotted : List Nat → List Nat
  | [] => []
  | [n] => decimal n
  | n :: ns => decimal n ++ 46 :: dotted ns

/-- `DerOid.toVal` (der_node.py:545-561).  Simplification: `firstByte/40` is a float, here it is exact. -/
def oidString (payload : Bytes) : Except Err (List Nat) :=
  match oidParts payload.length payload with
  | .error e => .error e
  | .ok [] => .error .index
  | .ok (a :: rest) => .ok (dotted (a / 40 :: a % 40 :: rest))

/-- An alternative in the regular expression of a field of `strptime`: the characters that are allowed. -/
abbrev Alt := List (List Nat)

def digits (a b : Nat) : List Nat := (List.range (b + 1 - a)).map (48 + a + ·)

/-- The fields of "%Y%m%d%H%M%SZ" in the Python standard library (`_strptime.py`): `\d\d\d\d`, `1[0-2]|0[1-9]|[1-9]`,
`3[0-1]|[1-2]\d|0[1-9]|[1-9]| [1-9]`, `2[0-3]|[0-1]\d|\d`, `[0-5]\d|\d`, `6[0-1]|[0-5]\d|\d`, and Z, where case is ignored. -/
def fields : List (List Alt) :=
  [[[digits 0 9, digits 0 9, digits 0 9, digits 0 9]],
   [[[49], digits 0 2], [[48], digits 1 9], [digits 1 9]],
   [[[51], digits 0 1], [digits 1 2, digits 0 9], [[48], digits 1 9], [digits 1 9], [[32], digits 1 9]],
   [[[50], digits 0 3], [digits 0 1, digits 0 9], [digits 0 9]],
   [[digits 0 5, digits 0 9], [digits 0 9]],
   [[[54], digits 0 1], [digits 0 5, digits 0 9], [digits 0 9]],
   [[[90, 122]]]]

/-- Match an alternative: what it takes, and the rest. -/
def takeAlt : Alt → List Nat → Option (List Nat × List Nat)
  | [], s => some ([], s)
  | _ :: _, [] => none
  | cs :: alt, c :: s => if cs.contains c then (takeAlt alt s).map fun r => (c :: r.1, r.2) else none

/-- Match the fields, with backtracking: the first alternative with which the rest matches. -/
def matchFields : List (List Alt) → List Nat → Option (List (List Nat) × List Nat)
  | [], s => some ([], s)
  | f :: fs, s => f.findSome? fun alt => match takeAlt alt s with
    | some (g, r) => (matchFields fs r).map fun x => (g :: x.1, x.2)
    | none => none

/-- `datetime.strptime(timeStr, "%Y%m%d%H%M%SZ")`. -/
def strptime (s : List Nat) : Except Err DateTime :=
  match matchFields fields s with
  | some ([y, mo, d, h, mi, sec, _], []) =>
    match pyInt y, pyInt mo, pyInt d, pyInt h, pyInt mi, pyInt sec with
    | .ok y, .ok mo, .ok d, .ok h, .ok mi, .ok sec => match mkDateTime y mo d h mi sec with
      | .ok t => .ok t
      | .error _ => .error .value
    | _, _, _, _, _, _ => .error .value
  | _ => .error .value

/-- `toVal` of each type (der_node.py:187-193, 363-369, 384-386, 418-427, 545-561, 583-588, 617-628). -/
def Node.toVal : Node → Except Err Val
  | .seq h size changed cs => .ok (.bytes (Node.seq h size changed cs).encode.1)
  | .leaf t h p =>
    if t = 1 then match p with
      | [] => .error .index
      | b :: _ => .ok (.bool (b != 0))
    else if t = 2 then if (p.headD 0).toNat ≥ 0x80 then .error .decoding else .ok (.int (fromBe p))
    else if t = 4 then .ok (.bytes p)
    else if t = 6 then (oidString p).map .str
    else if t = 19 then .ok (.str (p.map (·.toNat)))
    else if t = 24 then match strptime (p.map (·.toNat)) with
      | .error e => .error e
      | .ok d => .ok (.time (secondsOfDatetime d * 1000))
    else .ok (.bytes (h ++ p))

/-! ### OID -/

/-- `str.split('.')`. -/
def splitDots : List Nat → List (List Nat)
  | [] => [[]]
  | c :: s => if c = 46 then [] :: splitDots s else match splitDots s with
    | p :: ps => (c :: p) :: ps
    | [] => [[c]]

/-- `OID(str)` (oid.py:25-26), and the same in `DerOid(str)` (der_node.py:474-475). -/
def oidOfString (s : List Nat) : Except Err (List Int) :=
  (splitDots s).mapM fun p => match pyInt p with
    | .ok i => .ok i
    | .error _ => .error .value

/-- `repr` of an int. -/
def reprInt (i : Int) : List Nat := if i < 0 then 45 :: decimal i.natAbs else decimal i.natAbs

/-- `OID.__str__` (oid.py:38-45). -/
def stringOfOid : List Int → List Nat
  | [] => []
  | [i] => reprInt i
  | i :: is => reprInt i ++ 46 :: stringOfOid is

/-- `OID.__eq__` of two OIDs (oid.py:47-57); with another object it raises AttributeError. -/
def oidEquals (_self _other : List Int) : Bool := false

end PyNDN.Der
