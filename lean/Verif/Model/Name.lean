import Verif.Model.Encoder
import Verif.Model.Decoder
/-
Model of `Name` and `Name.Component` (name.py) and of their wire encoding
(encoding/tlv_0_2_wire_format.py).
-/
namespace PyNDN

/-- `ComponentType` (name.py:1344-1356).  `other code` is `OTHER_CODE` with `_otherTypeCode = code`.
Simplification: only the four enum values are modelled; a caller can pass an arbitrary int as type,
but no code in the library does. -/
inductive CType where
  | implicit
  | params
  | generic
  | other (code : Nat)
  deriving DecidableEq, Repr

/-- `Name.Component` (name.py:52-97).  Simplification: the value is a non-null Blob (a component with
a null Blob can only be made by passing a null Blob to the constructor). -/
structure Component where
  type : CType
  value : Bytes
  deriving DecidableEq, Repr

/-- A `Name` is its `_components` list (name.py:36-50).  The cached hash is in Model/NameHash.lean. -/
abbrev Name := List Component

/-- The type code: `_otherTypeCode` for OTHER_CODE, else the enum value (name.py:382-385,
1351-1354). -/
def CType.code : CType → Nat
  | .implicit => 1
  | .params => 2
  | .generic => 8
  | .other c => c

/-- `Name.Component(value)` (name.py:71-97). -/
def Component.generic (value : Bytes) : Component := ⟨.generic, value⟩

/-- `Name.Component.fromImplicitSha256Digest` (name.py:510-528). -/
def Component.fromImplicitSha256Digest (digest : Bytes) : Except Err Component :=
  if digest.length ≠ 32 then .error .runtime else .ok ⟨.implicit, digest⟩

/-- `Name.Component.fromParametersSha256Digest` (name.py:531-549). -/
def Component.fromParametersSha256Digest (digest : Bytes) : Except Err Component :=
  if digest.length ≠ 32 then .error .runtime else .ok ⟨.params, digest⟩

/-! ### Blob comparison -/

/-- `Blob.equals` for non-null blobs (blob.py:197-224): same length and the same bytes. -/
def blobEquals (a b : Bytes) : Bool :=
  if a.length ≠ b.length then false
  else (List.zip a b).all fun p => p.1 == p.2

/-- The loop of `Blob.compare` and the final length test (blob.py:248-259). -/
def blobCompare : Bytes → Bytes → Int
  | [], [] => 0
  | [], _ :: _ => -1
  | _ :: _, [] => 1
  | x :: xs, y :: ys => if x < y then -1 else if x > y then 1 else blobCompare xs ys

/-! ### Component methods -/

/-- `Name.Component.equals` (name.py:356-369). -/
def Component.equals (self other : Component) : Bool :=
  match self.type with
  | .other c =>
    blobEquals self.value other.value &&
      (match other.type with
       | .other c' => c == c'
       | _ => false)
  | t => blobEquals self.value other.value && t == other.type

/-- `Name.Component.compare` (name.py:371-398). -/
def Component.compare (self other : Component) : Int :=
  if self.type.code < other.type.code then -1
  else if self.type.code > other.type.code then 1
  else if self.value.length < other.value.length then -1
  else if self.value.length > other.value.length then 1
  else blobCompare self.value other.value

/-- `Name.Component.isSegment` and the like test the type and the first byte (name.py:166-224). -/
def Component.hasMarker (c : Component) (marker : UInt8) : Bool :=
  match c.value with
  | [] => false
  | b :: _ => b == marker && c.type == .generic

/-- `Name.Component.isSegment` (name.py:166-176). -/
def Component.isSegment (c : Component) : Bool := c.hasMarker 0x00
/-- `Name.Component.isSegmentOffset` (name.py:178-188). -/
def Component.isSegmentOffset (c : Component) : Bool := c.hasMarker 0xFB
/-- `Name.Component.isVersion` (name.py:190-200). -/
def Component.isVersion (c : Component) : Bool := c.hasMarker 0xFD
/-- `Name.Component.isTimestamp` (name.py:202-212). -/
def Component.isTimestamp (c : Component) : Bool := c.hasMarker 0xFC
/-- `Name.Component.isSequenceNumber` (name.py:214-224). -/
def Component.isSequenceNumber (c : Component) : Bool := c.hasMarker 0xFE

/-- The big-endian accumulation loop (name.py:261-265, 282-286). -/
def accumulate (bs : Bytes) : Nat := bs.foldl (fun r b => r * 256 + b.toNat) 0

/-- `Name.Component.toNumber` (name.py:253-265). -/
def Component.toNumber (c : Component) : Nat := accumulate c.value

/-- `Name.Component.toNumberWithMarker` (name.py:267-286). -/
def Component.toNumberWithMarker (c : Component) (marker : UInt8) : Except Err Nat :=
  match c.value with
  | [] => .error .runtime
  | b :: bs => if b ≠ marker then .error .runtime else .ok (accumulate bs)

/-- `toSegment`, `toSegmentOffset`, `toVersion`, `toTimestamp`, `toSequenceNumber`
(name.py:288-354). -/
def Component.toSegment (c : Component) := c.toNumberWithMarker 0x00
def Component.toSegmentOffset (c : Component) := c.toNumberWithMarker 0xFB
def Component.toVersion (c : Component) := c.toNumberWithMarker 0xFD
def Component.toTimestamp (c : Component) := c.toNumberWithMarker 0xFC
def Component.toSequenceNumber (c : Component) := c.toNumberWithMarker 0xFE

/-- `Name.Component.fromNumber` (name.py:400-421). -/
def Component.fromNumber (number : Int) (type : CType := .generic) : Except Err Component := do
  let out ← writeNonNegativeInteger number []
  return ⟨type, out⟩

/-- `Name.Component.fromNumberWithMarker` (name.py:423-439). -/
def Component.fromNumberWithMarker (number : Int) (marker : UInt8) : Except Err Component := do
  let out ← writeNonNegativeInteger number []
  let out ← writeNonNegativeInteger marker.toNat out
  return ⟨.generic, out⟩

/-- `fromSegment`, ..., `fromSequenceNumber` (name.py:441-507). -/
def Component.fromSegment (n : Int) := Component.fromNumberWithMarker n 0x00
def Component.fromSegmentOffset (n : Int) := Component.fromNumberWithMarker n 0xFB
def Component.fromVersion (n : Int) := Component.fromNumberWithMarker n 0xFD
def Component.fromTimestamp (n : Int) := Component.fromNumberWithMarker n 0xFC
def Component.fromSequenceNumber (n : Int) := Component.fromNumberWithMarker n 0xFE

/-- The loop of `Name.Component.getSuccessor` from the last byte to the first (name.py:562-568).
Returns the result bytes (without the extra one) and `carry`. -/
def successorLoop : Bytes → Bytes × Bool
  | [] => ([], true)
  | b :: bs =>
    let (rs, carry) := successorLoop bs
    if carry then
      let r := b + 1
      (r :: rs, r == 0)
    else (b :: rs, false)

/-- `Name.Component.getSuccessor` (name.py:551-580). -/
def Component.getSuccessor (c : Component) : Component :=
  let (rs, carry) := successorLoop c.value
  ⟨c.type, if carry then rs ++ [0] else rs⟩

/-! ### Name methods -/

/-- A Python list index `l[i]`, negative from the end, IndexError when out of range. -/
def pyIndex (l : List α) (i : Int) : Except Err α :=
  let j := if i < 0 then l.length + i else i
  if j < 0 then .error .index
  else match l[j.toNat]? with
    | some x => .ok x
    | none => .error .index

/-- The ints of a Python `range(a, b)`. -/
def pyRange (a b : Int) : List Int :=
  (List.range (b - a).toNat).map fun k => a + Int.ofNat k

/-- `Name.getSubName` (name.py:752-777). -/
def getSubName (name : Name) (iStartComponent : Int) (nComponents : Option Int := none) :
    Except Err Name :=
  let len : Int := name.length
  let iStart := if iStartComponent < 0 then len - (-iStartComponent) else iStartComponent
  let n := match nComponents with
    | none => len - iStart
    | some n => n
  let iEnd := min (iStart + n) len
  (pyRange iStart iEnd).mapM fun i => pyIndex name i

/-- `Name.getPrefix` (name.py:779-792). -/
def getPrefix (name : Name) (nComponents : Int) : Except Err Name :=
  if nComponents < 0 then getSubName name 0 (some (name.length + nComponents))
  else getSubName name 0 (some nComponents)

/-- `Name.__getitem__` with a slice of step 1 (name.py:1248-1264). -/
def getSlice? (name : Name) (start stop : Option Int) : Except Err Name :=
  let len : Int := name.length
  let s := match start with
    | none => 0
    | some k => if k ≥ 0 then min k len else max (len + k) 0
  let e := match stop with
    | none => len
    | some k => if k ≥ 0 then min k len else max (len + k) 0
  getSubName name s (some (e - s))

/-- The loop of `Name.equals` from last to first (name.py:958-963), on names of the same length. -/
def equalsLoop : Name → Name → Bool
  | [], [] => true
  | x :: xs, y :: ys => if !equalsLoop xs ys then false else x.equals y
  | _, _ => false

/-- `Name.equals` (name.py:946-963). -/
def Name.equals (self name : Name) : Bool :=
  if self.length ≠ name.length then false else equalsLoop self name

/-- The loop of `Name.compare` over the `count` first components of both ranges, and the final test on
the numbers of components (name.py:1024-1043). -/
def compareLoop (nSelf nOther : Int) : Name → Name → Int
  | x :: xs, y :: ys =>
    let comparison := x.compare y
    if comparison = 0 then compareLoop nSelf nOther xs ys else comparison
  | _, _ => if nSelf < nOther then -1 else if nSelf > nOther then 1 else 0

/-- `Name.compare(other)` (name.py:1005-1043). -/
def Name.compare (self other : Name) : Int := compareLoop self.length other.length self other

/-- `Name.compare(iStartComponent, nComponents, other, iOtherStartComponent, nOtherComponents)`
(name.py:1011-1043).  The components compared are collected first; an index out of range raises
IndexError (only at the position where the loop reaches it). -/
def Name.compareRange (self : Name) (iStart nComponents : Int) (other : Name)
    (iOtherStart : Option Int := none) (nOtherComponents : Option Int := none) : Except Err Int :=
  let iOther := iOtherStart.getD 0
  let nOther := nOtherComponents.getD other.length
  let iStart := if iStart < 0 then self.length - (-iStart) else iStart
  let iOther := if iOther < 0 then other.length - (-iOther) else iOther
  let nSelf := min nComponents (self.length - iStart)
  let nOther := min nOther (other.length - iOther)
  let count := min nSelf nOther
  let rec loop : List Int → Except Err Int
    | [] => .ok (if nSelf < nOther then -1 else if nSelf > nOther then 1 else 0)
    | i :: is => do
      let x ← pyIndex self (iStart + i)
      let y ← pyIndex other (iOther + i)
      let comparison := x.compare y
      if comparison = 0 then loop is else return comparison
  loop (pyRange 0 count)

/-- `Name.getSuccessor` (name.py:1045-1070).  The URI literal of line 1068 is 32 zero bytes. -/
def Name.getSuccessor (name : Name) : Except Err Name :=
  if name.length = 0 then .ok [⟨.implicit, List.replicate 32 0⟩]
  else do
    let pre ← getPrefix name (-1)
    let last ← pyIndex name (-1)
    return pre ++ [last.getSuccessor]

/-- The loop of `Name.match` from last to first over the components of `self` (name.py:1086-1093).
Only the values are compared, not the types. -/
def matchLoop : Name → Name → Bool
  | [], _ => true
  | x :: xs, y :: ys => if !matchLoop xs ys then false else blobEquals x.value y.value
  | _ :: _, [] => false

/-- `Name.match` (name.py:1072-1093) and `isPrefixOf` (name.py:1095-1105). -/
def Name.matches (self name : Name) : Bool :=
  if self.length > name.length then false else matchLoop self name

/-! ### Wire encoding -/

/-- Repeat a decoding step while `offset < endOffset`, threading a loop state.  The fuel is the
number of bytes left; a step that did not advance would be reported as the error `index`, which the
lemmas prove unreachable because each step advances. -/
def loopWhile (endOffset : Nat) (body : σ → Dec σ) : Nat → σ → Dec σ
  | 0, s => do
    let off ← getOffset
    if off < endOffset then Dec.throw .index else return s
  | fuel + 1, s => do
    let off ← getOffset
    if off < endOffset then do
      let s ← body s
      loopWhile endOffset body fuel s
    else return s

/-- The `while decoder.getOffset() < endOffset` loops of the wire format. -/
def whileBefore (endOffset : Nat) (body : σ → Dec σ) (s : σ) : Dec σ := do
  let off ← getOffset
  loopWhile endOffset body (endOffset - off) s

/-- Lift an `Except` computation into a decoding action. -/
def Dec.lift (r : Except Err α) : Dec α := ⟨fun _ off =>
  match r with
  | .ok a => .ok (a, off)
  | .error e => .error e⟩

/-- `_encodeNameComponent` (tlv_0_2_wire_format.py:811-825). -/
def encodeNameComponent (c : Component) (out : Bytes) : Bytes :=
  writeBlobTlv c.type.code (some c.value) out

/-- The component that a decoded type and value make (tlv_0_2_wire_format.py:846-854). -/
def componentOf (type : Nat) (value : Bytes) : Except Err Component :=
  if type = 1 then Component.fromImplicitSha256Digest value
  else if type = 2 then Component.fromParametersSha256Digest value
  else if type = 8 then .ok (Component.generic value)
  else .ok ⟨.other type, value⟩

/-- `_decodeNameComponent` (tlv_0_2_wire_format.py:828-854). -/
def decodeNameComponent : Dec Component := do
  let savePosition ← getOffset
  let type ← readVarNumber
  seek savePosition
  let value ← readBlobTlv type
  Dec.lift (componentOf type value)

/-- The backwards component loop of `_encodeName` (tlv_0_2_wire_format.py:874-876). -/
def encodeComponents : Name → Bytes → Bytes
  | [], out => out
  | c :: cs, out => encodeNameComponent c (encodeComponents cs out)

/-- `_encodeName` (tlv_0_2_wire_format.py:857-892), the bytes only. -/
def encodeNameTo (name : Name) (out : Bytes) : Bytes :=
  let saveLength := out.length
  let out := encodeComponents name out
  writeTypeAndLength 7 (out.length - saveLength) out

/-- The offsets that `_encodeName` returns (tlv_0_2_wire_format.py:872-892), relative to the first
byte of the encoded name: where the components begin and where the last component begins. -/
def encodeNameOffsets (name : Name) (out : Bytes) : Nat × Nat :=
  let signedPortionBeginOffsetFromBack := (encodeComponents name out).length
  let len := (encodeNameTo name out).length
  let signedPortionBeginOffset := len - signedPortionBeginOffsetFromBack
  match name.getLast? with
  | none => (signedPortionBeginOffset, signedPortionBeginOffset)
  | some last =>
    let signedPortionEndOffsetFromBack := (encodeNameComponent last out).length
    (signedPortionBeginOffset, len - signedPortionEndOffsetFromBack)

/-- `encodeName` (tlv_0_2_wire_format.py:65-80). -/
def encodeName (name : Name) : Bytes := encodeNameTo name []

/-- `_decodeName` (tlv_0_2_wire_format.py:895-926): the name, and the offsets where the components
begin and where the last component begins.  The name is cleared first, so the old value has no
influence. -/
def decodeNameFrom : Dec (Name × Nat × Nat) := do
  let endOffset ← readNestedTlvsStart 7
  let signedPortionBeginOffset ← getOffset
  let (name, signedPortionEndOffset) ←
    whileBefore endOffset (σ := Name × Nat) (fun (name, _) => do
        let signedPortionEndOffset ← getOffset
        let c ← decodeNameComponent
        return (name ++ [c], signedPortionEndOffset))
      ([], signedPortionBeginOffset)
  finishNestedTlvs endOffset
  return (name, signedPortionBeginOffset, signedPortionEndOffset)

/-- `decodeName` (tlv_0_2_wire_format.py:82-101). -/
def decodeName (input : Bytes) : Except Err Name :=
  match decodeNameFrom.run input 0 with
  | .ok ((name, _, _), _) => .ok name
  | .error e => .error e

end PyNDN
