import Verif.Model.Packet
/-
Model of the Data and Interest objects with their change counts, cached encodings, cached full name
and nonce (util/change_counter.py, data.py, interest.py, key_locator.py, signature classes,
meta_info.py, exclude.py, delegation_set.py, validity_period.py).

Names are shared by reference (`setName` and `setKeyName` keep the caller's object), so they live in a
heap and a reference is an index.  All other child objects are copied by the setters, so they are
part of their parent; a caller who holds a child (for example from `getMetaInfo()`) changes it in
place, which is an operation on the parent's part.
A wire format is identified by a number; what it encodes and which setters its decoder calls are
parameters (`DataFormats`, `InterestFormats`), so the model covers every wire format.
-/
namespace PyNDN

/-- An object without child objects: a value and `_changeCount`. -/
structure Obj (α : Type) where
  val : α
  count : Nat := 0
  deriving DecidableEq, Repr

/-- A mutating method: every one does `self._changeCount += 1` (name.py:742,750; meta_info.py:98-166;
exclude.py:118,133,149,157; delegation_set.py:121,134,156,164; validity_period.py:102,122). -/
def Obj.change (o : Obj α) (v : α) : Obj α := ⟨v, o.count + 1⟩

/-- The Name objects that exist. -/
abbrev Heap := List (Obj Name)

/-- The Name object with the reference `r`.  Only references to existing objects are used. -/
def Heap.at (h : Heap) (r : Nat) : Obj Name := h.getD r ⟨[], 0⟩

/-- A new Name object (name.py:36-50) and its reference. -/
def Heap.new (h : Heap) (v : Name) : Heap × Nat := (h ++ [⟨v, 0⟩], h.length)

/-- `Name.append` with the components `v`, or `Name.clear` (name.py:697-750), on the object `r`. -/
def Heap.mutate (h : Heap) (r : Nat) (f : Name → Name) : Heap :=
  h.set r ((h.at r).change (f (h.at r).val))

/-- A mutating method of `MetaInfo`, called on the object (meta_info.py:98-166). -/
inductive MetaOp where
  | setType (t : Option Int)
  | setOtherTypeCode (c : Int)
  | setFreshnessPeriod (p : Option Int)
  | setFinalBlockId (c : Component)
  | clear
  deriving DecidableEq, Repr

/-- The effect of a `MetaOp` (meta_info.py:98-166).  `setOtherTypeCode` raises RuntimeError for a negative
code. -/
def Obj.metaOp (o : Obj MetaInfo) : MetaOp → Obj MetaInfo
  | .setType t => o.change { o.val with type := match t with
      | none => 0 | some t => if t < 0 then 0 else t.toNat }
  | .setOtherTypeCode c => if c < 0 then o else o.change { o.val with otherTypeCode := c }
  | .setFreshnessPeriod p => o.change { o.val with freshnessPeriod := match p with
      | none => none | some p => if p < 0 then none else some p.toNat }
  | .setFinalBlockId c => o.change { o.val with finalBlockId := c }
  | .clear => o.change {}

/-! ### Key locators -/

/-- A `KeyLocator` object (key_locator.py:37-52).  `keyName` and `nameSeen` are the ChangeCounter of
the key name. -/
structure KlObj where
  type : Option Nat
  keyName : Nat
  nameSeen : Nat
  keyData : Option Bytes
  count : Nat
  deriving DecidableEq, Repr

/-- The value of a KeyLocator object. -/
def KlObj.val (k : KlObj) (h : Heap) : KeyLocator := ⟨k.type, (h.at k.keyName).val, k.keyData⟩

/-- `KeyLocator(value)` (key_locator.py:37-52), which copies the name.  `KeyLocator()` is the copy of
an empty one. -/
def KlObj.new (v : KeyLocator) (h : Heap) : Heap × KlObj :=
  let (h, r) := h.new v.keyName
  (h, ⟨v.type, r, (h.at r).count, v.keyData, 0⟩)

/-- `KeyLocator.setType` (key_locator.py:85-95); `none` stands for None and for a negative number. -/
def KlObj.setType (k : KlObj) (t : Option Nat) : KlObj := { k with type := t, count := k.count + 1 }

/-- `KeyLocator.setKeyName` (key_locator.py:97-105): keeps a reference to the caller's Name. -/
def KlObj.setKeyName (k : KlObj) (h : Heap) (r : Nat) : KlObj :=
  { k with keyName := r, nameSeen := (h.at r).count, count := k.count + 1 }

/-- `KeyLocator.setKeyData` (key_locator.py:107-118). -/
def KlObj.setKeyData (k : KlObj) (b : Option Bytes) : KlObj := { k with keyData := b, count := k.count + 1 }

/-- `KeyLocator.clear` (key_locator.py:120-127): clears the Name object it refers to. -/
def KlObj.clear (k : KlObj) (h : Heap) : Heap × KlObj :=
  (h.mutate k.keyName (fun _ => []), { k with type := none, keyData := none, count := k.count + 1 })

/-- `KeyLocator.getChangeCount` (key_locator.py:168-182, change_counter.py:66-80). -/
def KlObj.getChangeCount (k : KlObj) (h : Heap) : KlObj × Nat :=
  if k.nameSeen ≠ (h.at k.keyName).count then
    ({ k with nameSeen := (h.at k.keyName).count, count := k.count + 1 }, k.count + 1)
  else (k, k.count)

/-! ### Signatures -/

inductive SigKind where
  | rsa | ecdsa | hmac | digest | generic
  deriving DecidableEq, Repr

/-- `Sha256WithRsaSignature` (sha256_with_rsa_signature.py:42-57), `Sha256WithEcdsaSignature` (the same
code), `HmacWithSha256Signature` (no validity period), `DigestSha256Signature` (only the signature
bits) and `GenericSignature` (generic_signature.py:39-54; only the encoding, type code and bits).  The
fields that a class does not have are not looked at. -/
structure SigObj where
  kind : SigKind
  kl : KlObj
  klSeen : Nat
  vp : Obj ValidityPeriod
  vpSeen : Nat
  encoding : Option Bytes
  typeCode : Option Nat
  bits : Option Bytes
  count : Nat
  deriving DecidableEq, Repr

/-- The value of a signature object. -/
def SigObj.val (s : SigObj) (h : Heap) : Signature :=
  { info := match s.kind with
      | .rsa => .rsa (s.kl.val h) s.vp.val
      | .ecdsa => .ecdsa (s.kl.val h) s.vp.val
      | .hmac => .hmac (s.kl.val h)
      | .digest => .digest
      | .generic => .generic s.encoding s.typeCode
    signature := s.bits }

/-- A signature object with a given value: the constructors and `clone`
(sha256_with_rsa_signature.py:42-66, hmac_with_sha256_signature.py:41-63,
digest_sha256_signature.py:38-58, generic_signature.py:39-63), which copy the key locator and the
validity period. -/
def SigObj.new (v : Signature) (h : Heap) : Heap × SigObj :=
  let (h, kl) := KlObj.new (v.info.keyLocator?.getD {}) h
  let vp : Obj ValidityPeriod := ⟨match v.info with | .rsa _ p => p | .ecdsa _ p => p | _ => none, 0⟩
  let kind := match v.info with
    | .rsa _ _ => SigKind.rsa | .ecdsa _ _ => .ecdsa | .hmac _ => .hmac | .digest => .digest
    | .generic _ _ => .generic
  let encoding := match v.info with | .generic e _ => e | _ => none
  let typeCode := match v.info with | .generic _ t => t | _ => none
  (h, ⟨kind, kl, kl.count, vp, vp.count, encoding, typeCode, v.signature, 0⟩)

/-- Whether the class has a key locator and a validity period. -/
def SigKind.hasKl : SigKind → Bool
  | .rsa => true | .ecdsa => true | .hmac => true | .digest => false | .generic => false
def SigKind.hasVp : SigKind → Bool
  | .rsa => true | .ecdsa => true | .hmac => false | .digest => false | .generic => false

/-- `getChangeCount` of the signature classes (sha256_with_rsa_signature.py:131-146,
hmac_with_sha256_signature.py:110-124, digest_sha256_signature.py:86-94, generic_signature.py:134-142):
each child that the class has is checked. -/
def SigObj.getChangeCount (s : SigObj) (h : Heap) : SigObj × Nat :=
  let (s, changed) :=
    if s.kind.hasKl then
      let (kl, c) := s.kl.getChangeCount h
      ({ s with kl := kl, klSeen := c }, decide (s.klSeen ≠ c))
    else (s, false)
  let (s, changed) :=
    if s.kind.hasVp then ({ s with vpSeen := s.vp.count }, changed || decide (s.vpSeen ≠ s.vp.count))
    else (s, changed)
  if changed then ({ s with count := s.count + 1 }, s.count + 1) else (s, s.count)

/-- Mutating calls on a signature object or on its children. -/
inductive SigOp where
  /-- `setKeyLocator` (sha256_with_rsa_signature.py:95-102). -/
  | setKeyLocator (v : KeyLocator)
  /-- `setValidityPeriod` (sha256_with_rsa_signature.py:104-111). -/
  | setValidityPeriod (v : ValidityPeriod)
  /-- `setSignature` (sha256_with_rsa_signature.py:113-124). -/
  | setSignature (b : Option Bytes)
  /-- `setSignatureInfoEncoding` (generic_signature.py:109-126). -/
  | setEncoding (b : Option Bytes) (typeCode : Option Nat)
  /-- `clear` (sha256_with_rsa_signature.py:126-129, generic_signature.py:128-132). -/
  | clear
  /-- `getKeyLocator().setType` and so on. -/
  | klType (t : Option Nat)
  | klName (r : Nat)
  | klData (b : Option Bytes)
  | klClear
  /-- `getValidityPeriod().setPeriod` and `clear` (validity_period.py:96-124). -/
  | vpSet (notBefore notAfter : Int)
  | vpClear
  deriving DecidableEq, Repr

/-- The effect of a mutating call.  A call of a method that the class does not have raises
AttributeError and changes nothing. -/
def SigObj.apply (s : SigObj) (h : Heap) : SigOp → Heap × SigObj
  | .setKeyLocator v =>
    if s.kind.hasKl then
      let (h, kl) := KlObj.new v h
      (h, { s with kl := kl, klSeen := kl.count, count := s.count + 1 })
    else (h, s)
  | .setValidityPeriod v =>
    if s.kind.hasVp then (h, { s with vp := ⟨v, 0⟩, vpSeen := 0, count := s.count + 1 }) else (h, s)
  | .setSignature b => (h, { s with bits := b, count := s.count + 1 })
  | .setEncoding b t =>
    if s.kind = .generic then (h, { s with encoding := b, typeCode := t, count := s.count + 1 }) else (h, s)
  | .clear =>
    let s1 := { s with bits := none, count := s.count + 1 }
    if s.kind.hasKl then
      let (h, kl) := s.kl.clear h
      (h, { s1 with kl := kl })
    else if s.kind = .generic then (h, { s1 with encoding := none, typeCode := none })
    else (h, s1)
  | .klType t => if s.kind.hasKl then (h, { s with kl := s.kl.setType t }) else (h, s)
  | .klName r => if s.kind.hasKl ∧ r < h.length then (h, { s with kl := s.kl.setKeyName h r }) else (h, s)
  | .klData b => if s.kind.hasKl then (h, { s with kl := s.kl.setKeyData b }) else (h, s)
  | .klClear =>
    if s.kind.hasKl then
      let (h, kl) := s.kl.clear h
      (h, { s with kl := kl })
    else (h, s)
  | .vpSet b e => if s.kind.hasVp then (h, { s with vp := s.vp.change (setPeriod b e) }) else (h, s)
  | .vpClear => if s.kind.hasVp then (h, { s with vp := s.vp.change none }) else (h, s)

/-! ### Data -/

/-- A `SignedBlob`: the bytes and the offsets of the signed portion. -/
abbrev Wire := Bytes × Nat × Nat

/-- A `Data` object (data.py:37-59), without the `_lpPacket`, which does not affect the encoding.
Each `...Seen` is the count in the ChangeCounter of the child. -/
structure DataObj where
  name : Nat
  nameSeen : Nat
  metaInfo : Obj MetaInfo
  metaSeen : Nat
  sig : SigObj
  sigSeen : Nat
  content : Option Bytes
  defaultWireEncoding : Option Wire
  defaultFullName : Name
  defaultFormat : Option Nat
  getDefaultCount : Nat
  count : Nat
  deriving DecidableEq, Repr

/-- The current fields of a Data object. -/
def DataObj.fields (d : DataObj) (h : Heap) : Data :=
  { name := (h.at d.name).val, metaInfo := d.metaInfo.val, content := d.content, signature := d.sig.val h }

/-- `Data(name)` and `Data()` (data.py:48-59).  `MetaInfo()` has the change count 1, because its
constructor calls `clear` (meta_info.py:37-40). -/
def DataObj.new (name : Name) (h : Heap) : Heap × DataObj :=
  let (h, r) := h.new name
  let (h, sig) := SigObj.new {} h
  (h, { name := r, nameSeen := (h.at r).count, metaInfo := ⟨{}, 1⟩, metaSeen := 1, sig := sig,
        sigSeen := (sig.getChangeCount h).2, content := none, defaultWireEncoding := none,
        defaultFullName := [], defaultFormat := none, getDefaultCount := 0, count := 0 })

/-- `Data.getChangeCount` (data.py:316-332). -/
def DataObj.getChangeCount (d : DataObj) (h : Heap) : DataObj × Nat :=
  let nameCount := (h.at d.name).count
  let changed := decide (d.nameSeen ≠ nameCount)
  let changed := decide (d.metaSeen ≠ d.metaInfo.count) || changed
  let (sig, sigCount) := d.sig.getChangeCount h
  let changed := decide (d.sigSeen ≠ sigCount) || changed
  let d := { d with nameSeen := nameCount, metaSeen := d.metaInfo.count, sig := sig, sigSeen := sigCount }
  if changed then ({ d with count := d.count + 1 }, d.count + 1) else (d, d.count)

/-- `Data.getDefaultWireEncoding` (data.py:164-180). -/
def DataObj.getDefaultWireEncoding (d : DataObj) (h : Heap) : DataObj × Option Wire :=
  let (d, c) := d.getChangeCount h
  if d.getDefaultCount ≠ c then
    let d := { d with defaultWireEncoding := none, defaultFormat := none }
    let (d, c) := d.getChangeCount h
    let d := { d with getDefaultCount := c }
    (d, d.defaultWireEncoding)
  else (d, d.defaultWireEncoding)

/-- `Data._setDefaultWireEncoding` (data.py:334-340). -/
def DataObj.setDefaultWireEncoding (d : DataObj) (h : Heap) (w : Option Wire) (fmt : Option Nat) : DataObj :=
  let (d, c) := ({ d with defaultWireEncoding := w, defaultFormat := fmt } : DataObj).getChangeCount h
  { d with getDefaultCount := c }

/-- `Data(value)` for a Data object (data.py:38-46,57-58): a copy.  `_defaultWireEncodingFormat` is read
after `getDefaultWireEncoding` checked the change count. -/
def DataObj.copy (d : DataObj) (h : Heap) : Heap × DataObj × DataObj :=
  let (h, r) := h.new (h.at d.name).val
  let (h, sig) := SigObj.new (d.sig.val h) h
  let (d, w) := d.getDefaultWireEncoding h
  (h, d, { name := r, nameSeen := (h.at r).count, metaInfo := ⟨d.metaInfo.val, 0⟩, metaSeen := 0,
           sig := sig, sigSeen := (sig.getChangeCount h).2, content := d.content,
           defaultWireEncoding := w, defaultFullName := d.defaultFullName,
           defaultFormat := d.defaultFormat, getDefaultCount := 0, count := 0 })

/-- Mutating calls on a Data object or its children, and on Name objects anywhere; and the calls that
read a change count (which updates the ChangeCounters). -/
inductive DataOp where
  /-- The caller makes a new Name object. -/
  | newName (v : Name)
  /-- `Name.append(v)` and `Name.clear()` on any Name object. -/
  | nameAppend (r : Nat) (v : Name)
  | nameClear (r : Nat)
  /-- `Data.setName` (data.py:251-261). -/
  | setName (r : Nat)
  /-- `Data.setMetaInfo` (data.py:263-274), which copies. -/
  | setMetaInfo (v : MetaInfo)
  /-- `getMetaInfo().setType` and so on. -/
  | metaInfo (op : MetaOp)
  /-- `Data.setSignature` (data.py:276-288), which clones. -/
  | setSignature (v : Signature)
  /-- A call on `getSignature()`. -/
  | signature (op : SigOp)
  /-- `Data.setContent` (data.py:290-300). -/
  | setContent (b : Option Bytes)
  /-- `getSignature().getKeyLocator().getChangeCount()`. -/
  | readKeyLocatorCount
  /-- `getSignature().getChangeCount()`. -/
  | readSignatureCount
  /-- `Data.getChangeCount()`. -/
  | readCount

/-- The effect of a `DataOp`.  A reference to a Name that does not exist is not possible. -/
def DataObj.apply (d : DataObj) (h : Heap) : DataOp → Heap × DataObj
  | .newName v => ((h.new v).1, d)
  | .nameAppend r v => (h.mutate r (· ++ v), d)
  | .nameClear r => (h.mutate r (fun _ => []), d)
  | .setName r =>
    if r < h.length then (h, { d with name := r, nameSeen := (h.at r).count, count := d.count + 1 }) else (h, d)
  | .setMetaInfo v => (h, { d with metaInfo := ⟨v, 0⟩, metaSeen := 0, count := d.count + 1 })
  | .metaInfo op => (h, { d with metaInfo := d.metaInfo.metaOp op })
  | .setSignature v =>
    let (h, sig) := SigObj.new v h
    (h, { d with sig := sig, sigSeen := (sig.getChangeCount h).2, count := d.count + 1 })
  | .signature op =>
    let (h, sig) := d.sig.apply h op
    (h, { d with sig := sig })
  | .setContent b => (h, { d with content := b, count := d.count + 1 })
  | .readKeyLocatorCount =>
    if d.sig.kind.hasKl then
      (h, { d with sig := { d.sig with kl := (d.sig.kl.getChangeCount h).1 } })
    else (h, d)
  | .readSignatureCount => (h, { d with sig := (d.sig.getChangeCount h).1 })
  | .readCount => (h, (d.getChangeCount h).1)

/-- A sequence of `DataOp`s. -/
def DataObj.applyAll (d : DataObj) (h : Heap) : List DataOp → Heap × DataObj
  | [] => (h, d)
  | op :: ops =>
    let (h, d) := d.apply h op
    d.applyAll h ops

/-- The wire formats: what `encodeData` returns for the fields, and the calls that `decodeData` makes on
the given object, with its result.  `digest` is SHA-256. -/
structure DataFormats where
  encode : Nat → Data → Except Err Wire
  decode : Nat → Heap → DataObj → Bytes → List DataOp × Except Err (Nat × Nat)
  digest : Bytes → Bytes

/-- Everything that a Data object's methods depend on. -/
structure DataWorld where
  heap : Heap
  data : DataObj
  /-- `WireFormat.getDefaultWireFormat()` -/
  defaultFormat : Nat

def DataWorld.fields (w : DataWorld) : Data := w.data.fields w.heap

/-- `Data.wireEncode` (data.py:61-91). -/
def DataWorld.wireEncode (F : DataFormats) (w : DataWorld) (wireFormat : Option Nat) :
    DataWorld × Except Err Wire :=
  let fmt := wireFormat.getD w.defaultFormat
  let (d, enc) := w.data.getDefaultWireEncoding w.heap
  match (if enc.isSome ∧ d.defaultFormat = some fmt then enc else none) with
  | some _ =>
    match d.getDefaultWireEncoding w.heap with
    | (d, some enc) => ({ w with data := d }, .ok enc)
    | (d, none) => ({ w with data := d }, .error .type)
  | none =>
    match F.encode fmt (d.fields w.heap) with
    | .error e => ({ w with data := d }, .error e)
    | .ok enc =>
      if fmt = w.defaultFormat then
        ({ w with data := d.setDefaultWireEncoding w.heap (some enc) (some w.defaultFormat) }, .ok enc)
      else ({ w with data := d }, .ok enc)

/-- `Data.wireDecode` (data.py:93-126).  When the decoder raises, the setters it already called have
taken effect. -/
def DataWorld.wireDecode (F : DataFormats) (w : DataWorld) (input : Bytes) (wireFormat : Option Nat) :
    DataWorld × Except Err Unit :=
  let fmt := wireFormat.getD w.defaultFormat
  let (ops, result) := F.decode fmt w.heap w.data input
  let (h, d) := w.data.applyAll w.heap ops
  match result with
  | .error e => ({ w with heap := h, data := d }, .error e)
  | .ok (b, e) =>
    if fmt = w.defaultFormat then
      ({ w with heap := h, data := d.setDefaultWireEncoding h (some (input, b, e)) (some w.defaultFormat) }, .ok ())
    else ({ w with heap := h, data := d.setDefaultWireEncoding h none none }, .ok ())

/-- `Data.getFullName` (data.py:214-249). -/
def DataWorld.getFullName (F : DataFormats) (w : DataWorld) (wireFormat : Option Nat) :
    DataWorld × Except Err Name :=
  let fmt := wireFormat.getD w.defaultFormat
  let (d, enc) := w.data.getDefaultWireEncoding w.heap
  let w := { w with data := d }
  if enc.isSome ∧ d.defaultFullName.length > 0 ∧ d.defaultFormat = some fmt then (w, .ok d.defaultFullName)
  else
    let name := (w.heap.at d.name).val
    match w.wireEncode F (some fmt) with
    | (w, .error e) => (w, .error e)
    | (w, .ok enc) =>
      let fullName := name ++ [⟨.implicit, F.digest enc.1⟩]
      if fmt = w.defaultFormat then
        ({ w with data := { w.data with defaultFullName := fullName } }, .ok fullName)
      else (w, .ok fullName)

/-- What a program can do with a Data object. -/
inductive DataCall where
  | op (o : DataOp)
  | wireEncode (wireFormat : Option Nat)
  | wireDecode (input : Bytes) (wireFormat : Option Nat)
  | getDefaultWireEncoding
  | getFullName (wireFormat : Option Nat)
  /-- `WireFormat.setDefaultWireFormat`. -/
  | setDefaultWireFormat (fmt : Nat)
  /-- Go on with `Data(data)`, a copy of the object. -/
  | copy

/-- The effect of a call. -/
def DataWorld.call (F : DataFormats) (w : DataWorld) : DataCall → DataWorld
  | .op o => let (h, d) := w.data.apply w.heap o; { w with heap := h, data := d }
  | .wireEncode f => (w.wireEncode F f).1
  | .wireDecode input f => (w.wireDecode F input f).1
  | .getDefaultWireEncoding => { w with data := (w.data.getDefaultWireEncoding w.heap).1 }
  | .getFullName f => (w.getFullName F f).1
  | .setDefaultWireFormat f => { w with defaultFormat := f }
  | .copy => let (h, _, d) := w.data.copy w.heap; { w with heap := h, data := d }

/-- A program: a sequence of calls. -/
def DataWorld.run (F : DataFormats) (w : DataWorld) : List DataCall → DataWorld
  | [] => w
  | c :: cs => (w.call F c).run F cs

/-- A new Data object among any existing Name objects. -/
def DataWorld.start (h : Heap) (name : Name) (fmt : Nat) : DataWorld :=
  let (h, d) := DataObj.new name h
  ⟨h, d, fmt⟩

/-- The calls on the MetaInfo object with which `_decodeMetaInfo` gives it the value `m`
(tlv_0_2_wire_format.py:1057-1087, and `clear` at line 359 when there is no MetaInfo). -/
def tlvMetaOps (m : MetaInfo) : List MetaOp :=
  if m = {} then [.clear]
  else [.setType (some m.type)] ++ (if m.type = 0x7fff then [.setOtherTypeCode m.otherTypeCode] else []) ++
    [.setFreshnessPeriod (m.freshnessPeriod.map Int.ofNat), .setFinalBlockId m.finalBlockId]

/-- The calls that `Tlv0_2WireFormat.decodeData` (tlv_0_2_wire_format.py:338-378) makes on the object
whose name is the object `r` when it decodes the Data `d`. -/
def tlvDataOps (r : Nat) (d : Data) : List DataOp :=
  [.nameClear r, .nameAppend r d.name] ++ (tlvMetaOps d.metaInfo).map .metaInfo ++
  [.setContent d.content, .setSignature { d.signature with signature := none },
   .signature (.setSignature d.signature.signature)]

/-- `Tlv0_2WireFormat` as wire format of Data objects.  Simplification: when it raises, the calls that
decodeData made before the exception are left out (`C23_data` covers them, being about every wire
format). -/
def tlvDataFormats (digest : Bytes → Bytes) : DataFormats where
  encode := fun _ d => encodeData d
  decode := fun _ h o input =>
    match decodeData (o.fields h) input with
    | .error e => ([], .error e)
    | .ok (d, b, e) => (tlvDataOps o.name d, .ok (b, e))
  digest := digest

/-! ### Interest -/

/-- A mutating method of `Exclude`, called on the object (exclude.py:110-157). -/
inductive ExcludeOp where
  | appendAny
  | appendComponent (c : Component)
  | clear
  deriving DecidableEq, Repr

/-- The effect of an `ExcludeOp` (exclude.py:110-157). -/
def Obj.excludeOp (o : Obj Exclude) : ExcludeOp → Obj Exclude
  | .appendAny => o.change (o.val ++ [none])
  | .appendComponent c => o.change (o.val ++ [some c])
  | .clear => o.change []

/-- A mutating method of `DelegationSet`, called on the object (delegation_set.py:99-164). -/
inductive HintOp where
  | add (preference : Int) (name : Name)
  | addUnsorted (preference : Int) (name : Name)
  | remove (name : Name)
  | clear
  deriving DecidableEq, Repr

/-- The effect of a `HintOp` (delegation_set.py:99-164): `remove` counts only if something was removed,
and `add` calls `remove` first. -/
def Obj.hintOp (o : Obj DelegationSet) : HintOp → Obj DelegationSet
  | .add p n =>
    let removed := DelegationSet.remove n o.val
    let o1 := if removed.2 then o.change removed.1 else o
    o1.change (o.val.add p n)
  | .addUnsorted p n => o.change (o.val.addUnsorted p n)
  | .remove n =>
    let removed := DelegationSet.remove n o.val
    if removed.2 then o.change removed.1 else o
  | .clear => o.change []

/-- A `Link` object that `Interest.getLink` made: the wire encoding and format it was decoded from, and the
mutating calls made on it since (each a number, as their effect does not matter here). -/
structure LinkObj where
  origin : Bytes × Nat
  edits : List Nat
  deriving DecidableEq, Repr

/-- An `Interest` object (interest.py:40-89), without `_didSetCanBePrefix` and `_lpPacket`, which do not
affect the encoding. -/
structure InterestObj where
  name : Nat
  nameSeen : Nat
  minSuffix : Option Nat
  maxSuffix : Option Nat
  kl : KlObj
  klSeen : Nat
  exclude : Obj Exclude
  excludeSeen : Nat
  childSelector : Option Nat
  mustBeFresh : Bool
  nonce : Option Bytes
  nonceCount : Nat
  lifetime : Option Nat
  hint : Obj DelegationSet
  hintSeen : Nat
  params : Option Bytes
  linkWire : Option (Bytes × Nat)
  linkObj : Option LinkObj
  selected : Option Nat
  defaultWireEncoding : Option Wire
  defaultFormat : Option Nat
  getDefaultCount : Nat
  count : Nat
  deriving DecidableEq, Repr

/-- `Interest.getChangeCount` (interest.py:879-896). -/
def InterestObj.getChangeCount (i : InterestObj) (h : Heap) : InterestObj × Nat :=
  let nameCount := (h.at i.name).count
  let changed := decide (i.nameSeen ≠ nameCount)
  let (kl, klCount) := i.kl.getChangeCount h
  let changed := decide (i.klSeen ≠ klCount) || changed
  let changed := decide (i.excludeSeen ≠ i.exclude.count) || changed
  let changed := decide (i.hintSeen ≠ i.hint.count) || changed
  let i := { i with nameSeen := nameCount, kl := kl, klSeen := klCount, excludeSeen := i.exclude.count,
                    hintSeen := i.hint.count }
  if changed then ({ i with count := i.count + 1 }, i.count + 1) else (i, i.count)

/-- `Interest.getNonce` (interest.py:197-210). -/
def InterestObj.getNonce (i : InterestObj) (h : Heap) : InterestObj × Option Bytes :=
  let (i, c) := i.getChangeCount h
  if i.nonceCount ≠ c then
    let i := { i with nonce := none }
    let (i, c) := i.getChangeCount h
    let i := { i with nonceCount := c }
    (i, i.nonce)
  else (i, i.nonce)

/-- The link: what it was set or decoded from, and the changes to the Link object. -/
def InterestObj.link (i : InterestObj) : Option ((Bytes × Nat) × List Nat) :=
  match i.linkObj with
  | some l => some (l.origin, l.edits)
  | none => i.linkWire.map (fun w => (w, []))

/-- The current fields of an Interest: what its getters return. -/
def InterestObj.fields (i : InterestObj) (h : Heap) : Interest × Option ((Bytes × Nat) × List Nat) :=
  ({ name := (h.at i.name).val, minSuffix := i.minSuffix, maxSuffix := i.maxSuffix, keyLocator := i.kl.val h,
     exclude := i.exclude.val, childSelector := i.childSelector, mustBeFresh := i.mustBeFresh,
     nonce := (i.getNonce h).2, lifetime := i.lifetime, forwardingHint := i.hint.val,
     applicationParameters := i.params, link := none, selectedDelegation := i.selected }, i.link)

/-- `Interest(name)` (interest.py:65-89); `canBePrefix` is the default set with `setDefaultCanBePrefix`. -/
def InterestObj.new (name : Name) (canBePrefix : Bool) (h : Heap) : Heap × InterestObj :=
  let (h, r) := h.new name
  let (h, kl) := KlObj.new {} h
  (h, { name := r, nameSeen := (h.at r).count, minSuffix := none, maxSuffix := if canBePrefix then none else some 1,
        kl := kl, klSeen := (kl.getChangeCount h).2, exclude := ⟨[], 0⟩, excludeSeen := 0, childSelector := none,
        mustBeFresh := false, nonce := none, nonceCount := 0, lifetime := none, hint := ⟨[], 0⟩, hintSeen := 0,
        params := none, linkWire := none, linkObj := none, selected := none, defaultWireEncoding := none,
        defaultFormat := none, getDefaultCount := 0, count := 0 })

/-- Calls that only read, but update what is cached. -/
inductive InterestRead where
  | getNonce
  /-- `getLink` (interest.py:264-288); `decodes` says whether `Link.wireDecode` accepts the encoding. -/
  | getLink (decodes : Bool)
  | readCount
  | readKeyLocatorCount
  deriving DecidableEq, Repr

/-- The effect of an `InterestRead`. -/
def InterestObj.read (i : InterestObj) (h : Heap) : InterestRead → InterestObj
  | .getNonce => (i.getNonce h).1
  | .getLink decodes =>
    match i.linkObj, i.linkWire with
    | none, some w => if decodes then { i with linkObj := some ⟨w, []⟩, linkWire := none } else i
    | _, _ => i
  | .readCount => (i.getChangeCount h).1
  | .readKeyLocatorCount => { i with kl := (i.kl.getChangeCount h).1 }

/-- Calls on an Interest object or its children, and on Name objects anywhere. -/
inductive InterestOp where
  | newName (v : Name)
  | nameAppend (r : Nat) (v : Name)
  | nameClear (r : Nat)
  | setName (r : Nat)
  | setMinSuffix (n : Option Int)
  | setMaxSuffix (n : Option Int)
  | setCanBePrefix (b : Bool)
  | setKeyLocator (v : KeyLocator)
  | klType (t : Option Nat)
  | klName (r : Nat)
  | klData (b : Option Bytes)
  | klClear
  | setExclude (v : Exclude)
  | exclude (op : ExcludeOp)
  | setForwardingHint (v : DelegationSet)
  | hint (op : HintOp)
  | setApplicationParameters (b : Option Bytes)
  | setLinkWireEncoding (b : Option Bytes) (fmt : Nat)
  | setSelectedDelegation (n : Option Int)
  | setChildSelector (n : Option Int)
  | setMustBeFresh (b : Bool)
  | setNonce (b : Option Bytes)
  | setLifetime (n : Option Int)
  /-- `refreshNonce`; `new` is the random nonce it makes. -/
  | refreshNonce (new : Bytes)
  /-- `appendParametersDigestToName` (interest.py:582-601); `d` is the digest of the parameters. -/
  | appendParametersDigest (d : Bytes)
  /-- A mutating call on the object that `getLink` returned. -/
  | editLink (e : Nat)
  | read (r : InterestRead)
  deriving DecidableEq, Repr

/-- `Common.nonNegativeIntOrNone` (util/common.py:146-155). -/
def nonNegativeOrNone : Option Int → Option Nat
  | none => none
  | some n => if n < 0 then none else some n.toNat

/-- `Interest.setNonce` (interest.py:556-566). -/
def InterestObj.setNonce (i : InterestObj) (h : Heap) (b : Option Bytes) : InterestObj :=
  let i := { i with nonce := b, count := i.count + 1 }
  let (i, c) := i.getChangeCount h
  { i with nonceCount := c }

/-- The effect of an `InterestOp` (interest.py:347-601, 708-730). -/
def InterestObj.apply (i : InterestObj) (h : Heap) : InterestOp → Heap × InterestObj
  | .newName v => ((h.new v).1, i)
  | .nameAppend r v => (h.mutate r (· ++ v), i)
  | .nameClear r => (h.mutate r (fun _ => []), i)
  | .setName r =>
    if r < h.length then (h, { i with name := r, nameSeen := (h.at r).count, count := i.count + 1 }) else (h, i)
  | .setMinSuffix n => (h, { i with minSuffix := nonNegativeOrNone n, count := i.count + 1 })
  | .setMaxSuffix n => (h, { i with maxSuffix := nonNegativeOrNone n, count := i.count + 1 })
  | .setCanBePrefix b => (h, { i with maxSuffix := if b then none else some 1, count := i.count + 1 })
  | .setKeyLocator v =>
    let (h, kl) := KlObj.new v h
    (h, { i with kl := kl, klSeen := (kl.getChangeCount h).2, count := i.count + 1 })
  | .klType t => (h, { i with kl := i.kl.setType t })
  | .klName r => if r < h.length then (h, { i with kl := i.kl.setKeyName h r }) else (h, i)
  | .klData b => (h, { i with kl := i.kl.setKeyData b })
  | .klClear =>
    let (h, kl) := i.kl.clear h
    (h, { i with kl := kl })
  | .setExclude v => (h, { i with exclude := ⟨v, 0⟩, excludeSeen := 0, count := i.count + 1 })
  | .exclude op => (h, { i with exclude := i.exclude.excludeOp op })
  | .setForwardingHint v => (h, { i with hint := ⟨v, 0⟩, hintSeen := 0, count := i.count + 1 })
  | .hint op => (h, { i with hint := i.hint.hintOp op })
  | .setApplicationParameters b => (h, { i with params := b, count := i.count + 1 })
  | .setLinkWireEncoding b fmt =>
    (h, { i with linkWire := b.map (fun b => (b, fmt)), linkObj := none, count := i.count + 1 })
  | .setSelectedDelegation n => (h, { i with selected := nonNegativeOrNone n, count := i.count + 1 })
  | .setChildSelector n => (h, { i with childSelector := nonNegativeOrNone n, count := i.count + 1 })
  | .setMustBeFresh b => (h, { i with mustBeFresh := b, count := i.count + 1 })
  | .setNonce b => (h, i.setNonce h b)
  | .setLifetime n => (h, { i with lifetime := nonNegativeOrNone n, count := i.count + 1 })
  | .refreshNonce new =>
    let (i, current) := i.getNonce h
    if blobSize current = 0 then (h, i) else (h, i.setNonce h (some new))
  | .appendParametersDigest d =>
    if blobSize i.params > 0 then (h.mutate i.name (· ++ [⟨.params, d⟩]), i) else (h, i)
  | .editLink e => (h, { i with linkObj := i.linkObj.map (fun l => { l with edits := l.edits ++ [e] }) })
  | .read r => (h, i.read h r)

/-- A sequence of `InterestOp`s. -/
def InterestObj.applyAll (i : InterestObj) (h : Heap) : List InterestOp → Heap × InterestObj
  | [] => (h, i)
  | op :: ops =>
    let (h, i) := i.apply h op
    i.applyAll h ops

/-- `Interest.getDefaultWireEncoding` (interest.py:837-853). -/
def InterestObj.getDefaultWireEncoding (i : InterestObj) (h : Heap) : InterestObj × Option Wire :=
  let (i, c) := i.getChangeCount h
  if i.getDefaultCount ≠ c then
    let i := { i with defaultWireEncoding := none, defaultFormat := none }
    let (i, c) := i.getChangeCount h
    let i := { i with getDefaultCount := c }
    (i, i.defaultWireEncoding)
  else (i, i.defaultWireEncoding)

/-- `Interest._setDefaultWireEncoding` (interest.py:898-904). -/
def InterestObj.setDefaultWireEncoding (i : InterestObj) (h : Heap) (w : Option Wire) (fmt : Option Nat) :
    InterestObj :=
  let (i, c) := ({ i with defaultWireEncoding := w, defaultFormat := fmt } : InterestObj).getChangeCount h
  { i with getDefaultCount := c }

/-- `Interest(value)` for an Interest object (interest.py:40-63,86-88): a copy.  The order of the reads is
that of the code; `DelegationSet(...)`, `Exclude(...)` copy the lists and `Link(...)` copies the link. -/
def InterestObj.copy (i : InterestObj) (h : Heap) : Heap × InterestObj :=
  let (h, r) := h.new (h.at i.name).val
  let (h, kl) := KlObj.new (i.kl.val h) h
  let (i, nonce) := i.getNonce h
  let (i, w) := i.getDefaultWireEncoding h
  (h, { i with name := r, nameSeen := (h.at r).count, kl := kl, klSeen := (kl.getChangeCount h).2,
               exclude := ⟨i.exclude.val, 0⟩, excludeSeen := 0, nonce := nonce, nonceCount := 0,
               hint := ⟨i.hint.val, 0⟩, hintSeen := 0, defaultWireEncoding := w, getDefaultCount := 0, count := 0 })

/-- The wire formats.  `encode` is the result of `encodeInterest` for the fields (`rnd` is the random
source, used when there is no nonce) and `reads` are the reading calls that it makes; `decode` gives the
calls that `decodeInterest` makes on the object, and its result. -/
structure InterestFormats where
  encode : Nat → Interest × Option ((Bytes × Nat) × List Nat) → (Nat → UInt8) → Except Err Wire
  reads : Nat → Interest × Option ((Bytes × Nat) × List Nat) → List InterestRead
  decode : Nat → Heap → InterestObj → Bytes → List InterestOp × Except Err (Nat × Nat)

structure InterestWorld where
  heap : Heap
  interest : InterestObj
  defaultFormat : Nat

def InterestWorld.fields (w : InterestWorld) : Interest × Option ((Bytes × Nat) × List Nat) :=
  w.interest.fields w.heap

/-- `Interest.wireEncode` (interest.py:603-633). -/
def InterestWorld.wireEncode (F : InterestFormats) (w : InterestWorld) (wireFormat : Option Nat)
    (rnd : Nat → UInt8) : InterestWorld × Except Err Wire :=
  let fmt := wireFormat.getD w.defaultFormat
  let (i, enc) := w.interest.getDefaultWireEncoding w.heap
  match (if enc.isSome ∧ i.defaultFormat = some fmt then enc else none) with
  | some _ =>
    match i.getDefaultWireEncoding w.heap with
    | (i, some enc) => ({ w with interest := i }, .ok enc)
    | (i, none) => ({ w with interest := i }, .error .type)
  | none =>
    let fields := i.fields w.heap
    let i := (i.applyAll w.heap ((F.reads fmt fields).map .read)).2
    match F.encode fmt fields rnd with
    | .error e => ({ w with interest := i }, .error e)
    | .ok enc =>
      if fmt = w.defaultFormat then
        ({ w with interest := i.setDefaultWireEncoding w.heap (some enc) (some w.defaultFormat) }, .ok enc)
      else ({ w with interest := i }, .ok enc)

/-- `Interest.wireDecode` (interest.py:635-668). -/
def InterestWorld.wireDecode (F : InterestFormats) (w : InterestWorld) (input : Bytes) (wireFormat : Option Nat) :
    InterestWorld × Except Err Unit :=
  let fmt := wireFormat.getD w.defaultFormat
  let (ops, result) := F.decode fmt w.heap w.interest input
  let (h, i) := w.interest.applyAll w.heap ops
  match result with
  | .error e => ({ w with heap := h, interest := i }, .error e)
  | .ok (b, e) =>
    if fmt = w.defaultFormat then
      ({ w with heap := h, interest := i.setDefaultWireEncoding h (some (input, b, e)) (some w.defaultFormat) }, .ok ())
    else ({ w with heap := h, interest := i.setDefaultWireEncoding h none none }, .ok ())

/-- What a program can do with an Interest object. -/
inductive InterestCall where
  | op (o : InterestOp)
  | wireEncode (wireFormat : Option Nat) (rnd : Nat → UInt8)
  | wireDecode (input : Bytes) (wireFormat : Option Nat)
  | getDefaultWireEncoding
  | setDefaultWireFormat (fmt : Nat)
  | copy

/-- The effect of a call. -/
def InterestWorld.call (F : InterestFormats) (w : InterestWorld) : InterestCall → InterestWorld
  | .op o => let (h, i) := w.interest.apply w.heap o; { w with heap := h, interest := i }
  | .wireEncode f rnd => (w.wireEncode F f rnd).1
  | .wireDecode input f => (w.wireDecode F input f).1
  | .getDefaultWireEncoding => { w with interest := (w.interest.getDefaultWireEncoding w.heap).1 }
  | .setDefaultWireFormat f => { w with defaultFormat := f }
  | .copy => let (h, i) := w.interest.copy w.heap; { w with heap := h, interest := i }

/-- A program: a sequence of calls. -/
def InterestWorld.run (F : InterestFormats) (w : InterestWorld) : List InterestCall → InterestWorld
  | [] => w
  | c :: cs => (w.call F c).run F cs

/-- A new Interest object among any existing Name objects. -/
def InterestWorld.start (h : Heap) (name : Name) (canBePrefix : Bool) (fmt : Nat) : InterestWorld :=
  let (h, i) := InterestObj.new name canBePrefix h
  ⟨h, i, fmt⟩

end PyNDN
