import Verif.Model.Der
import Verif.Model.ProtobufTlv
/-
Model of security/certificate/certificate.py (`Certificate`, `CertificateSubjectDescription`, `CertificateExtension`) and of the part of
security/certificate/public_key.py that it uses.  Of the Data packet, only the Content and the ContentType are modelled; the times are
whole milliseconds, the value of a description or an extension is not null.  `str` of a certificate is not modelled.
-/
namespace PyNDN.Certificate
open Der

/-- The exceptions: those of der_node.py and of int, TypeError, AttributeError, UnrecognizedKeyFormatException, what the library raises
for a key that it cannot load, and RuntimeError. -/
inductive Err where
  | der (e : Der.Err)
  | type
  | attribute
  | unrecognizedKey
  | library
  | runtime
  deriving DecidableEq, Repr

/-- An `OID`, or another value that was taken for one (certificate.py:288-292, 336-340). -/
inductive OidValue where
  | oid (value : List Int)
  | other (v : Val)
  deriving DecidableEq, Repr

/-- `CertificateExtension` (certificate.py:325-343). -/
structure Extension where
  oid : OidValue
  isCritical : Val
  value : Bytes
  deriving DecidableEq, Repr

/-- A `Certificate`: the Content (none if null), whether the type is KEY, and the fields (certificate.py:33-48). -/
structure Cert where
  content : Option Bytes := none
  isKey : Bool := false
  notBefore : Val
  notAfter : Val
  subjects : List (OidValue × Bytes) := []
  publicKey : Option Bytes := none
  extensions : List Extension := []
  deriving DecidableEq, Repr

/-- `Certificate()` (certificate.py:40-48): the times are 1e37 and -1e37. -/
def empty : Cert := { notBefore := .time (10 ^ 37), notAfter := .time (-10 ^ 37) }

/-- What is not modelled: whether `load_der_public_key` loads the bytes. -/
structure Lib where
  load : Bytes → Bool

/-! ### Encoding -/

/-- `parent.addChild(child)` of a DerSequence. -/
def add (parent child : Node) : Node := (Node.addChild child false [] parent).getD parent

/-- `DerGeneralizedTime(value)`. -/
def timeNode : Val → Except Err Node
  | .time ms => (generalizedTime ms).mapError .der
  | .int n => (generalizedTime n).mapError .der
  | .bool b => (generalizedTime (if b then 1 else 0)).mapError .der
  | _ => .error .type

/-- `DerOid(self._oid)`: another value has no `getIntegerList`. -/
def oidNode : OidValue → Except Err Node
  | .oid value => (oid value).mapError .der
  | .other _ => .error .attribute

/-- The truth of a value. -/
def truth : Val → Bool
  | .bool b => b
  | .int n => n != 0
  | .bytes b => !b.isEmpty
  | .str s => !s.isEmpty
  | .time ms => ms != 0

/-- `CertificateSubjectDescription.toDer` (certificate.py:310-323). -/
def subjectNode (s : OidValue × Bytes) : Except Err Node := do
  let o ← oidNode s.1
  return add (add Node.empty o) (printableString s.2)

/-- `CertificateExtension.toDer` (certificate.py:345-361). -/
def extensionNode (e : Extension) : Except Err Node := do
  let o ← oidNode e.oid
  return add (add (add Node.empty o) (boolean (truth e.isCritical))) (octetString e.value)

/-- The loops of `toDer` (certificate.py:135-137, 144-146). -/
def addAll {α : Type} (toDer : α → Except Err Node) : List α → Node → Except Err Node
  | [], n => .ok n
  | x :: xs, n => do
    let child ← toDer x
    addAll toDer xs (add n child)

/-- `PublicKey.toDer` (public_key.py:82-89); of a null Blob the length is taken. -/
def keyNode : Option Bytes → Except Err Node
  | none => .error .type
  | some der => (parse der).mapError .der

/-- `Certificate.toDer` (certificate.py:118-149). -/
def toDer (c : Cert) : Except Err Node := do
  let notBefore ← timeNode c.notBefore
  let notAfter ← timeNode c.notAfter
  let validity := add (add Node.empty notBefore) notAfter
  let subjectList ← addAll subjectNode c.subjects Node.empty
  let key ← keyNode c.publicKey
  let root := add (add (add Node.empty validity) subjectList) key
  if c.extensions.length > 0 then
    let extnList ← addAll extensionNode c.extensions Node.empty
    return add root extnList
  else return root

/-- `Certificate.encode` (certificate.py:151-159).  An exception leaves the certificate as it is. -/
def encode (c : Cert) : Except Err Cert := do
  let root ← toDer c
  return { c with content := some root.encode.1, isKey := true }

/-! ### Decoding -/

/-- `OID(oid)` of a str, else the value itself (certificate.py:288-292). -/
def oidValue : Val → Except Err OidValue
  | .str s => match oidOfString s with
    | .ok value => .ok (.oid value)
    | .error e => .error (.der e)
  | v => .ok (.other v)

/-- `Blob(value)` (blob.py:46-82): a str is encoded as UTF-8; an int is the number of zero bytes; of a float, TypeError. -/
def blobOf : Val → Except Err Bytes
  | .bytes b => .ok b
  | .str s => .ok (s.flatMap Protobuf.utf8Encode)
  | .int n => .ok (List.replicate n 0)
  | .bool b => .ok (List.replicate (if b then 1 else 0) 0)
  | .time _ => .error .type

/-- `children[i].toVal()`. -/
def valAt (cs : List Node) (i : Nat) : Except Err Val := do
  let n ← (nth cs i).mapError .der
  n.toVal.mapError .der

/-- A description (certificate.py:182-186). -/
def decodeSubject (n : Node) : Except Err (OidValue × Bytes) := do
  let cs ← n.getChildren.mapError .der
  let o ← valAt cs 0
  let v ← valAt cs 1
  let o ← oidValue o
  let v ← blobOf v
  return (o, v)

/-- An extension (certificate.py:196-200). -/
def decodeExtension (n : Node) : Except Err Extension := do
  let cs ← n.getChildren.mapError .der
  let o ← valAt cs 0
  let critical ← valAt cs 1
  let v ← valAt cs 2
  let o ← oidValue o
  let v ← blobOf v
  return ⟨o, critical, v⟩

/-- The loops of `decode` (certificate.py:181-187, 195-201): the items that were added, and the exception that stopped the loop. -/
def decodeAll {α : Type} (f : Node → Except Err α) : List Node → List α → List α × Option Err
  | [], l => (l, none)
  | n :: ns, l => match f n with
    | .error e => (l, some e)
    | .ok x => decodeAll f ns (l ++ [x])

/-- 1.2.840.113549.1.1.1 (public_key.py:165). -/
def rsaOid : List Nat := dotted [1, 2, 840, 113549, 1, 1, 1]
/-- 1.2.840.10045.2.1 (public_key.py:166). -/
def ecOid : List Nat := dotted [1, 2, 840, 10045, 2, 1]

/-- The OID of the algorithm (public_key.py:61-65).  DerDecodingException becomes UnrecognizedKeyFormatException (66-68). -/
def algorithm (der : Bytes) : Except Err Val :=
  let r : Except Der.Err Val := do
    let node ← parse der
    let rootChildren ← node.getChildren
    let s ← getSequence rootChildren 0
    let cs ← s.getChildren
    let n ← nth cs 0
    n.toVal
  match r with
  | .ok v => .ok v
  | .error .decoding => .error .unrecognizedKey
  | .error e => .error (.der e)

/-- `PublicKey(keyDer)` (public_key.py:48-80): the exception, if any.  In the message of line 80 a str is added to the OID. -/
def publicKeyError (L : Lib) (der : Bytes) : Option Err :=
  match algorithm der with
  | .error e => some e
  | .ok v =>
    if v = .str rsaOid then if L.load der then none else some .library
    else if v = .str ecOid then none
    else match v with
      | .str _ => some .unrecognizedKey
      | _ => some .type

/-- `Certificate.decode` (certificate.py:161-201): the certificate that it leaves, and the exception. -/
def decode (L : Lib) (c : Cert) : Cert × Option Err :=
  match (match c.content with
    | none => .error .type
    | some b => (do
      let root ← parse b
      let rootChildren ← root.getChildren
      let s ← getSequence rootChildren 0
      let validityChildren ← s.getChildren
      return (rootChildren, validityChildren)).mapError .der : Except Err (List Node × List Node)) with
  | .error e => (c, some e)
  | .ok (rootChildren, validityChildren) =>
  match valAt validityChildren 0 with
  | .error e => (c, some e)
  | .ok notBefore =>
  let c := { c with notBefore := notBefore }
  match valAt validityChildren 1 with
  | .error e => (c, some e)
  | .ok notAfter =>
  let c := { c with notAfter := notAfter }
  match (getSequence rootChildren 1).bind Node.getChildren with
  | .error e => (c, some (.der e))
  | .ok subjectChildren =>
  let (subjects, stop) := decodeAll decodeSubject subjectChildren c.subjects
  let c := { c with subjects := subjects }
  match stop with
  | some e => (c, some e)
  | none =>
  match nth rootChildren 2 with
  | .error e => (c, some (.der e))
  | .ok keyNode =>
  let key := keyNode.encode.1
  match publicKeyError L key with
  | some e => (c, some e)
  | none =>
  let c := { c with publicKey := some key }
  if rootChildren.length > 3 then
    match (getSequence rootChildren 3).bind Node.getChildren with
    | .error e => (c, some (.der e))
    | .ok extensionChildren =>
      let (extensions, stop) := decodeAll decodeExtension extensionChildren c.extensions
      ({ c with extensions := extensions }, stop)
  else (c, none)

/-- `Certificate(other)` of a Data (certificate.py:40-44): the Content and the type are copied and decoded, and nothing else is. -/
def ofData (L : Lib) (content : Option Bytes) (isKey : Bool) : Except Err Cert :=
  match decode L { empty with content := content, isKey := isKey } with
  | (c, none) => .ok c
  | (_, some e) => .error e

/-- `wireDecode` (certificate.py:203-208) of a packet with this Content and type: the lists stay. -/
def wireDecode (L : Lib) (content : Option Bytes) (isKey : Bool) (c : Cert) : Cert × Option Err :=
  decode L { c with content := content, isKey := isKey }

/-- `getPublicKeyDer` (certificate.py:233-243). -/
def getPublicKeyDer (c : Cert) : Except Err Bytes :=
  match c.publicKey with
  | none => .error .runtime
  | some der => .ok der

/-- `isTooEarly` (certificate.py:50-60): `total_seconds` is not called, and a method is not compared with a number. -/
def isTooEarly (_ : Cert) : Except Err Bool := .error .type

/-- `isTooLate` (certificate.py:62-71), likewise. -/
def isTooLate (_ : Cert) : Except Err Bool := .error .type

end PyNDN.Certificate
