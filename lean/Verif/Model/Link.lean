import Verif.Model.Packet
/-
Model of link.py.  What `wireDecode` leaves when it raises is not modelled.  The wire format is the default one.  The Data methods that a Link
inherits are those of Model/Packet and Model/Objects.
-/
namespace PyNDN.LinkPacket

/-- `ContentType.LINK` (meta_info.py:203). -/
def linkType : Nat := 1

/-- A `Link`: the Data packet and `_delegations`. -/
structure Link where
  data : Data
  delegations : DelegationSet
  deriving DecidableEq, Repr

/-- The exceptions: those of the encoding, RuntimeError for another type, and TypeError for a Content that is null. -/
inductive Exn where
  | wire (e : Err)
  | notLink
  | type
  deriving DecidableEq, Repr

/-- `getMetaInfo().setType(ContentType.LINK)`. -/
def setLinkType (d : Data) : Data := { d with metaInfo := { d.metaInfo with type := linkType } }

/-- `Link(name)` (link.py:56-58). -/
def ofName (name : Name) : Link := ⟨setLinkType { name := name }, []⟩

/-- `Link(data)` (link.py:47-55). -/
def ofData (d : Data) : Link :=
  match d.content with
  | none => ⟨d, []⟩
  | some b => match decodeDelegationSet b with
    | .ok ds => ⟨setLinkType d, ds⟩
    | .error _ => ⟨d, []⟩

/-- `encodeContent` (link.py:140-149), and the exception. -/
def encodeContent (l : Link) : Link × Option Exn :=
  match encodeDelegationSet l.delegations with
  | .error e => (l, some (.wire e))
  | .ok b => ({ l with data := setLinkType { l.data with content := some b } }, none)

/-- A call. -/
inductive Call where
  | add (preference : Int) (name : Name)
  | remove (name : Name)
  deriving DecidableEq, Repr

/-- What a call does: `removeDelegation` also returns whether something was removed. -/
inductive Result where
  | done
  | removed (was : Bool)
  | raised (e : Exn)
  deriving DecidableEq, Repr

/-- `addDelegation` (link.py:82-105) and `removeDelegation` (link.py:107-128). -/
def call (l : Link) : Call → Link × Result
  | .add p n => match encodeContent { l with delegations := l.delegations.add p n } with
    | (l, none) => (l, .done)
    | (l, some e) => (l, .raised e)
  | .remove n =>
    let r := DelegationSet.remove n l.delegations
    let l := { l with delegations := r.1 }
    if r.2 then match encodeContent l with
      | (l, none) => (l, .removed true)
      | (l, some e) => (l, .raised e)
    else (l, .removed false)

/-- `wireDecode` (link.py:60-80). -/
def wireDecode (old : Link) (input : Bytes) : Except Exn Link :=
  match decodeData old.data input with
  | .error e => .error (.wire e)
  | .ok (d, _, _) =>
    if d.metaInfo.type ≠ linkType then .error .notLink
    else match d.content with
      | none => .error .type
      | some b => match decodeDelegationSet b with
        | .error e => .error (.wire e)
        | .ok ds => .ok ⟨d, ds⟩

end PyNDN.LinkPacket
