import Verif.Model.KeyChain
import Verif.Model.NameUri
/-
Model of `SigningInfo` (security/signing_info.py) as an object: its constructors, its setters, `str` and the parser of the
signing string.  `PyNDN.KeyChain.SigningInfo` is what `KeyChain.sign` reads of it.
Simplifications: a PIB identity or key object is a number, with its name given beside it; the digest algorithm is the test
"is it SHA256"; a Name is a value, so a caller who edits the Name it got from `getSignerName` is not modelled.
-/
namespace PyNDN.Signing
open PyNDN.KeyChain (SigningInfo Signer digestIdentity)

/-- The fields of a `SigningInfo` (signing_info.py:84-89).  The type is the integer of `SignerType` (lines 135-145). -/
structure Obj where
  type : Int := 0
  name : Name := []
  identity : Option Nat := none
  key : Option Nat := none
  sha256Algorithm : Bool := true
  validity : ValidityPeriod := none
  deriving DecidableEq

/-- The test of `reset` (signing_info.py:368-372). -/
def validType (t : Int) : Bool := t == 0 || t == 1 || t == 2 || t == 3 || t == 4

/-- `reset` (signing_info.py:360-379). -/
def Obj.reset (o : Obj) (signerType : Int) : Except Err Obj :=
  if validType signerType then
    .ok { o with type := signerType, name := [], identity := none, key := none, validity := none }
  else .error .value

/-- `setSigningIdentity` (signing_info.py:147-158). -/
def Obj.setSigningIdentity (o : Obj) (n : Name) : Except Err Obj := do
  let o ← o.reset 1
  return { o with name := n }

/-- `setSigningKeyName` (signing_info.py:160-171). -/
def Obj.setSigningKeyName (o : Obj) (n : Name) : Except Err Obj := do
  let o ← o.reset 2
  return { o with name := n }

/-- `setSigningCertificateName` (signing_info.py:173-185). -/
def Obj.setSigningCertificateName (o : Obj) (n : Name) : Except Err Obj := do
  let o ← o.reset 3
  return { o with name := n }

/-- `setSha256Signing` (signing_info.py:187-197). -/
def Obj.setSha256Signing (o : Obj) : Except Err Obj := do
  let o ← o.reset 4
  return { o with sha256Algorithm := true }

/-- `setPibIdentity` (signing_info.py:199-214); `none` is the argument None. -/
def Obj.setPibIdentity (o : Obj) (identity : Option (Nat × Name)) : Except Err Obj := do
  let o ← o.reset 1
  let o := match identity with
    | some (_, n) => { o with name := n }
    | none => o
  return { o with identity := identity.map Prod.fst }

/-- `setPibKey` (signing_info.py:216-231). -/
def Obj.setPibKey (o : Obj) (key : Option (Nat × Name)) : Except Err Obj := do
  let o ← o.reset 2
  let o := match key with
    | some (_, n) => { o with name := n }
    | none => o
  return { o with key := key.map Prod.fst }

/-- `setDigestAlgorithm` (signing_info.py:280-290). -/
def Obj.setDigestAlgorithm (o : Obj) (sha256 : Bool) : Obj := { o with sha256Algorithm := sha256 }

/-- `setValidityPeriod` (signing_info.py:301-314). -/
def Obj.setValidityPeriod (o : Obj) (v : ValidityPeriod) : Obj := { o with validity := v }

/-- `getPibIdentity` (signing_info.py:252-264). -/
def Obj.getPibIdentity (o : Obj) : Except Err (Option Nat) :=
  if o.type != 1 then .error .value else .ok o.identity

/-- `getPibKey` (signing_info.py:266-278). -/
def Obj.getPibKey (o : Obj) : Except Err (Option Nat) :=
  if o.type != 2 then .error .value else .ok o.key

/-- `SigningInfo()` (signing_info.py:77-79). -/
def new : Except Err Obj := Obj.reset {} 0

/-- `SigningInfo(signerType, signerName)` (signing_info.py:90-96). -/
def ofType (signerType : Int) (signerName : Option Name) : Except Err Obj := do
  let o ← Obj.reset {} signerType
  return match signerName with
    | some n => { o with name := n }
    | none => o

/-- `SigningInfo(identity)` (signing_info.py:97-99). -/
def ofIdentity (handle : Nat) (name : Name) : Except Err Obj := Obj.setPibIdentity {} (some (handle, name))

/-- `SigningInfo(key)` (signing_info.py:100-102). -/
def ofKey (handle : Nat) (name : Name) : Except Err Obj := Obj.setPibKey {} (some (handle, name))

/-- `SigningInfo(signingInfo)` (signing_info.py:80-89). -/
def copy (o : Obj) : Obj :=
  { type := o.type, name := o.name, identity := o.identity, key := o.key, sha256Algorithm := o.sha256Algorithm,
    validity := o.validity }

/-- `SigningInfo(signingString)` (signing_info.py:103-131). -/
def parse (signingString : List Char) : Except Err Obj := do
  let o ← Obj.reset {} 0
  if signingString = [] then return o
  let iColon := signingString.idxOf ':'
  if ¬ iColon < signingString.length then .error .value
  else
    let scheme := signingString.take iColon
    let nameArg := signingString.drop (iColon + 1)
    if scheme = "id".toList then
      if nameArg = Name.toUri digestIdentity then o.setSha256Signing
      else o.setSigningIdentity (← parseUri nameArg)
    else if scheme = "key".toList then o.setSigningKeyName (← parseUri nameArg)
    else if scheme = "cert".toList then o.setSigningCertificateName (← parseUri nameArg)
    else .error .value

/-- `__str__` (signing_info.py:328-347). -/
def Obj.str (o : Obj) : Except Err (List Char) :=
  if o.type = 0 then .ok []
  else if o.type = 1 then .ok ("id:".toList ++ Name.toUri o.name)
  else if o.type = 2 then .ok ("key:".toList ++ Name.toUri o.name)
  else if o.type = 3 then .ok ("cert:".toList ++ Name.toUri o.name)
  else if o.type = 4 then .ok ("id:".toList ++ Name.toUri digestIdentity)
  else .error .value

/-- What `KeyChain.sign` reads of the object (key_chain.py:1644-1726): the type, then the PIB object or else the name. -/
def Obj.info (o : Obj) : SigningInfo :=
  { signer := if o.type = 1 then .id o.name o.identity
      else if o.type = 2 then .key o.name o.key
      else if o.type = 3 then .cert o.name
      else if o.type = 4 then .sha256
      else .null
    sha256Algorithm := o.sha256Algorithm
    validity := o.validity }

/-- A call of a setter. -/
inductive Call where
  | reset (signerType : Int)
  | identity (n : Name)
  | keyName (n : Name)
  | certificateName (n : Name)
  | sha256
  | pibIdentity (i : Option (Nat × Name))
  | pibKey (k : Option (Nat × Name))
  | digestAlgorithm (sha256 : Bool)
  | validity (v : ValidityPeriod)
  deriving DecidableEq

/-- One call. -/
def Obj.call (o : Obj) : Call → Except Err Obj
  | .reset t => o.reset t
  | .identity n => o.setSigningIdentity n
  | .keyName n => o.setSigningKeyName n
  | .certificateName n => o.setSigningCertificateName n
  | .sha256 => o.setSha256Signing
  | .pibIdentity i => o.setPibIdentity i
  | .pibKey k => o.setPibKey k
  | .digestAlgorithm b => .ok (o.setDigestAlgorithm b)
  | .validity v => .ok (o.setValidityPeriod v)

/-- A history of calls; a call that raises leaves the object as it was, since the only exception is raised at the start of
`reset`, before the first assignment (signing_info.py:368-375). -/
def Obj.run (o : Obj) : List Call → Obj
  | [] => o
  | c :: cs => ((o.call c).toOption.getD o).run cs

end PyNDN.Signing
