import Verif.Model.SigningInfo
/-
What a user expects of a SigningInfo after any history of calls: the signer is the one chosen last, nothing of earlier choices is
left, and the options are those given since.
-/
namespace PyNDN.Spec.Signing
open PyNDN.Signing (Obj Call)
open PyNDN.KeyChain (Signer)

/-- The signer a call chooses, if it is a call that chooses one: with the PIB object if one is given. -/
def chosen : Call → Option Signer
  | .reset 0 => some .null
  | .reset 1 => some (.id [] none)
  | .reset 2 => some (.key [] none)
  | .reset 3 => some (.cert [])
  | .reset 4 => some .sha256
  | .reset _ => none
  | .identity n => some (.id n none)
  | .keyName n => some (.key n none)
  | .certificateName n => some (.cert n)
  | .sha256 => some .sha256
  | .pibIdentity (some (h, n)) => some (.id n (some h))
  | .pibIdentity none => some (.id [] none)
  | .pibKey (some (h, n)) => some (.key n (some h))
  | .pibKey none => some (.key [] none)
  | .digestAlgorithm _ => none
  | .validity _ => none

/-- The signer after the calls, the last call first: the last one chosen, or `before`. -/
def signerAfter (before : Signer) : List Call → Signer
  | [] => before
  | c :: earlier => (chosen c).getD (signerAfter before earlier)

/-- The validity period after the calls, the last call first: the last one given, unless a signer was chosen since. -/
def validityAfter (before : ValidityPeriod) : List Call → ValidityPeriod
  | [] => before
  | .validity v :: _ => v
  | c :: earlier => if (chosen c).isSome then none else validityAfter before earlier

/-- Whether the digest algorithm is SHA256 after the calls, the last call first: the last one given; `setSha256Signing` gives it. -/
def algorithmAfter (before : Bool) : List Call → Bool
  | [] => before
  | .digestAlgorithm b :: _ => b
  | .sha256 :: _ => true
  | _ :: earlier => algorithmAfter before earlier

/-- The signing string of a signer. -/
def text : Signer → String
  | .null => ""
  | .id n _ => "id:" ++ String.ofList (Name.toUri n)
  | .key n _ => "key:" ++ String.ofList (Name.toUri n)
  | .cert n => "cert:" ++ String.ofList (Name.toUri n)
  | .sha256 => "id:/localhost/identity/digest-sha256"

/-- The name of the signer. -/
def nameOf : Signer → Name
  | .null => []
  | .id n _ => n
  | .key n _ => n
  | .cert n => n
  | .sha256 => []

/-- The signer without the PIB object. -/
def byName : Signer → Signer
  | .id n _ => .id n none
  | .key n _ => .key n none
  | s => s

end PyNDN.Spec.Signing
