import Verif.Model.Encrypted
import Verif.Spec.Packet
/-
Specification of the encoding of encrypted content.  Only the data types come from the model.
-/
namespace PyNDN.Spec.Encrypt
open PyNDN.Encrypt (EncryptedContent SafeBag)

/-- An optional value that is empty is not written. -/
def written (b : Option (List UInt8)) : Option (List UInt8) := if b = some [] then none else b

/-- The fields of version 1: the key locator, the algorithm, the initial vector if there is one, and the payload. -/
def fieldsV1 (c : EncryptedContent) (algorithm : Nat) : List (Nat × List UInt8) :=
  [(28, flat (keyLocatorFields c.keyLocator)), (131, nonNeg algorithm)] ++ opt 133 (written c.initialVector) ++ [(132, c.payload.getD [])]

/-- The fields of version 2 (the NAC specification): the payload, the initial vector and the payload key if they are there, and
the name of the key if it has one. -/
def fieldsV2 (c : EncryptedContent) : List (Nat × List UInt8) :=
  [(132, c.payload.getD [])] ++ opt 133 (written c.initialVector) ++ opt 134 (written c.payloadKey) ++
  opt 7 (if c.keyLocator.type = some 1 then some (flat (nameFields c.keyLocator.keyName)) else none)

/-- What version 2 keeps of an EncryptedContent. -/
def keptV2 (c : EncryptedContent) : EncryptedContent :=
  { algorithmType := none
    keyLocator := if c.keyLocator.type = some 1 then { type := some 1, keyName := c.keyLocator.keyName } else {}
    initialVector := written c.initialVector
    payload := some (c.payload.getD [])
    payloadKey := written c.payloadKey }

end PyNDN.Spec.Encrypt
