import Verif.Model.Certificate
import Verif.Spec.Der
import Mathlib.Data.List.Forall2
/-
Specification of the NDN certificate format, version 1, as trees of DER.
-/
namespace PyNDN.Spec.Certificate
open PyNDN PyNDN.Spec.Der

/-- `k` decimal digits of a number, as ASCII codes. -/
def decimals : Nat → Nat → List Nat
  | 0, _ => []
  | k + 1, n => decimals k (n / 10) ++ [48 + n % 10]

/-- A GeneralizedTime `YYYYMMDDHHMMSSZ` of this second since 1970, in the years 1000 to 9999. -/
def IsTime (second : Int) (c : Bytes) : Prop :=
  ∃ year month day hour minute sec, 1000 ≤ year ∧ year ≤ 9999 ∧ 1 ≤ month ∧ month ≤ 12 ∧ 1 ≤ day ∧ day ≤ daysInMonth year month ∧
    hour ≤ 23 ∧ minute ≤ 59 ∧ sec ≤ 59 ∧ secondsOfDatetime ⟨year, month, day, hour, minute, sec⟩ = second ∧
    c.map (·.toNat) = decimals 4 year ++ decimals 2 month ++ decimals 2 day ++ decimals 2 hour ++ decimals 2 minute ++ decimals 2 sec ++ [90]

/-- SEQUENCE { OBJECT IDENTIFIER, PrintableString }. -/
def IsDescription (d : List Nat × Bytes) (t : Tree) : Prop :=
  ∃ o, IsOid d.1 o ∧ t = .seq [.prim 6 o, .prim 19 d.2]

/-- SEQUENCE { OBJECT IDENTIFIER, BOOLEAN, OCTET STRING }. -/
def IsExtension (e : List Nat × Bool × Bytes) (t : Tree) : Prop :=
  ∃ o, IsOid e.1 o ∧ t = .seq [.prim 6 o, .prim 1 [if e.2.1 then 255 else 0], .prim 4 e.2.2]

/-- What a certificate says. -/
structure Facts where
  /-- Seconds since 1970. -/
  notBefore : Int
  notAfter : Int
  descriptions : List (List Nat × Bytes)
  key : Tree
  extensions : List (List Nat × Bool × Bytes)

/-- The tree of a certificate: the validity, the descriptions, the public key, and the extensions if there are any. -/
def IsCertificate (f : Facts) (t : Tree) : Prop :=
  ∃ nb na ds es, IsTime f.notBefore nb ∧ IsTime f.notAfter na ∧ List.Forall₂ IsDescription f.descriptions ds ∧
    List.Forall₂ IsExtension f.extensions es ∧
    t = .seq ([.seq [.prim 24 nb, .prim 24 na], .seq ds, f.key] ++ if f.extensions = [] then [] else [.seq es])

/-- A SubjectPublicKeyInfo of an algorithm. -/
def IsKeyOf (algorithm : List Nat) (t : Tree) : Prop :=
  ∃ o rest more, IsOid algorithm o ∧ t = .seq (.seq (.prim 6 o :: rest) :: more)

/-- The OID of RSA and that of elliptic curves. -/
def rsa : List Nat := [1, 2, 840, 113549, 1, 1, 1]
def ec : List Nat := [1, 2, 840, 10045, 2, 1]

/-- The number lists that are OBJECT IDENTIFIERs: two numbers or more, the first at most 2, the second at most 39. -/
def OidOk (l : List Nat) : Prop := ∃ a b rest, l = a :: b :: rest ∧ a ≤ 2 ∧ b ≤ 39

/-- The fields of a certificate are what it says. -/
def Says (c : Certificate.Cert) (f : Facts) : Prop :=
  c.notBefore = .time (1000 * f.notBefore) ∧ c.notAfter = .time (1000 * f.notAfter) ∧
  c.subjects = f.descriptions.map (fun d => (.oid (d.1.map Int.ofNat), d.2)) ∧
  c.extensions = f.extensions.map (fun e => ⟨.oid (e.1.map Int.ofNat), .bool e.2.1, e.2.2⟩) ∧
  ∃ der, c.publicKey = some der ∧ IsDer f.key der

end PyNDN.Spec.Certificate
