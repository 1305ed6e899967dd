import Verif.Model.ChronoSync
/-
Specification of ChronoSync: a sequence number for each producer, without digests.
-/
namespace PyNDN.Spec.Chrono
open PyNDN PyNDN.Chrono

/-- A producer: a data prefix and a session number. -/
abbrev Producer := Text × Nat

/-- The sequence numbers of the known producers. -/
abbrev Numbers := Producer → Option Nat

def none' : Numbers := fun _ => none

/-- A number counts if it is greater than the known one. -/
def Numbers.raise (m : Numbers) (p : Producer) (k : Nat) : Numbers := fun q =>
  if q = p then (match m p with
    | none => some k
    | some j => some (max j k))
  else m q

/-- Sync states are heard, in turn; only those of the type UPDATE count. -/
def Numbers.hear (m : Numbers) (content : Content) : Numbers :=
  content.foldl (fun m x => if x.type = 0 then m.raise (x.name, x.session) x.seq else m) m

/-- Contents are heard. -/
def heard (contents : List Content) : Numbers := contents.foldl Numbers.hear none'

/-- Less or equal: everything known here is known there, with at least the number. -/
def Le (m m' : Numbers) : Prop := ∀ p k, m p = some k → ∃ k', m' p = some k' ∧ k ≤ k'

/-- The order of the producers: by the code points of the prefix, then by the session. -/
def Before (p q : Producer) : Prop := textLess p.1 q.1 = true ∨ (p.1 = q.1 ∧ p.2 < q.2)

/-- The producers with their numbers, in order. -/
def Listing (m : Numbers) (l : List (Producer × Nat)) : Prop :=
  l.Pairwise (fun a b => Before a.1 b.1) ∧ ∀ p k, (p, k) ∈ l ↔ m p = some k

/-- The digest of a producer with its number, and of a list of them, as bytes. -/
def digestOne (sha256 : Bytes → Bytes) (x : Producer × Nat) : Bytes :=
  sha256 (sha256 (encodeUtf8 x.1.1) ++ sha256 (int32ToLittleEndian x.1.2 ++ int32ToLittleEndian x.2))

def digestAll (sha256 : Bytes → Bytes) (l : List (Producer × Nat)) : Text :=
  if l = [] then ['0', '0'] else toHex (sha256 (l.flatMap (digestOne sha256)))

/-- What is hashed for such a list. -/
def hashed (sha256 : Bytes → Bytes) (l : List (Producer × Nat)) : List Bytes :=
  (l.flatMap fun x => [encodeUtf8 x.1.1, int32ToLittleEndian x.1.2 ++ int32ToLittleEndian x.2,
    sha256 (encodeUtf8 x.1.1) ++ sha256 (int32ToLittleEndian x.1.2 ++ int32ToLittleEndian x.2)]) ++ [l.flatMap (digestOne sha256)]

/-- No collision among these. -/
def NoCollision (sha256 : Bytes → Bytes) (l : List Bytes) : Prop := ∀ a ∈ l, ∀ b ∈ l, sha256 a = sha256 b → a = b

/-- The sessions and numbers fit in 32 bits. -/
def Small (l : List (Producer × Nat)) : Prop := ∀ x ∈ l, x.1.2 < 2 ^ 32 ∧ x.2 < 2 ^ 32

/-- Of the states that these and those contents lead to, one after the other, different ones have different digests. -/
def Distinct (sha256 : Bytes → Bytes) (contents contents' : List Content) : Prop := ∀ i j l l',
  Listing (heard (contents.take i)) l → Listing (heard (contents'.take j)) l' → digestAll sha256 l = digestAll sha256 l' → l = l'

/-- The states that these contents lead to have different digests if they differ. -/
def RootsDiffer (sha256 : Bytes → Bytes) (contents : List Content) : Prop := Distinct sha256 contents contents

/-- For each name there is one session, and its numbers come in order. -/
def InOrder (contents : List Content) : Prop :=
  (contents.flatten.filter fun x => x.type = 0).Pairwise fun x y => x.name = y.name → x.session = y.session ∧ x.seq ≤ y.seq

end PyNDN.Spec.Chrono
