/-
Specification of NDN-TLV (the NDN packet format document), independent of the model of the code.
-/
namespace PyNDN.Spec

/-- The `k`-byte big-endian representation of `n` (its low `8k` bits). -/
def be : Nat → Nat → List UInt8
  | 0, _ => []
  | k + 1, n => be k (n / 256) ++ [UInt8.ofNat n]

/-- A VAR-NUMBER: the shortest of the 1-, 3-, 5-, 9-byte forms. -/
def varNum (n : Nat) : List UInt8 :=
  if n ≤ 252 then be 1 n
  else if n < 2 ^ 16 then 253 :: be 2 n
  else if n < 2 ^ 32 then 254 :: be 4 n
  else 255 :: be 8 n

/-- A nonNegativeInteger: the shortest of the 1-, 2-, 4-, 8-byte big-endian forms. -/
def nonNeg (n : Nat) : List UInt8 :=
  if n < 2 ^ 8 then be 1 n
  else if n < 2 ^ 16 then be 2 n
  else if n < 2 ^ 32 then be 4 n
  else be 8 n

/-- A TLV element with type `t` and value `v`. -/
def tlv (t : Nat) (v : List UInt8) : List UInt8 := varNum t ++ varNum v.length ++ v

/-- A sequence of TLV elements given as (type, value) pairs. -/
def flat (l : List (Nat × List UInt8)) : List UInt8 := l.flatMap fun p => tlv p.1 p.2

/-- An optional element. -/
def opt (t : Nat) : Option (List UInt8) → List (Nat × List UInt8)
  | none => []
  | some v => [(t, v)]

/-- A type number that a decoder must not ignore when it does not recognize it. -/
def critical (t : Nat) : Prop := t ≤ 31 ∨ t % 2 = 1

/-- `bs` is one of the 1-, 3-, 5-, 9-byte forms of `n`, not necessarily the shortest. -/
def VarNumForm (n : Nat) (bs : List UInt8) : Prop :=
  (n < 253 ∧ bs = be 1 n) ∨ (n < 2 ^ 16 ∧ bs = 253 :: be 2 n) ∨
  (n < 2 ^ 32 ∧ bs = 254 :: be 4 n) ∨ (n < 2 ^ 64 ∧ bs = 255 :: be 8 n)

/-- `bs` is a TLV element of type `t` and value `v`, with any form of type and length number. -/
def Element (t : Nat) (v bs : List UInt8) : Prop :=
  ∃ tb lb, VarNumForm t tb ∧ VarNumForm v.length lb ∧ bs = tb ++ lb ++ v

/-- `bs` is a sequence of zero or more elements whose types all satisfy `P`. -/
inductive Elements (P : Nat → Prop) : List UInt8 → Prop
  | nil : Elements P []
  | cons {t v bs rest} : Element t v bs → P t → Elements P rest → Elements P (bs ++ rest)

/-- The size of the smallest VAR-NUMBER form that can hold `n`. -/
def varNumSize (n : Nat) : Nat :=
  if n ≤ 252 then 1 else if n < 2 ^ 16 then 3 else if n < 2 ^ 32 then 5 else 9

end PyNDN.Spec
