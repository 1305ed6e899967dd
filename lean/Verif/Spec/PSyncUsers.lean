import Verif.Model.PSyncUsers
import Verif.Spec.PSync
import Verif.Spec.Tlv
/-
Specification of full PSync with users: a sequence number for each known prefix.
-/
namespace PyNDN.Spec.PSync
open PyNDN PyNDN.PSync

/-- The sequence numbers of the known prefixes. -/
abbrev Seqs := Name → Option Nat

/-- The name of a prefix with a number. -/
def numbered (pre : Name) (k : Nat) : Name := pre ++ [⟨.generic, nonNeg k⟩]

/-- A name that a user publishes: a prefix and a positive number. -/
def Numbered (n : Name) : Prop := ∃ pre k, 0 < k ∧ k < 2 ^ 64 ∧ n = numbered pre k

def Seqs.set (m : Seqs) (pre : Name) (k : Option Nat) : Seqs := fun p => if p = pre then k else m p

/-- A name is heard: its number counts if it is greater than the known one. -/
def Seqs.hear (m : Seqs) (n : Name) : Seqs := match n.getLast? with
  | none => m
  | some c => match m n.dropLast with
    | none => m.set n.dropLast (some c.toNumber)
    | some k => if k < c.toNumber then m.set n.dropLast (some c.toNumber) else m

/-- The number that is published: the given one, or the next one. -/
def nextNumber (old : Nat) (number : Int) : Nat := if number ≥ 0 then number.toNat else old + 1

/-- What an action does to the sequence numbers. -/
def seqStep (m : Seqs) : UserOp → Seqs
  | .addUserNode p => if m p = none then m.set p (some 0) else m
  | .removeUserNode p => m.set p none
  | .publishName _ p number => match m p with
    | none => m
    | some old => if old < nextNumber old number then m.set p (some (nextNumber old number)) else m
  | .data _ content => match decodeState content with
    | .error _ => m
    | .ok ns => ns.foldl Seqs.hear m
  | _ => m

def seqRun (ops : List UserOp) : Seqs := ops.foldl seqStep fun _ => none

/-- The names that an action brings. -/
def brings (m : Seqs) : UserOp → List Name
  | .publishName _ p number => match m p with
    | none => []
    | some old => if old < nextNumber old number then [numbered p (nextNumber old number)] else []
  | .data _ content => match decodeState content with
    | .error _ => []
    | .ok ns => ns
  | _ => []

/-- The names that a history brings. -/
def allNames : Seqs → List UserOp → List Name
  | _, [] => []
  | m, op :: ops => brings m op ++ allNames (seqStep m op) ops

/-- Published numbers have 64 bits; a received content has numbered names, at most one for each prefix. -/
def Orderly (m : Seqs) : UserOp → Prop
  | .publishName _ p number => ∀ old, m p = some old → nextNumber old number < 2 ^ 64
  | .data _ content => ∀ ns, decodeState content = .ok ns → (∀ n ∈ ns, Numbered n) ∧ (ns.map List.dropLast).Nodup
  | _ => True

def AllOrderly : Seqs → List UserOp → Prop
  | _, [] => True
  | m, op :: ops => Orderly m op ∧ AllOrderly (seqStep m op) ops

/-- The names of the sequence numbers: one for each prefix with a positive number. -/
def NamesOf (m : Seqs) (n : Name) : Prop := ∃ p k, m p = some k ∧ 0 < k ∧ n = numbered p k

/-- What the application is told when the sequence numbers change: for each prefix with a new number, the range from the old
number to the new one. -/
def News (m m' : Seqs) (x : MissingData) : Prop := m' x.name = some x.high ∧ m' x.name ≠ m x.name ∧ x.low = (m x.name).getD 0 + 1

/-- The next name of the same prefix. -/
def following (n : Name) : Name := match n.getLast? with
  | none => n
  | some c => numbered n.dropLast (c.toNumber + 1)

/-- The names that an instance with the names `A` sends to one with the names `B`: those that are missing there, unless the
next name of the prefix is there. -/
def useful (A B : List Name) : List Name := (missing A B).filter (following · ∉ B)

/-- For each prefix the greater number; a number 0 is not told to others. -/
def joined (mine theirs : Seqs) : Seqs := fun p => match mine p, theirs p with
  | some k, some j => some (max k j)
  | some k, none => if k = 0 then none else some k
  | none, j => j

end PyNDN.Spec.PSync
