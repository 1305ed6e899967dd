import Verif.Model.Name
import Verif.Model.Encoder
/-
`CommandInterestPreparer` (security/command_interest_preparer.py).  A time is a whole number of
milliseconds: the code rounds the clock before it uses it, and adds 1.0; below 2^53 this is exact.
-/
namespace PyNDN.Command
open PyNDN

/-- `_lastUsedTimestamp` (command_interest_preparer.py:46-48). -/
structure Preparer where
  last : Int
  deriving DecidableEq

def Preparer.new (now : Int) : Preparer := ⟨now⟩

/-- The loop of `prepareCommandInterestName` (command_interest_preparer.py:68-69). -/
def bump (timestamp last : Int) : Int :=
  if timestamp ≤ last then bump (timestamp + 1) last else timestamp
termination_by (last + 1 - timestamp).toNat

/-- `prepareCommandInterestName` (command_interest_preparer.py:50-85): the new name.  `random` are the 8
bytes of the system's random generator. -/
def Preparer.prepare (p : Preparer) (now : Int) (random : Bytes) (name : Name) : Preparer × Except Err Name :=
  let timestamp := bump now p.last
  (⟨timestamp⟩, do
    let bytes ← writeNonNegativeInteger timestamp []
    return name ++ [Component.generic bytes, Component.generic random])

/-- A sequence of calls: the reading of the clock, the random bytes and the name of each. -/
def Preparer.prepareAll (p : Preparer) : List (Int × Bytes × Name) → List (Except Err Name)
  | [] => []
  | (now, random, name) :: rest =>
    let (p, r) := p.prepare now random name
    r :: p.prepareAll rest

end PyNDN.Command
