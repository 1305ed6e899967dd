import Verif.Model.Preparer
import Verif.Model.KeyChain
/-
Model of `CommandInterestSigner` (security/command_interest_signer.py:30-94) with its `KeyChain` (C63-C66), and of an application that
calls both in any order.  `CommandInterestPreparer` is in Model/Preparer.
-/
namespace PyNDN.CommandSigner
open PyNDN PyNDN.Command PyNDN.KeyChain

/-- A call of `makeCommandInterest(name, params)`, with the reading of the clock and the random numbers.  `canBePrefix` is the default of
the `Interest` constructor at the time of the call (interest.py:67). -/
structure Call where
  name : Name
  info : SigningInfo := {}
  clock : Int
  random : Bytes
  signRandom : Nat := 0
  nonce : Nat → UInt8 := fun _ => 0
  canBePrefix : Bool := true

/-- A signer and its KeyChain. -/
structure State where
  preparer : Preparer
  kc : KC

/-- `Interest(name)` (interest.py:58-94). -/
def interestOf (canBePrefix : Bool) (n : Name) : Interest := { name := n, maxSuffix := if canBePrefix then none else some 1 }

/-- `makeCommandInterest` (command_interest_signer.py:51-94).  The timestamp is used up, also if signing raises. -/
def make (P : Params) (y : State) (c : Call) : Except KErr Interest × State :=
  match y.preparer.prepare c.clock c.random c.name with
  | (p, .error e) => (.error (.py e), ⟨p, y.kc⟩)
  | (p, .ok n) =>
    match signInterest P (interestOf c.canBePrefix n) c.info c.signRandom c.nonce y.kc with
    | (r, kc) => (r, ⟨p, kc⟩)

/-- What an application does: a call of the KeyChain, or of the signer. -/
inductive Step where
  | key (op : Op)
  | make (c : Call)

def step (P : Params) (y : State) : Step → State
  | .key op => { y with kc := (perform P op y.kc).2 }
  | .make c => (make P y c).2

/-- The state after a history, where the signer was made at the time `t` with an empty KeyChain. -/
def run (P : Params) (t : Int) (steps : List Step) : State := steps.foldl (step P) ⟨.new t, {}⟩

/-- The calls of the KeyChain in a history, with those of the signer. -/
def callsFrom (p : Preparer) : List Step → List Op
  | [] => []
  | .key op :: rest => op :: callsFrom p rest
  | .make c :: rest =>
    match p.prepare c.clock c.random c.name with
    | (p, .error _) => callsFrom p rest
    | (p, .ok n) => .signInterest (interestOf c.canBePrefix n) c.info c.signRandom c.nonce :: callsFrom p rest

def calls (t : Int) (steps : List Step) : List Op := callsFrom (.new t) steps

end PyNDN.CommandSigner
