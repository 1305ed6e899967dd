import Verif.Model.CommandSigner
import Verif.Spec.Command
import Verif.Spec.KeyChain
import Verif.Spec.Packet
/-
Specification for C89: what a command Interest for a name is.
-/
namespace PyNDN.Spec.CommandSigner
open _root_.PyNDN
open _root_.PyNDN.CommandSigner _root_.PyNDN.KeyChain

/-- The clock never reads more than `bound` in a history. -/
def ClockBelow (bound : Int) (steps : List Step) : Prop := ∀ c, Step.make c ∈ steps → c.clock < bound

/-- An Interest for a command: the name, the timestamp, the random bytes, and two more components. -/
def IsCommandFor (c : Call) (ts : Nat) (i : Interest) : Prop :=
  ∃ timestamp info value, i.name = c.name ++ [timestamp, Component.generic c.random, info, value] ∧ timestamp.toNumber = ts

/-- The Interest that a call made, in a history. -/
def Made (P : Params) (t : Int) (steps : List Step) (c : Call) (i : Interest) : Prop :=
  ∃ before after, steps = before ++ .make c :: after ∧ (make P (run P t before) c).1 = .ok i

end PyNDN.Spec.CommandSigner
