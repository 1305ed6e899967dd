import Verif.Spec.ValidatorPolicy
/-
Specification of command Interests and of the conditions under which they cannot be replayed.
-/
namespace PyNDN.Spec.Validator
open PyNDN PyNDN.Validator

/-- A command Interest: its name ends with a timestamp, a nonce, a SignatureInfo and a SignatureValue;
the key locator in the SignatureInfo is `kl`. -/
def CommandIs : Packet → Name → Nat → Prop
  | .data _, _, _ => False
  | .interest i signed, kl, ts => KeyLocatorIs (.interest i signed) kl ∧
      ∃ pre timestamp nonce info value, i.name = pre ++ [timestamp, nonce, info, value] ∧
        timestamp.toNumber = ts

/-- The call `id` of `validate` waits for a certificate, or one of its callbacks has not returned. -/
def InProgress (y : Sys) (id : Nat) : Prop :=
  (∃ q ∈ y.pending, q.id = id) ∨ (∃ f ∈ y.frames, f.id = id)

/-- The clock does not go back, and a command Interest is not validated while one with the same key
locator name is still in progress. -/
def InTurn (y : Sys) : Event → Prop
  | .validate p _ => ∀ kl ts, CommandIs p kl ts → ∀ id q ts', Ev.called id q ∈ y.trace →
      CommandIs q kl ts' → ¬ InProgress y id
  | .clock t => y.now ≤ t
  | _ => True

/-- All events happen in turn. -/
def Sequential (V : Cfg) : Sys → List Event → Prop
  | _, [] => True
  | y, e :: es => InTurn y e ∧ Sequential V (step V y e) es

end PyNDN.Spec.Validator
