import Verif.Model.Packet
/-
Model of `ExponentialReExpress` (util/exponential_re_express.py).

The application expresses an Interest with an onData and the onTimeout that `makeOnTimeout` returned; the face calls one of them, once (C28).
The rest of a history is a list of what the face does for the Interest that is outstanding.  Simplifications: lifetimes are whole milliseconds.
-/
namespace PyNDN
namespace ReExpress

inductive Ev where
  | express (i : Interest)
  /-- The application's onData. -/
  | onData (i : Interest)
  /-- The application's onTimeout. -/
  | onTimeout (i : Interest)
  deriving DecidableEq

/-- The object (exponential_re_express.py:39-43) and the Interest that is outstanding. -/
structure State where
  maxLifetime : Int
  hasOnTimeout : Bool
  outstanding : Option Interest := none
  trace : List Ev := []

/-- `makeOnTimeout` (exponential_re_express.py:45-85), and the application's call of `expressInterest`. -/
def start (maxLifetime : Option Int) (hasOnTimeout : Bool) (i : Interest) : State :=
  { maxLifetime := maxLifetime.getD 16000, hasOnTimeout := hasOnTimeout, outstanding := some i, trace := [.express i] }

/-- The call of the application's onTimeout, if there is one (exponential_re_express.py:91-96, 100-105). -/
def State.callOnTimeout (s : State) (i : Interest) : State :=
  if s.hasOnTimeout then { s with trace := s.trace ++ [.onTimeout i] } else s

/-- `_onTimeout` (exponential_re_express.py:87-110).  The nonce of the copy is cleared because its lifetime changes.  `ok` tells whether
`expressInterest` returns; if it raises, the Interest is not outstanding. -/
def State.onTimeout (s : State) (i : Interest) (ok : Bool) : State :=
  match i.lifetime with
  | none => s.callOnTimeout i
  | some l =>
    let next := l * 2
    if (next : Int) > s.maxLifetime then s.callOnTimeout i
    else
      let j := { i with lifetime := some next, nonce := none }
      if ok then { s with outstanding := some j, trace := s.trace ++ [.express j] } else s

inductive Action where
  | data
  | timeout (ok : Bool)

/-- The face calls back for the outstanding Interest. -/
def State.step (s : State) : Action → State
  | .data => match s.outstanding with
    | none => s
    | some i => { s with outstanding := none, trace := s.trace ++ [.onData i] }
  | .timeout ok => match s.outstanding with
    | none => s
    | some i => { s with outstanding := none }.onTimeout i ok

def State.run (s : State) (as : List Action) : State := as.foldl State.step s

end ReExpress
end PyNDN
