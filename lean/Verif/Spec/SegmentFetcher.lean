import Verif.Model.SegmentFetcher
/-
Vocabulary to state properties of a history of a SegmentFetcher.
-/
namespace PyNDN
namespace Fetch

/-- The number in a segment component: the marker 0, then the big-endian number. -/
def numberOf : Bytes → Option Nat
  | 0 :: bs => some (bs.foldl (fun r b => r * 256 + b.toNat) 0)
  | _ => none

/-- The segment number of a Data packet, from the last component of its name, which must be a generic component. -/
def segmentOf (d : Data) : Option Nat :=
  match d.name.getLast? with
  | some ⟨.generic, v⟩ => numberOf v
  | _ => none

/-- The final segment number that a Data packet announces. -/
def finalOf (d : Data) : Option Nat := numberOf d.metaInfo.finalBlockId.value

/-- The packets that passed the verification, in order. -/
def verified (t : List Ev) : List Data := t.filterMap (fun e => match e with | .verified d => some d | _ => none)

/-- From packets in the order in which they arrive, take segment 0, the next segment 1 after it, and so on. -/
def inOrder (ds : List Data) : List Data := ds.foldl (fun acc d => if segmentOf d = some acc.length then acc ++ [d] else acc) []

/-- The calls of onComplete and onError. -/
def outcomes (t : List Ev) : List Ev := t.filter (fun e => match e with | .complete _ => true | .error _ => true | _ => false)

/-- The numbers of the Interests that were expressed. -/
def expressedIds (t : List Ev) : List Nat := t.filterMap (fun e => match e with | .express id _ => some id | _ => none)

/-- The numbers of the Interests for which the face has called onData or onTimeout. -/
def calledBack (t : List Ev) : List Nat := t.filterMap (fun e => match e with | .onData id _ => some id | .onTimeout id => some id | _ => none)

/-- The Interests which are outstanding. -/
def openIds (t : List Ev) : List Nat := (expressedIds t).filter (fun id => decide (id ∉ calledBack t))

end Fetch
end PyNDN
