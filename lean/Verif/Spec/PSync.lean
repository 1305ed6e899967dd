import Verif.Model.PSync
import Verif.Spec.Iblt
import Verif.Spec.PSyncSegments
/-
Specification of full PSync: a set of names, without hashes, tables and pending Interests.
-/
namespace PyNDN.Spec.PSync
open PyNDN PyNDN.PSync PyNDN.Iblt PyNDN.Spec.Iblt

variable {σ : Type}

/-- Add a name to a set, remove a name from it. -/
def adding (A : List Name) (n : Name) : List Name := if n ∈ A then A else A ++ [n]
def removing (A : List Name) (n : Name) : List Name := A.filter (· ≠ n)

/-- A set of names, what the application has made of it, and the lists of names it was told. -/
structure Abs (σ : Type) where
  names : List Name := []
  app : σ
  updates : List (List Name) := []

/-- Names arrive: those that are not in the set, and that the application wants, are added, and are the new ones. If the
application refuses by an exception, the rest is dropped. -/
def arrive (want : Option (σ → Name → Except Err (List Name × Bool))) (app : σ) : List Name → List Name → List Name →
    List Name × Except Err (List Name)
  | A, [], new => (A, .ok new)
  | A, n :: ns, new =>
    if n ∈ A then arrive want app A ns new
    else match want with
      | none => arrive want app (A ++ [n]) ns (new ++ [n])
      | some f => match f app n with
        | .error e => (A, .error e)
        | .ok (without, true) => arrive want app (without.foldl removing A ++ [n]) ns (new ++ [n])
        | .ok (without, false) => arrive want app (without.foldl removing A) ns new

/-- What an action does to the set. -/
def absStep (P : Params σ) (a : Abs σ) : Op σ → Abs σ
  | .publishName _ n => { a with names := adding a.names n }
  | .removeName n => { a with names := removing a.names n }
  | .data _ content => match decodeState content with
    | .error _ => a
    | .ok ns => match arrive P.canAddReceivedName a.app a.names ns [] with
      | (A, .error _) => { a with names := A }
      | (A, .ok []) => { a with names := A }
      | (A, .ok new) => { names := A, app := P.onNamesUpdate a.app new, updates := a.updates ++ [new] }
  | .app f => { a with app := f a.app }
  | _ => a

def absRun (P : Params σ) (app : σ) (ops : List (Op σ)) : Abs σ := ops.foldl (absStep P) { app := app }

/-- The names that an action may add. -/
def mentions : Op σ → List Name
  | .publishName _ n => [n]
  | .data _ content => match decodeState content with
    | .ok ns => ns
    | .error _ => []
  | _ => []

/-- Different names have different hashes. -/
def HashesDiffer (P : Params σ) (names : List Name) : Prop :=
  ∀ a ∈ names, ∀ b ∈ names, P.nameHash a = P.nameHash b → a = b

/-- The table is the table of these names. -/
def TableOf (P : Params σ) (A : List Name) (t : Table) : Prop :=
  ∃ ops, Holds (A.map P.nameHash) ops ∧ apply P.hash (new P.expected) ops = .ok t

/-- The instance has exactly these names. -/
structure Knows (P : Params σ) (s : State σ) (A : List Name) : Prop where
  names : s.nameToHash = A.map fun n => (n, P.nameHash n)
  hashes : s.hashToName = A.map fun n => (P.nameHash n, n)
  nodup : A.Nodup
  differ : HashesDiffer P A
  table : TableOf P A s.iblt

/-- The lists of names that were given to the callback. -/
def updatesOf (log : List Event) : List (List Name) := log.filterMap fun
  | .update ns => some ns
  | .interest _ => none

/-- The names that only the first has. -/
def missing (A B : List Name) : List Name := A.filter (· ∉ B)

/-- The hashes in which two sets of names differ. -/
def differing (P : Params σ) (A B : List Name) : List Nat :=
  onlyIn (A.map P.nameHash) (B.map P.nameHash) ++ onlyIn (B.map P.nameHash) (A.map P.nameHash)

/-- The difference can be read off the tables: no group of the hashes is entangled. -/
def Readable (P : Params σ) (A B : List Name) : Prop :=
  ¬ ∃ S, (∀ k ∈ S, k ∈ differing P A B) ∧ Entangled P.hash (new P.expected).length S

/-- The name cannot be read off the tables: its hash is in an entangled group. -/
def Lost (P : Params σ) (A B : List Name) (n : Name) : Prop :=
  Tangled P.hash (new P.expected).length (differing P A B) (P.nameHash n)

end PyNDN.Spec.PSync
