import Verif.Model.Iblt
/-
Specification of the invertible Bloom lookup table.
-/
namespace PyNDN.Spec.Iblt
open PyNDN PyNDN.Iblt

/-- How often a key was inserted minus how often it was erased. -/
def net (ops : List (Bool × Nat)) (key : Nat) : Int :=
  (ops.filter fun o => o.1 && o.2 == key).length - (ops.filter fun o => !o.1 && o.2 == key).length

/-- Insert (`true`) and erase (`false`) keys, in order. -/
def apply (h : Hash) (t : Table) : List (Bool × Nat) → Except Err Table
  | [] => .ok t
  | (true, key) :: ops => do apply h (← insert h t key) ops
  | (false, key) :: ops => do apply h (← erase h t key) ops

/-- A history after which exactly the keys of `A` are in the table, each once. -/
def Holds (A : List Nat) (ops : List (Bool × Nat)) : Prop :=
  A.Nodup ∧ ∀ k, net ops k = if k ∈ A then 1 else 0

/-- The keys of the first list that are not in the second. -/
def onlyIn (A B : List Nat) : List Nat := A.filter fun k => k ∉ B

/-- The exclusive or of the keys. -/
def xorAll (l : List Nat) : Nat := l.foldr (· ^^^ ·) 0

/-- No odd number of different keys looks like one key, and no even number of them looks like nothing:
the check hash has no such collision on these keys. -/
structure NoCollision (h : Hash) (keys : List Nat) : Prop where
  one : ∀ T : List Nat, T.Nodup → (∀ k ∈ T, k ∈ keys) → 3 ≤ T.length → T.length % 2 = 1 →
    h nHashCheck (xorAll T) ≠ xorAll (T.map (h nHashCheck))
  none : ∀ T : List Nat, T.Nodup → (∀ k ∈ T, k ∈ keys) → 4 ≤ T.length → T.length % 2 = 0 →
    ¬ (xorAll T = 0 ∧ xorAll (T.map (h nHashCheck)) = 0)

/-- Keys none of which is alone in one of its entries of a table of size `n`. -/
def Entangled (h : Hash) (n : Nat) (S : List Nat) : Prop :=
  S ≠ [] ∧ ∀ k ∈ S, ∀ i, i < nHash → ∃ k' ∈ S, k' ≠ k ∧ bucket h n i k' = bucket h n i k

/-- A key that is in an entangled group of these keys. -/
def Tangled (h : Hash) (n : Nat) (keys : List Nat) (k : Nat) : Prop :=
  ∃ S, (∀ k' ∈ S, k' ∈ keys) ∧ Entangled h n S ∧ k ∈ S

end PyNDN.Spec.Iblt
