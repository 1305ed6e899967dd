import Verif.Model.Regex
/-
Specification of the NDN regular expressions: the names that an expression denotes, and the parts of a
name that its groups capture.  Only the syntax comes from the model.
-/
namespace PyNDN.Spec.Regex
open PyNDN PyNDN.Regex

/-- The sequences that are `n` sequences of a language one after the other. -/
def Pow (L : List Component → Prop) : Nat → List Component → Prop
  | 0, w => w = []
  | n + 1, w => ∃ u v, w = u ++ v ∧ L u ∧ Pow L n v

/-- The sequences of components that an expression denotes. -/
def Lang : Rx → List Component → Prop
  | .set test, w => ∃ c, w = [c] ∧ test c = true
  | .nil, w => w = []
  | .cons m rest, w => ∃ u v, w = u ++ v ∧ Lang m u ∧ Lang rest v
  | .group _ body, w => Lang body w
  | .rep min max m, w => ∃ n, min ≤ n ∧ n ≤ max ∧ Pow (Lang m) n w

/-- An expression in which what must be repeated at least once is never empty. -/
def Solid : Rx → Prop
  | .set _ => True
  | .nil => True
  | .cons m rest => Solid m ∧ Solid rest
  | .group _ body => Solid body
  | .rep min _ m => Solid m ∧ (min = 0 ∨ ¬ Lang m [])

/-- The groups in an expression. -/
def groups : Rx → List Nat
  | .set _ => []
  | .nil => []
  | .cons m rest => groups m ++ groups rest
  | .group k body => k :: groups body
  | .rep _ _ m => groups m

/-- No group is repeated. -/
def Plain : Rx → Prop
  | .set _ => True
  | .nil => True
  | .cons m rest => Plain m ∧ Plain rest
  | .group _ body => Plain body
  | .rep _ _ m => groups m = []

/-- `Capture m w cap`: the sequence `w` is split among the parts of the expression so that each group
`k` in it stands for the part `cap k`. -/
def Capture : Rx → List Component → (Nat → List Component) → Prop
  | .set test, w, _ => ∃ c, w = [c] ∧ test c = true
  | .nil, w, _ => w = []
  | .cons m rest, w, cap => ∃ u v, w = u ++ v ∧ Capture m u cap ∧ Capture rest v cap
  | .group k body, w, cap => cap k = w ∧ Capture body w cap
  | .rep min max m, w, _ => Lang (.rep min max m) w

/-! ### The syntax of expressions -/

/-- A repetition: nothing, `?`, `+`, `*`, `{n}`, `{a,b}`, `{,b}`, `{a,}`. -/
inductive Rep where
  | one | opt | plus | star
  | times (n : Nat) | between (a b : Nat) | upTo (b : Nat) | atLeast (a : Nat)

def Rep.text : Rep → List Char
  | .one => []
  | .opt => ['?']
  | .plus => ['+']
  | .star => ['*']
  | .times n => '{' :: (strDec n ++ ['}'])
  | .between a b => '{' :: (strDec a ++ ',' :: (strDec b ++ ['}']))
  | .upTo b => '{' :: ',' :: (strDec b ++ ['}'])
  | .atLeast a => '{' :: (strDec a ++ [',', '}'])

/-- The smallest and the largest number of repetitions.  Without an upper bound it is 32767. -/
def Rep.bounds : Rep → Nat × Nat
  | .one => (1, 1)
  | .opt => (0, 1)
  | .plus => (1, 32767)
  | .star => (0, 32767)
  | .times n => (n, n)
  | .between a b => (a, b)
  | .upTo b => (0, b)
  | .atLeast a => (a, 32767)

/-- A sequence of patterns: `<text>`, `[<text>...]` or `[^<text>...]`, and `(...)`, each with its
repetition. -/
inductive Pat where
  | nil
  | comp (text : List Char) (r : Rep) (next : Pat)
  | set (inclusive : Bool) (texts : List (List Char)) (r : Rep) (next : Pat)
  | group (body : Pat) (r : Rep) (next : Pat)

def Pat.text : Pat → List Char
  | .nil => []
  | .comp x r next => '<' :: (x ++ '>' :: (r.text ++ next.text))
  | .set inclusive xs r next =>
    '[' :: ((if inclusive then [] else ['^']) ++ (xs.flatMap fun x => '<' :: (x ++ ['>'])) ++
      ']' :: (r.text ++ next.text))
  | .group body r next => '(' :: (body.text ++ ')' :: (r.text ++ next.text))

/-- A component expression without brackets. -/
def NoBrackets (x : List Char) : Prop :=
  ∀ c ∈ x, c ≠ '<' ∧ c ≠ '>' ∧ c ≠ '(' ∧ c ≠ ')' ∧ c ≠ '[' ∧ c ≠ ']'

def Rep.Ok (r : Rep) : Prop := r.bounds.1 ≤ r.bounds.2 ∧ r.bounds.2 ≤ 32767

def Pat.Ok : Pat → Prop
  | .nil => True
  | .comp x r next => NoBrackets x ∧ r.Ok ∧ next.Ok
  | .set _ xs r next => (∀ x ∈ xs, NoBrackets x) ∧ r.Ok ∧ next.Ok
  | .group body r next => body.Ok ∧ r.Ok ∧ next.Ok

/-- A component matches a component expression: the empty one matches all, and another is searched in
the URI form of the component. -/
def Fits (search : List Char → List Char → Bool) (x : List Char) (c : Component) : Prop :=
  x = [] ∨ search x c.toEscapedString = true

/-- The sequences of components that a sequence of patterns denotes. -/
def Pat.Lang (search : List Char → List Char → Bool) : Pat → List Component → Prop
  | .nil, w => w = []
  | .comp x r next, w => ∃ u v, w = u ++ v ∧ r.bounds.1 ≤ u.length ∧ u.length ≤ r.bounds.2 ∧
      (∀ c ∈ u, Fits search x c) ∧ next.Lang search v
  | .set inclusive xs r next, w => ∃ u v, w = u ++ v ∧ r.bounds.1 ≤ u.length ∧ u.length ≤ r.bounds.2 ∧
      (∀ c ∈ u, (∃ x ∈ xs, Fits search x c) ↔ inclusive = true) ∧ next.Lang search v
  | .group body r next, w => ∃ u v n, w = u ++ v ∧ r.bounds.1 ≤ n ∧ n ≤ r.bounds.2 ∧
      Pow (body.Lang search) n u ∧ next.Lang search v

/-- What must be repeated more than once, or at least once without an exact count, is never empty. -/
def Pat.Solid (search : List Char → List Char → Bool) : Pat → Prop
  | .nil => True
  | .comp _ _ next => next.Solid search
  | .set _ _ _ next => next.Solid search
  | .group body r next => body.Solid search ∧ next.Solid search ∧
      (r = .one ∨ r.bounds.1 = 0 ∨ ¬ body.Lang search [])

/-- What an expression denotes; `start` is whether it begins with `^`, and `stop` whether it ends with
`$`. -/
def Denotes (search : List Char → List Char → Bool) (start stop : Bool) (p : Pat) (name : Name) : Prop :=
  ∃ a b c, name = a ++ b ++ c ∧ (start = true → a = []) ∧ (stop = true → c = []) ∧ p.Lang search b

/-- The number of groups. -/
def Pat.count : Pat → Nat
  | .nil => 0
  | .comp _ _ next => next.count
  | .set _ _ _ next => next.count
  | .group body _ next => 1 + body.count + next.count

/-- No group is repeated. -/
def Pat.Single : Pat → Prop
  | .nil => True
  | .comp _ _ next => next.Single
  | .set _ _ _ next => next.Single
  | .group body r next => r = .one ∧ body.Single ∧ next.Single

/-- `Split search p k w cap`: `w` is split among the patterns so that each group stands for the part
`cap i`, where `i` is its number, counted from `k` in the order of the left parentheses. -/
def Pat.Split (search : List Char → List Char → Bool) :
    Pat → Nat → List Component → (Nat → List Component) → Prop
  | .nil, _, w, _ => w = []
  | .comp x r next, k, w, cap => ∃ u v, w = u ++ v ∧ r.bounds.1 ≤ u.length ∧ u.length ≤ r.bounds.2 ∧
      (∀ c ∈ u, Fits search x c) ∧ next.Split search k v cap
  | .set inclusive xs r next, k, w, cap => ∃ u v, w = u ++ v ∧ r.bounds.1 ≤ u.length ∧
      u.length ≤ r.bounds.2 ∧ (∀ c ∈ u, (∃ x ∈ xs, Fits search x c) ↔ inclusive = true) ∧
      next.Split search k v cap
  | .group body _ next, k, w, cap => ∃ v, w = cap k ++ v ∧ body.Split search (k + 1) (cap k) cap ∧
      next.Split search (k + 1 + body.count) v cap

/-- The text of an expression. -/
def exprText (start stop : Bool) (p : Pat) : List Char :=
  (if start then ['^'] else []) ++ p.text ++ (if stop then ['$'] else [])

/-- The items of an expansion: a back reference and a component. -/
inductive Item where
  | ref (i : Nat)
  | comp (x : List Char)

def Item.text : Item → List Char
  | .ref i => '\\' :: strDec i
  | .comp x => '<' :: (x ++ ['>'])

/-- What an item stands for, given what the back references stand for. -/
def Item.value (val : Nat → List Component) : Item → List Component
  | .ref i => val i
  | .comp x => [Component.generic (x.map fun c => UInt8.ofNat c.toNat)]

def Item.isRef : Item → Bool
  | .ref _ => true
  | .comp _ => false

/-- Python's `x in text`. -/
def contains (x : List Char) : List Char → Bool
  | [] => x.isEmpty
  | c :: cs => x.isPrefixOf (c :: cs) || contains x cs

/-- Searching for an expression that is a literal text, or `.*`. -/
def literalSearch (x t : List Char) : Bool := x == ".*".toList || contains x t

end PyNDN.Spec.Regex
