import Verif.Model.NameUri
/-
Model of the NDN regular expressions on names: util/regex/*.py.

A component expression `<...>` is a Python regular expression that is searched in the URI form of a
component.  `search expr text` stands for `re.compile(expr).search(text) != None`.  Capture groups
inside a component expression are not modelled, nor is Python's recursion limit.
-/
namespace PyNDN.Regex

/-- The matchers (ndn_regex_matcher_base.py:56-63).  `nil` and `cons` make the list of matchers of an
`NdnRegexPatternListMatcher`, `group k` is the `NdnRegexBackrefMatcher` with the number `k`, and `set`
is an `NdnRegexComponentSetMatcher` given by the test that it makes on a component. -/
inductive Rx where
  | set (test : Component → Bool)
  | nil
  | cons (m rest : Rx)
  | group (k : Nat) (body : Rx)
  | rep (min max : Nat) (m : Rx)

/-- `_matchResult` of each group. -/
abbrev Caps := Nat → List Component

def Caps.set (s : Caps) (k : Nat) (v : List Component) : Caps := fun j => if j = k then v else s j

/-- `while tried >= 0: ... tried -= 1` (ndn_regex_matcher_base.py:123-130,
ndn_regex_repeat_matcher.py:160-167). -/
def tryDown (f : Nat → Caps → Bool × Caps) : Nat → Caps → Bool × Caps
  | 0, s => f 0 s
  | t + 1, s =>
    match f (t + 1) s with
    | (true, s) => (true, s)
    | (false, s) => tryDown f t s

/-- The components that a successful match records (ndn_regex_matcher_base.py:77-80). -/
def slice (name : Name) (offset length : Nat) : List Component := (name.drop offset).take length

/-- `m.match` and then the rest (ndn_regex_matcher_base.py:124-126,
ndn_regex_repeat_matcher.py:161-163). -/
def andThen (m rest : Nat → Nat → Caps → Bool × Caps) (offset length tried : Nat) (s : Caps) : Bool × Caps :=
  match m offset tried s with
  | (true, s) => rest (offset + tried) (length - tried) s
  | (false, s) => (false, s)

/-- `_recursiveMatch2` (ndn_regex_repeat_matcher.py:140-167).  The first argument is
`repeatMax - repeat`. -/
def repLoop (m : Nat → Nat → Caps → Bool × Caps) (min : Nat) : Nat → Nat → Nat → Nat → Caps → Bool × Caps
  | 0, repetition, _, length, s => (length == 0 && decide (min ≤ repetition), s)
  | k + 1, repetition, offset, length, s =>
    if length = 0 then (decide (min ≤ repetition), s)
    else tryDown (andThen m (repLoop m min k (repetition + 1)) offset length) length s

/-- `match(name, offset, length)` (ndn_regex_matcher_base.py:65-85, 108-130,
ndn_regex_repeat_matcher.py:42-60, ndn_regex_component_set_matcher.py:40-64). -/
def Rx.run (name : Name) : Rx → Nat → Nat → Caps → Bool × Caps
  | .set test, offset, length, s =>
    if length ≠ 1 then (false, s)
    else match name[offset]? with
      | some c => (test c, s)
      | none => (false, s)
  | .nil, _, length, s => (length == 0, s)
  | .cons m rest, offset, length, s =>
    tryDown (andThen (m.run name) (rest.run name) offset length) length s
  | .group k body, offset, length, s =>
    match tryDown (andThen (body.run name) (fun _ length s => (length == 0, s)) offset length) length
        (s.set k []) with
    | (true, s) => (true, s.set k (slice name offset length))
    | (false, s) => (false, s)
  | .rep min max m, offset, length, s =>
    if min = 0 ∧ length = 0 then (true, s)
    else repLoop (m.run name) min max 0 offset length s

/-! ### Compiling -/

/-- `_extractSubPattern` and `_extractComponent` (ndn_regex_pattern_list_matcher.py:94-116,
ndn_regex_component_set_matcher.py:91-110): the text up to and with the bracket that closes `depth`
open ones, and what follows. -/
def extractSub (left right : Char) : Nat → List Char → Except Err (List Char × List Char)
  | 0, cs => .ok ([], cs)
  | _ + 1, [] => .error .value
  | d + 1, c :: cs => do
    let d' := if c = left then d + 2 else if c = right then d else d + 1
    let (x, rest) ← extractSub left right d' cs
    return (c :: x, rest)

/-- The text up to and with the first right brace. -/
def extractBrace : List Char → Except Err (List Char × List Char)
  | [] => .error .value
  | c :: cs =>
    if c = '}' then .ok ([c], cs)
    else do
      let (x, rest) ← extractBrace cs
      return (c :: x, rest)

/-- `_extractRepetition` (ndn_regex_pattern_list_matcher.py:118-145). -/
def extractRepetition : List Char → Except Err (List Char × List Char)
  | [] => .ok ([], [])
  | c :: cs =>
    if c = '+' ∨ c = '?' ∨ c = '*' then .ok ([c], cs)
    else if c = '{' then extractBrace (c :: cs)
    else .ok ([], c :: cs)

def maxRepetitions : Nat := 32767

/-- `[0-9]`. -/
def reDigit (c : Char) : Bool := decide (48 ≤ c.toNat ∧ c.toNat ≤ 57)

/-- `int` of a string of digits. -/
def toInt (cs : List Char) : Nat := cs.foldl (fun n c => n * 10 + (c.toNat - 48)) 0

/-- The text after the left brace (ndn_regex_repeat_matcher.py:108-126). -/
def parseBraces (cs : List Char) : Except Err (Nat × Nat) :=
  let a := cs.takeWhile reDigit
  match cs.dropWhile reDigit with
  | [',', '}'] => if a = [] then .error .value else .ok (toInt a, maxRepetitions)
  | ['}'] => if a = [] then .error .value else .ok (toInt a, toInt a)
  | ',' :: r =>
    if r.takeWhile reDigit ≠ [] ∧ r.dropWhile reDigit = ['}'] then
      .ok (if a = [] then 0 else toInt a, toInt (r.takeWhile reDigit))
    else .error .value
  | _ => .error .value

/-- `_parseRepetition` (ndn_regex_repeat_matcher.py:79-138). -/
def parseRepetition (rep : List Char) : Except Err (Nat × Nat) :=
  match rep with
  | [] => .ok (1, 1)
  | ['?'] => .ok (0, 1)
  | ['+'] => .ok (1, maxRepetitions)
  | ['*'] => .ok (0, maxRepetitions)
  | '{' :: cs => do
    let (min, max) ← parseBraces cs
    if min > maxRepetitions ∨ max > maxRepetitions ∨ min > max then .error .value
    else return (min, max)
  | _ => .error .value

/-- The test of an `NdnRegexComponentMatcher` (ndn_regex_component_matcher.py:44-71). -/
def componentTest (search : List Char → List Char → Bool) (expr : List Char) (c : Component) : Bool :=
  if expr = [] then true else search expr c.toEscapedString

theorem extractSub_length {l r : Char} : ∀ {d : Nat} {cs x rest : List Char},
    extractSub l r d cs = .ok (x, rest) → x.length + rest.length = cs.length
  | 0, cs, x, rest, h => by unfold extractSub at h; cases h; simp
  | d + 1, [], x, rest, h => by unfold extractSub at h; cases h
  | d + 1, c :: cs, x, rest, h => by
    unfold extractSub at h
    dsimp only at h
    cases hx : extractSub l r (if c = l then d + 2 else if c = r then d else d + 1) cs with
    | error e => rw [hx] at h; cases h
    | ok p =>
      rw [hx] at h
      cases h
      have := extractSub_length hx
      simp; omega

theorem extractBrace_length : ∀ {cs x rest : List Char},
    extractBrace cs = .ok (x, rest) → x.length + rest.length = cs.length
  | [], x, rest, h => by unfold extractBrace at h; cases h
  | c :: cs, x, rest, h => by
    unfold extractBrace at h
    split at h
    · cases h; simp; omega
    · cases hx : extractBrace cs with
      | error e => rw [hx] at h; cases h
      | ok p =>
        rw [hx] at h
        cases h
        have := extractBrace_length hx
        simp; omega

theorem extractRepetition_length {cs x rest : List Char} (h : extractRepetition cs = .ok (x, rest)) :
    x.length + rest.length = cs.length := by
  unfold extractRepetition at h
  split at h
  · cases h; rfl
  · split at h
    · cases h; simp; omega
    · split at h
      · exact extractBrace_length h
      · cases h; simp

/-- `_compileMultipleComponents` (ndn_regex_component_set_matcher.py:123-146). -/
def compileComponents (cs : List Char) : Except Err (List (List Char)) :=
  match cs with
  | [] => .ok []
  | c :: cs =>
    if c ≠ '<' then .error .value
    else match h : extractSub '<' '>' 1 cs with
      | .error e => .error e
      | .ok (x, rest) => do
        let more ← compileComponents rest
        return x.dropLast :: more
termination_by cs.length
decreasing_by have := extractSub_length h; simp; omega

/-- `NdnRegexComponentSetMatcher._compile` (ndn_regex_component_set_matcher.py:66-89) of `[` and the
text after it. -/
def compileSet (search : List Char → List Char → Bool) (inner : List Char) : Except Err (Component → Bool) :=
  match inner with
  | '^' :: cs => do
    let exprs ← compileComponents cs
    return fun c => !exprs.any fun e => componentTest search e c
  | cs => do
    let exprs ← compileComponents cs
    return fun c => exprs.any fun e => componentTest search e c

/-- `NdnRegexPatternListMatcher._compile` with `_extractPattern`, and the compilation of the matchers
in it (ndn_regex_pattern_list_matcher.py:36-92, ndn_regex_repeat_matcher.py:62-77,
ndn_regex_backref_matcher.py:37-47).  `k` is the number of groups pushed so far. -/
def compileList (search : List Char → List Char → Bool) (cs : List Char) (k : Nat) : Except Err (Rx × Nat) :=
  match cs with
  | [] => .ok (.nil, k)
  | c :: cs =>
    if c = '(' then
      match h : extractSub '(' ')' 1 cs with
      | .error e => .error e
      | .ok (x, rest) =>
        match h2 : extractRepetition rest with
        | .error e => .error e
        | .ok (rep, rest) => do
          let (body, k') ← compileList search x.dropLast (k + 1)
          let (min, max) ← parseRepetition rep
          let m := if rep = [] then Rx.group k body else .rep min max (.group k body)
          let (more, k') ← compileList search rest k'
          return (.cons m more, k')
    else if c = '<' then
      match h : extractSub '<' '>' 1 cs with
      | .error e => .error e
      | .ok (x, rest) =>
        match h2 : extractRepetition rest with
        | .error e => .error e
        | .ok (rep, rest) => do
          let (min, max) ← parseRepetition rep
          let (more, k') ← compileList search rest k
          return (.cons (.rep min max (.set (componentTest search x.dropLast))) more, k')
    else if c = '[' then
      match h : extractSub '[' ']' 1 cs with
      | .error e => .error e
      | .ok (x, rest) =>
        match h2 : extractRepetition rest with
        | .error e => .error e
        | .ok (rep, rest) => do
          let test ← compileSet search x.dropLast
          let (min, max) ← parseRepetition rep
          let (more, k') ← compileList search rest k
          return (.cons (.rep min max (.set test)) more, k')
    else .error .value
termination_by cs.length
decreasing_by
  all_goals
    have h1 := extractSub_length h
    have h2' := extractRepetition_length h2
    simp
    try omega

/-- `NdnRegexTopMatcher` (ndn_regex_top_matcher.py:33-44). -/
structure Top where
  primary : Rx
  primaryGroups : Nat
  secondary : Option (Rx × Nat)

/-- `NdnRegexTopMatcher._compile` (ndn_regex_top_matcher.py:132-149). -/
def compile (search : List Char → List Char → Bool) (expr : List Char) : Except Err Top :=
  match expr.getLast? with
  | none => .error .index
  | some l =>
    let expr := if l ≠ '$' then expr ++ "<.*>*".toList else expr.dropLast
    match expr with
    | [] => .error .index
    | c :: cs =>
      if c ≠ '^' then do
        let (s, n) ← compileList search ("<.*>*".toList ++ (c :: cs)) 0
        let (p, m) ← compileList search (c :: cs) 0
        return ⟨p, m, some (s, n)⟩
      else do
        let (p, m) ← compileList search cs 0
        return ⟨p, m, none⟩

/-- What `match` leaves behind. -/
structure TopState where
  caps1 : Caps := fun _ => []
  caps2 : Caps := fun _ => []
  secondaryUsed : Bool := false
  result : Name := []

/-- `NdnRegexTopMatcher.match` (ndn_regex_top_matcher.py:46-71). -/
def Top.run (t : Top) (name : Name) (s : TopState) : Bool × TopState :=
  match t.primary.run name 0 name.length s.caps1 with
  | (true, c1) => (true, { s with caps1 := c1, secondaryUsed := false, result := name })
  | (false, c1) =>
    match t.secondary with
    | none => (false, { s with caps1 := c1, secondaryUsed := false, result := [] })
    | some (m, _) =>
      match m.run name 0 name.length s.caps2 with
      | (true, c2) => (true, ⟨c1, c2, true, name⟩)
      | (false, c2) => (false, ⟨c1, c2, false, []⟩)

/-- The `<...>` items of `_getItemFromExpand` (ndn_regex_top_matcher.py:181-194): raises if the item
ends the string. -/
def expandItem : Nat → List Char → Except Err (List Char × List Char)
  | 0, cs => .ok ([], cs)
  | _ + 1, [] => .error .value
  | d + 1, c :: cs =>
    if cs = [] then .error .value
    else do
      let d' := if c = '<' then d + 2 else if c = '>' then d else d + 1
      let (x, rest) ← expandItem d' cs
      return (c :: x, rest)

theorem expandItem_length : ∀ {d : Nat} {cs x rest : List Char},
    expandItem d cs = .ok (x, rest) → x.length + rest.length = cs.length
  | 0, cs, x, rest, h => by unfold expandItem at h; cases h; simp
  | d + 1, [], x, rest, h => by unfold expandItem at h; cases h
  | d + 1, c :: cs, x, rest, h => by
    unfold expandItem at h
    dsimp only at h
    split at h
    · cases h
    · cases hx : expandItem (if c = '<' then d + 2 else if c = '>' then d else d + 1) cs with
      | error e => rw [hx] at h; cases h
      | ok p =>
        rw [hx] at h
        cases h
        have := expandItem_length hx
        simp; omega

/-- `str` to bytes, for the ASCII characters. -/
def charBytes (cs : List Char) : Bytes := cs.map fun c => UInt8.ofNat c.toNat

/-- `NdnRegexTopMatcher.expand` (ndn_regex_top_matcher.py:73-110, 151-196) after a match. -/
def expandWith (result : Name) (groups : Nat) (caps : Caps) (e : List Char) : Except Err Name :=
  match e with
  | [] => .ok []
  | c :: cs =>
    if c = '\\' then
      let digits := cs.takeWhile reDigit
      if digits = [] then .error .value
      else
        let i := toInt digits
        if i = 0 then do return result ++ (← expandWith result groups caps (cs.dropWhile reDigit))
        else if i ≤ groups then do
          return caps (i - 1) ++ (← expandWith result groups caps (cs.dropWhile reDigit))
        else .error .value
    else if c = '<' then
      if cs = [] then .error .value
      else match h : expandItem 1 cs with
        | .error e => .error e
        | .ok (x, rest) => do
          return Component.generic (charBytes x.dropLast) :: (← expandWith result groups caps rest)
    else .error .value
termination_by e.length
decreasing_by
  · have := (List.dropWhile_suffix (l := cs) reDigit).length_le; simp; omega
  · have := (List.dropWhile_suffix (l := cs) reDigit).length_le; simp; omega
  · have := expandItem_length h; simp; omega

def Top.expand (t : Top) (s : TopState) (e : List Char) : Except Err Name :=
  if s.secondaryUsed then
    expandWith s.result ((t.secondary.map Prod.snd).getD 0) s.caps2 e
  else expandWith s.result t.primaryGroups s.caps1 e

end PyNDN.Regex
