import Verif.Model.NameUri
/-
Model of the parser of configuration files (util/boost_info_parser.py): `shlex_split`, `BoostInfoTree`, `BoostInfoParser`.  A Python
`str` is a list of characters.  The pointers `parent` and `lastChild` of a BoostInfoTree are modelled by a zipper: a parent pointer
is only set by `addSubtree`, together with the entry in the dictionary of the parent, so the nodes form a tree, and `lastChild` is
the last element of the list which was appended to last.
-/
namespace PyNDN.BoostInfo
open PyNDN (strip isPySpace Err)

/-- A Python `str`. -/
abbrev Str := List Char

/-- `" \t\n\r"` (boost_info_parser.py:37). -/
def isBlank (c : Char) : Bool := c == ' ' || c == '\t' || c == '\n' || c == '\r'

/-- The inner loop of `shlex_split` (boost_info_parser.py:48-83), from the start of a token: the token and the rest of the string from
where the loop stopped.  The loop of the code moves two indexes and copies slices; here the characters are copied one at a time. -/
def scanToken (inQuotation : Bool) (token : Str) : Str → Str × Str
  | [] => (token, [])
  | c :: rest =>
    if c = '\\' then
      match rest with
      | [] => (token, [])
      | d :: rest => scanToken inQuotation (token ++ [d]) rest
    else if inQuotation then
      if c = '"' then scanToken false token rest else scanToken true (token ++ [c]) rest
    else if c = '"' then scanToken true token rest
    else if isBlank c then (token, c :: rest)
    else scanToken false (token ++ [c]) rest

/-- The outer loop of `shlex_split` (boost_info_parser.py:40-89).  Each pass takes at least one character, so as many passes as there
are characters suffice. -/
def splitLoop : Nat → Str → List Str
  | 0, _ => []
  | fuel + 1, s =>
    match s.dropWhile isBlank with
    | [] => []
    | c :: rest =>
      let (token, rest) := scanToken false [] (c :: rest)
      token :: splitLoop fuel rest

/-- `shlex_split` (boost_info_parser.py:23-89). -/
def shlexSplit (s : Str) : List Str := splitLoop s.length s

/-- `BoostInfoTree` (boost_info_parser.py:102-109): the value, the dictionary of the lists of sub-trees in the order of insertion, and
the key of the last child. -/
inductive Tree where
  | mk (value : Option Str) (subtrees : List (Str × List Tree)) (last : Option Str)

/-- `BoostInfoTree()`. -/
def Tree.empty (value : Option Str) : Tree := .mk value [] none

def Tree.value : Tree → Option Str
  | .mk v _ _ => v
def Tree.subtrees : Tree → List (Str × List Tree)
  | .mk _ s _ => s
def Tree.last : Tree → Option Str
  | .mk _ _ l => l

/-- The dictionary part of `addSubtree` (boost_info_parser.py:128-131). -/
def insertTree (treeName : Str) (newTree : Tree) : List (Str × List Tree) → List (Str × List Tree)
  | [] => [(treeName, [newTree])]
  | (k, ts) :: rest => if k = treeName then (k, ts ++ [newTree]) :: rest else (k, ts) :: insertTree treeName newTree rest

/-- `addSubtree` and `createSubtree` (boost_info_parser.py:122-146). -/
def Tree.createSubtree (t : Tree) (treeName : Str) (value : Option Str) : Tree :=
  .mk t.value (insertTree treeName (Tree.empty value) t.subtrees) (some treeName)

/-- The list of a key. -/
def lookup (key : Str) : List (Str × List Tree) → Option (List Tree)
  | [] => none
  | (k, ts) :: rest => if k = key then some ts else lookup key rest

/-- `lastChild`. -/
def Tree.lastChild (t : Tree) : Option Tree := do
  let key ← t.last
  let ts ← lookup key t.subtrees
  ts.getLast?

/-- The dictionary in which the last child under the key is what it has become. -/
def replaceLast (key : Str) (child : Tree) : List (Str × List Tree) → List (Str × List Tree)
  | [] => []
  | (k, ts) :: rest => if k = key then (k, ts.dropLast ++ [child]) :: rest else (k, ts) :: replaceLast key child rest

/-- The node whose last child has become `child`. -/
def Tree.setLastChild (t : Tree) (child : Tree) : Tree :=
  match t.last with
  | some key => .mk t.value (replaceLast key child t.subtrees) t.last
  | none => t

/-- A context of the parser: the node and its ancestors, the nearest first; or None, with the root. -/
inductive Ctx where
  | node (t : Tree) (ancestors : List Tree)
  | none (root : Tree)

/-- The root, from any context. -/
def rootOf (t : Tree) : List Tree → Tree
  | [] => t
  | p :: ps => rootOf (p.setLastChild t) ps

def Ctx.root : Ctx → Tree
  | .node t ancestors => rootOf t ancestors
  | .none root => root

/-- `context.createSubtree(key, val)`; AttributeError for None. -/
def Ctx.create (key : Str) (value : Option Str) : Ctx → Except Err Ctx
  | .node t ancestors => .ok (.node (t.createSubtree key value) ancestors)
  | .none _ => .error .attribute

/-- `context.lastChild`. -/
def Ctx.enter : Ctx → Except Err Ctx
  | .node t ancestors =>
    match t.lastChild with
    | .some child => .ok (.node child (t :: ancestors))
    | .none => .ok (.none (rootOf t ancestors))
  | .none _ => .error .attribute

/-- `context.parent`. -/
def Ctx.leave : Ctx → Except Err Ctx
  | .node t (p :: ancestors) => .ok (.node (p.setLastChild t) ancestors)
  | .node t [] => .ok (.none t)
  | .none _ => .error .attribute

/-- The files that `#include` can open. -/
abbrev Files := Str → Option Str

/-- The string without the comment (boost_info_parser.py:313-316). -/
def cutComment (string : Str) : Str := if ';' ∈ string then strip (string.take (string.idxOf ';')) else string

/-- `_parseLine` (boost_info_parser.py:309-365).  `readFile` is `_read` of the contents of a file.  The function calls itself with a
part without a brace and with a part that begins with a brace, for which it does not call itself again, so a depth of 2 suffices. -/
def parseLine (files : Files) (readFile : Str → Ctx → Except Err Ctx) : Nat → Str → Ctx → Except Err Ctx
  | 0, _, _ => .error .runtime
  | depth + 1, string, context =>
    let string := cutComment string
    if string.length = 0 then .ok context
    else
      let strings := shlexSplit string
      let isSectionStart := strings.any fun s => s == ['{']
      let isSectionEnd := strings.any fun s => s == ['}']
      if !isSectionStart && !isSectionEnd then
        match strings with
        | [] => .error .index
        | key :: rest =>
          if key = "#include".toList then
            match rest.head? with
            | none => .error .type
            | some name =>
              match files name with
              | none => .error .runtime
              | some input => readFile input context
          else context.create key rest.head?
      else
        let sectionStart := string.idxOf '{'
        if 0 < sectionStart ∧ sectionStart < string.length then do
          let ctx ← parseLine files readFile depth (string.take sectionStart) context
          parseLine files readFile depth (string.drop sectionStart) ctx
        else if string.head? = some '{' then context.enter
        else if string.head? = some '}' then context.leave
        else .error .runtime

/-- The line breaks of `str.splitlines()`. -/
def isLineBreak (c : Char) : Bool :=
  let n := c.toNat
  (10 ≤ n && n ≤ 13) || (28 ≤ n && n ≤ 30) || n == 0x85 || n == 0x2028 || n == 0x2029

/-- `str.splitlines()`: `\r\n` is one break, and there is no line after a break at the end. -/
def splitLines (line : Str) : Str → List Str
  | [] => if line.length = 0 then [] else [line]
  | '\r' :: '\n' :: rest => line :: splitLines [] rest
  | c :: rest => if isLineBreak c then line :: splitLines [] rest else splitLines (line ++ [c]) rest

/-- The loop of `_read` (boost_info_parser.py:265-266). -/
def readLines (files : Files) (readFile : Str → Ctx → Except Err Ctx) : List Str → Ctx → Except Err Ctx
  | [], ctx => .ok ctx
  | line :: lines, ctx => do
    let ctx ← parseLine files readFile 2 (strip line) ctx
    readLines files readFile lines ctx

/-- `_read` (boost_info_parser.py:256-268), with the depth of inclusion that Python allows; RecursionError is a RuntimeError. -/
def readInput (files : Files) : Nat → Str → Ctx → Except Err Ctx
  | 0, _, _ => .error .runtime
  | depth + 1, input, ctx => readLines files (readInput files depth) (splitLines [] input) ctx

/-- `read(input, inputName)` (boost_info_parser.py:220-243): the new root.  `depth` is the depth of inclusion that Python allows. -/
def read (files : Files) (depth : Nat) (input : Str) (root : Tree) : Except Err Tree :=
  (readInput files depth input (.node root [])).map Ctx.root

/-- `key.split('/')`. -/
def splitPath (part : Str) : Str → List Str
  | [] => [part]
  | c :: rest => if c = '/' then part :: splitPath [] rest else splitPath (part ++ [c]) rest

/-- `'/'.join(path)`. -/
def joinPath : List Str → Str
  | [] => []
  | [p] => p
  | p :: q :: ps => p ++ '/' :: joinPath (q :: ps)

/-- `BoostInfoTree.__getitem__` (boost_info_parser.py:148-164).  The path gets shorter with each call; `fuel` bounds its length. -/
def getItem : Nat → Str → Tree → List Tree
  | 0, _, _ => []
  | fuel + 1, key, t =>
    let key := key.dropWhile (· == '/')
    let path := splitPath [] key
    if key.length = 0 then [t]
    else
      match lookup (path.headD []) t.subtrees with
      | none => []
      | some subtrees =>
        if path.length = 1 then subtrees
        else subtrees.flatMap (getItem fuel (joinPath (path.drop 1)))

/-- `tree[key]`. -/
def Tree.get (t : Tree) (key : Str) : List Tree := getItem (key.length + 1) key t

/-- `getFirstValue` (boost_info_parser.py:166-182). -/
def Tree.getFirstValue (t : Tree) (key : Str) : Option Str :=
  match t.get key with
  | [] => none
  | u :: _ => u.value

mutual
/-- `_prettyprint` (boost_info_parser.py:191-207) of a node that has a parent. -/
def prettyNode (indentLevel : Nat) : Tree → Str
  | .mk value subtrees _ =>
    let s := match value with
      | some v => if v.length > 0 then '"' :: v ++ ['"'] else []
      | none => []
    let s := s ++ ['\n']
    if subtrees.length > 0 then
      s ++ List.replicate indentLevel ' ' ++ "{\n".toList ++ prettyDict indentLevel subtrees ++
        List.replicate indentLevel ' ' ++ "}\n".toList
    else s

/-- The loop over the dictionary (boost_info_parser.py:202-204). -/
def prettyDict (indentLevel : Nat) : List (Str × List Tree) → Str
  | [] => []
  | (t, ts) :: rest => prettyList indentLevel t ts ++ prettyDict indentLevel rest

/-- The loop over the sub-trees of a key. -/
def prettyList (indentLevel : Nat) (t : Str) : List Tree → Str
  | [] => []
  | u :: us => List.replicate (indentLevel + 2) ' ' ++ t ++ ' ' :: prettyNode (indentLevel + 2) u ++ prettyList indentLevel t us
end

/-- `str(root)` (boost_info_parser.py:191-210): a node without a parent. -/
def pretty (root : Tree) : Str := prettyDict 1 root.subtrees

end PyNDN.BoostInfo
