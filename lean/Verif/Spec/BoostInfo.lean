import Verif.Model.BoostInfo
/-
Specification of configuration files in the Boost INFO format: which text denotes which entries, and what a tree of entries gives for
a key.  From the model come `isLineBreak` (the line breaks of Python), `isPySpace` (the blanks of Python) and, for `View` only, the
type of trees.
-/
namespace PyNDN.Spec.BoostInfo
open _root_.PyNDN (isPySpace)
open _root_.PyNDN.BoostInfo (Str isLineBreak Tree)

/-- An entry of a configuration: a key, maybe a value, and the entries of its section. -/
inductive Item where
  | mk (key : Str) (value : Option Str) (children : List Item)

def Item.key : Item → Str
  | .mk k _ _ => k
def Item.value : Item → Option Str
  | .mk _ v _ => v
def Item.children : Item → List Item
  | .mk _ _ c => c

/-! ### What a tree shows -/

/-- What can be seen of a tree: its value and its dictionary. -/
inductive View where
  | node (value : Option Str) (subtrees : List (Str × List View))

mutual
/-- What can be seen of a tree. -/
def view : Tree → View
  | .mk v subs _ => .node v (viewDict subs)
def viewDict : List (Str × List Tree) → List (Str × List View)
  | [] => []
  | (k, ts) :: rest => (k, viewList ts) :: viewDict rest
def viewList : List Tree → List View
  | [] => []
  | t :: ts => view t :: viewList ts
end

/-- The different keys, in the order in which they appear first. -/
def firsts : List Str → List Str
  | [] => []
  | k :: ks => k :: (firsts ks).filter fun j => j ≠ k

/-- A list by key: for each key, in the order of their first appearance, its elements in order. -/
def group (l : List (Str × α)) : List (Str × List α) :=
  (firsts (l.map Prod.fst)).map fun k => (k, (l.filter fun p => p.1 = k).map Prod.snd)

mutual
/-- The tree of an entry. -/
def itemView : Item → View
  | .mk _ v children => .node v (group (itemsView children))
/-- The trees of entries, with their keys. -/
def itemsView : List Item → List (Str × View)
  | [] => []
  | i :: is => (i.key, itemView i) :: itemsView is
end

/-- The tree of a configuration. -/
def documentView (items : List Item) : View := .node none (group (itemsView items))

/-- The entries that a path of keys leads to, in the order of the text. -/
def select : List Str → List Item → List Item
  | [], _ => []
  | [k], items => items.filter fun i => i.key = k
  | k :: k' :: ks, items => (items.filter fun i => i.key = k).flatMap fun i => select (k' :: ks) i.children

/-! ### Text -/

/-- Spaces and tabs. -/
def Spaces (s : Str) : Prop := ∀ c ∈ s, c = ' ' ∨ c = '\t'

/-- A word that needs no quotes. -/
def Plain (w : Str) : Prop := w ≠ [] ∧ ∀ c ∈ w, isPySpace c = false ∧ c ≠ '"' ∧ c ≠ '\\' ∧ c ≠ ';'

/-- A word in quotes, with a backslash before each quote and each backslash. -/
def quote (w : Str) : Str := '"' :: w.flatMap (fun c => if c = '"' ∨ c = '\\' then ['\\', c] else [c]) ++ ['"']

/-- The text of a word: as it is, or in quotes.  In quotes it can have blanks, quotes and backslashes; a semicolon starts a comment
even there, and a line break always ends the line. -/
def WordText (w text : Str) : Prop :=
  (text = w ∧ Plain w) ∨ (text = quote w ∧ ∀ c ∈ w, isLineBreak c = false ∧ c ≠ ';')

/-- The key and the value of an entry: not a brace alone; the key is not the word for inclusion. -/
def WordsOk (key : Str) (value : Option Str) : Prop :=
  (∀ w ∈ key :: value.toList, w ≠ ['{'] ∧ w ≠ ['}']) ∧ key ≠ "#include".toList

/-- The text of a key and maybe a value. -/
def EntryText (key : Str) (value : Option Str) (text : Str) : Prop :=
  WordsOk key value ∧
  match value with
  | none => WordText key text
  | some v => ∃ kt gap vt, WordText key kt ∧ Spaces gap ∧ gap ≠ [] ∧ WordText v vt ∧ text = kt ++ gap ++ vt

/-- The end of a line: spaces and maybe a comment. -/
def LineEnd (s : Str) : Prop := ∃ sp cm, Spaces sp ∧ (cm = [] ∨ ∃ c, cm = ';' :: c) ∧ s = sp ++ cm

/-- A line with the given text, indented in any way, maybe with a comment. -/
def LineOf (text line : Str) : Prop := ∃ sp e, Spaces sp ∧ LineEnd e ∧ line = sp ++ text ++ e

/-- An empty line or a line with a comment only. -/
def BlankLine (line : Str) : Prop := LineEnd line

/-- The lines of the entries of a section or of a document. -/
inductive Lines : List Item → List Str → Prop
  | nil : Lines [] []
  /-- A blank line anywhere. -/
  | blank {items l ls} : BlankLine l → Lines items ls → Lines items (l :: ls)
  /-- An entry without a section. -/
  | entry {key value text l items ls} : EntryText key value text → LineOf text l → Lines items ls →
      Lines (.mk key value [] :: items) (l :: ls)
  /-- An entry with a section, whose opening brace is on a line of its own, maybe after blank lines. -/
  | section {key value text l blanks o children body c items ls} : EntryText key value text → LineOf text l →
      (∀ b ∈ blanks, BlankLine b) → LineOf ['{'] o → Lines children body → LineOf ['}'] c → Lines items ls →
      Lines (.mk key value children :: items) (l :: (blanks ++ o :: (body ++ c :: ls)))
  /-- An entry with a section, whose opening brace is at the end of the line, after a gap; the words have no brace. -/
  | sectionSame {key value text gap l children body c items ls} : EntryText key value text → '{' ∉ text → Spaces gap → gap ≠ [] →
      LineOf (text ++ gap ++ ['{']) l → Lines children body → LineOf ['}'] c → Lines items ls →
      Lines (.mk key value children :: items) (l :: (body ++ c :: ls))

/-- A text of lines: each ends with a line feed, maybe after a carriage return; the last one need not. -/
inductive Text : List Str → Str → Prop
  | nil : Text [] []
  | last {l} : l ≠ [] → (∀ c ∈ l, isLineBreak c = false) → Text [l] l
  | cons {l ls text nl} : (∀ c ∈ l, isLineBreak c = false) → nl = ['\n'] ∨ nl = ['\r', '\n'] → Text ls text →
      Text (l :: ls) (l ++ nl ++ text)

end PyNDN.Spec.BoostInfo
