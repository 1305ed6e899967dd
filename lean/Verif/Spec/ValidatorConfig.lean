import Verif.Model.ValidatorConfig
import Verif.Spec.BoostInfo
import Verif.Spec.ValidatorPolicy
/-
Specification of validator configurations: what the entries of a configuration file mean.  The entries are those of
Spec/BoostInfo; rules, filters and checkers are given their meaning by Spec/ValidatorPolicy.  From the model come the types, the
parameters `Env` and the URI syntax of names (`parseUri`, C13).
-/
namespace PyNDN.Spec.ValidatorConfig
open _root_.PyNDN _root_.PyNDN.Validator
open _root_.PyNDN.BoostInfo (Str)
open _root_.PyNDN.ValidatorConfig (Env LoadErr AnchorCall)
open _root_.PyNDN.Spec.BoostInfo (Item)

/-- The entries of the section with the key. -/
def sections (key : String) (entries : List Item) : List Item := entries.filter fun i => i.key = key.toList

/-- The first entry of the section with the key has the value. -/
def Has (i : Item) (key : String) (v : Str) : Prop := ∃ e rest, sections key i.children = e :: rest ∧ e.value = some v

/-- The section has no entry with the key, or the first one has no value. -/
def Lacks (i : Item) (key : String) : Prop := ∀ v, ¬ Has i key v

/-- The word, in small or capital letters. -/
def Word (v : Str) (w : String) : Prop := v.map Char.toLower = w.toList

/-- The word for a relation between names. -/
inductive RelationIs : Str → Relation → Prop
  | equal {v} : Word v "equal" → RelationIs v .equal
  | isPrefixOf {v} : Word v "is-prefix-of" → RelationIs v .isPrefixOf
  | isStrictPrefixOf {v} : Word v "is-strict-prefix-of" → RelationIs v .isStrictPrefixOf

variable {A C : Type}

/-- The meaning of a filter section. -/
inductive FilterIs (E : Env A C) (i : Item) : Filter → Prop
  /-- `type name`, `name <uri>`, `relation <relation>`. -/
  | name {ty uri n rel r} : Has i "type" ty → Word ty "name" → Has i "name" uri → parseUri uri = .ok n → Has i "relation" rel →
      RelationIs rel r → FilterIs E i (.relation n r)
  /-- `type name`, `regex <regex>`. -/
  | regex {ty x f} : Has i "type" ty → Word ty "name" → Lacks i "name" → Has i "regex" x → E.regex x = some f → FilterIs E i (.regex f)

/-- The meaning of a `key-locator` section. -/
inductive KeyLocatorIs (E : Env A C) (i : Item) : Checker → Prop
  | name {ty uri n rel r} : Has i "type" ty → Word ty "name" → Has i "name" uri → parseUri uri = .ok n → Has i "relation" rel →
      RelationIs rel r → KeyLocatorIs E i (.relation n r)
  | regex {ty x f} : Has i "type" ty → Word ty "name" → Lacks i "name" → Has i "regex" x → E.regex x = some f →
      KeyLocatorIs E i (.regex f)
  /-- One section `hyper-relation` with `k-regex`, `k-expand`, `h-relation`, `p-regex` and `p-expand`. -/
  | hyper {ty h kr ke hr pr pe p k r} : Has i "type" ty → Word ty "name" → Lacks i "name" → Lacks i "regex" →
      sections "hyper-relation" i.children = [h] → Has h "k-regex" kr → Has h "k-expand" ke → Has h "h-relation" hr →
      Has h "p-regex" pr → Has h "p-expand" pe → RelationIs hr r → E.hyper pr pe = some p → E.hyper kr ke = some k →
      KeyLocatorIs E i (.hyper p k r)

/-- The meaning of a checker section. -/
inductive CheckerIs (E : Env A C) (i : Item) : Checker → Prop
  /-- `type customized` with one section `key-locator`. -/
  | customized {ty kl c} : Has i "type" ty → Word ty "customized" → sections "key-locator" i.children = [kl] → KeyLocatorIs E kl c →
      CheckerIs E i c
  /-- `type hierarchical`. -/
  | hierarchical {ty} : Has i "type" ty → Word ty "hierarchical" → CheckerIs E i hierarchicalChecker

/-- Two lists of the same length, whose elements are related one by one. -/
inductive Each {α β : Type} (R : α → β → Prop) : List α → List β → Prop
  | nil : Each R [] []
  | cons {a b as bs} : R a b → Each R as bs → Each R (a :: as) (b :: bs)

/-- The meaning of a rule section: `id`, `for data` or `for interest`, any number of filters, at least one checker. -/
structure RuleIs (E : Env A C) (i : Item) (r : Rule) : Prop where
  id : ∃ v, Has i "id" v
  use : ∃ v, Has i "for" v ∧ Word v (if r.isForInterest then "interest" else "data")
  filters : Each (FilterIs E) (sections "filter" i.children) r.filters
  checkers : Each (CheckerIs E) (sections "checker" i.children) r.checkers
  some : r.checkers ≠ []

/-- The refresh period in milliseconds that a section asks for: a number of hours, minutes or seconds; one hour if it is zero or cannot
be read; practically never if there is none. -/
inductive RefreshIs (i : Item) : Nat → Prop
  | never : Lacks i "refresh" → RefreshIs i 100000000000000
  | period {v digits rest : Str} {u : Char} {unit : Nat} : Has i "refresh" v → v = digits ++ u :: rest → digits ≠ [] →
      (∀ c ∈ digits, 48 ≤ c.toNat ∧ c.toNat ≤ 57) → (u = 'h' ∧ unit = 3600) ∨ (u = 'm' ∧ unit = 60) ∨ (u = 's' ∧ unit = 1) →
      digits.foldl (fun n c => n * 10 + (c.toNat - 48)) 0 ≠ 0 →
      RefreshIs i (digits.foldl (fun n c => n * 10 + (c.toNat - 48)) 0 * unit * 1000)
  | zero {v digits rest : Str} {u : Char} : Has i "refresh" v → v = digits ++ u :: rest → digits ≠ [] →
      (∀ c ∈ digits, 48 ≤ c.toNat ∧ c.toNat ≤ 57) → u = 'h' ∨ u = 'm' ∨ u = 's' →
      digits.foldl (fun n c => n * 10 + (c.toNat - 48)) 0 = 0 → RefreshIs i 3600000
  | unreadable {v : Str} : Has i "refresh" v →
      (¬ ∃ digits u rest, v = digits ++ u :: rest ∧ digits ≠ [] ∧ (∀ c ∈ digits, 48 ≤ c.toNat ∧ c.toNat ≤ 57) ∧
        (u = 'h' ∨ u = 'm' ∨ u = 's')) → RefreshIs i 3600000

/-- The meaning of a trust anchor section: an anchor to load, or (`type any`) none, which switches validation off. -/
inductive AnchorIs (E : Env A C) (i : Item) : Option (AnchorCall C) → Prop
  | file {ty f p} : Has i "type" ty → Word ty "file" → Has i "file-name" f → RefreshIs i p → AnchorIs E i (some (.file f p))
  | base64 {ty b c} : Has i "type" ty → Word ty "base64" → Has i "base64-string" b → E.certificate b = .ok c →
      AnchorIs E i (some (.certificate c))
  | dir {ty d p} : Has i "type" ty → Word ty "dir" → Has i "dir" d → RefreshIs i p → AnchorIs E i (some (.dir d p))
  | any {ty} : Has i "type" ty → Word ty "any" → AnchorIs E i none

/-- The meaning of a configuration: one section `validator` with rules and trust anchors. -/
structure ConfigIs (E : Env A C) (items : List Item) (rules : List Rule) (anchors : List (Option (AnchorCall C))) : Prop where
  intro ::
  body : ∃ v, sections "validator" items = [v] ∧ Each (RuleIs E) (sections "rule" v.children) rules ∧
    Each (AnchorIs E) (sections "trust-anchor" v.children) anchors

/-- Loading anchors one after the other without an exception. -/
inductive Loads (E : Env A C) : List (Option (AnchorCall C)) → A → A → Prop
  | nil {a} : Loads E [] a a
  | any {cs a b} : Loads E cs a b → Loads E (none :: cs) a b
  | call {c cs a a' b} : E.loadAnchor c a = (a', .ok ()) → Loads E cs a' b → Loads E (some c :: cs) a b

end PyNDN.Spec.ValidatorConfig
