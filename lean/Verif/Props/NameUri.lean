import Verif.Lemmas.NameUri
/-
C13: the URI form of names.
-/
namespace PyNDN
open Spec

/-- C13.  `Name(name.toUri())` is `name`, with and without the scheme, for every canonical name in which
a digest component (`sha256digest=`, `params-sha256=`) occurs only at the end.  Partial: for a digest
component that is not the last one the statement is false, see `C13_digest_not_last_fails`. -/
theorem C13_uri_roundtrip_partial (name : Name) (scheme : Bool) (hc : CanonicalName name)
    (hd : ∀ c ∈ name.dropLast, c.type ≠ .implicit ∧ c.type ≠ .params) :
    parseUri (Name.toUri name scheme) = .ok name := by
  cases name with
  | nil => cases scheme <;> decide +kernel
  | cons c cs =>
    rw [parseUri_toUri]
    have h2 : (restUri (c :: cs)).drop 1 = c.toEscapedString ++ restUri cs := by simp [restUri]
    rw [h2]
    exact parseComponents_text c cs hc fun d hd' => by
      have := hd d hd'
      simp [Component.isDigest, this.1, this.2]

/-- The URI of a name with a digest component before the last component is refused by the parser. -/
theorem C13_digest_not_last_fails (pre : Name) (c d : Component) (post : Name) (scheme : Bool)
    (hpre : ∀ x ∈ pre, Canonical x ∧ x.type ≠ .implicit ∧ x.type ≠ .params)
    (hc : c.type = .implicit ∨ c.type = .params) :
    parseUri (Name.toUri (pre ++ c :: d :: post) scheme) = .error .value := by
  have hp := parseComponents_digest pre c d post
    (fun x hx => ⟨(hpre x hx).1, by simp [Component.isDigest, (hpre x hx).2]⟩)
    (by rcases hc with h | h <;> simp [Component.isDigest, h])
  cases pre with
  | nil => rw [List.nil_append, parseUri_toUri]; exact hp
  | cons p pre => rw [List.cons_append, parseUri_toUri]; exact hp

/-- The escaped form of any component value is unescaped to the same value. -/
theorem C13_escape_roundtrip (value : Bytes) :
    fromEscapedString (escapeValue value) = .ok (some value) := fromEscapedString_escapeValue value

/-- An escaped value only has characters that are safe inside a URI component: never a slash, a colon,
an equal sign or a blank. -/
theorem C13_escape_safe (value : Bytes) :
    ∀ c ∈ escapeValue value, c ≠ '/' ∧ c ≠ ':' ∧ c ≠ '=' ∧ c ≠ ' ' := by
  intro c hc
  have h := (plain_iff c).mp (escapeValue_plain value c hc)
  exact ⟨h.2.1, h.2.2.1, h.2.2.2, fun e => by rw [e] at h; exact absurd h.1 (by decide)⟩

/-- Different canonical names of the kind above have different URIs. -/
theorem C13_uri_injective_partial (a b : Name) (scheme : Bool) (ha : CanonicalName a) (hb : CanonicalName b)
    (hda : ∀ c ∈ a.dropLast, c.type ≠ .implicit ∧ c.type ≠ .params)
    (hdb : ∀ c ∈ b.dropLast, c.type ≠ .implicit ∧ c.type ≠ .params)
    (h : Name.toUri a scheme = Name.toUri b scheme) : a = b := by
  have h1 := C13_uri_roundtrip_partial a scheme ha hda
  rw [h, C13_uri_roundtrip_partial b scheme hb hdb] at h1
  exact (Except.ok.inj h1).symm

-- Non-vacuity: a name with every kind of component.
def uriExample : Name :=
  [⟨.generic, [0x61, 0x2f, 0x25]⟩, ⟨.generic, []⟩, ⟨.generic, [0x2e]⟩, ⟨.other 130, [0x3d, 0x20]⟩,
   ⟨.implicit, List.replicate 32 0xab⟩]

example : CanonicalName uriExample ∧
    ∀ c ∈ uriExample.dropLast, c.type ≠ .implicit ∧ c.type ≠ .params := by
  constructor
  · unfold CanonicalName; decide
  · decide

example : String.ofList (Name.toUri (uriExample.take 4) true) = "ndn:/a%2F%25/.../..../130=%3D%20" := by
  decide +kernel

/-- `Name("ndn:")` raises IndexError. -/
example : parseUri "ndn:".toList = .error .index := by decide +kernel

end PyNDN
