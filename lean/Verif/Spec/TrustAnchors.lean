import Verif.Model.TrustAnchors
/-
Specification of a container of trust anchors: what a history of calls and the contents of files give reason to return.  From the model
come the types of certificates, files and calls.
-/
namespace PyNDN.Spec.TrustAnchors
open _root_.PyNDN
open _root_.PyNDN.Validator (SData SData.name)
open _root_.PyNDN.TrustAnchors (Env Op Obs Str)

/-- The file or directory has the certificate at a time. -/
def Contains (E : Env) (t : Nat) (path : Str) (isDirectory : Bool) (c : SData) : Prop :=
  if isDirectory then ∃ l, E.dir t path = some l ∧ c ∈ l else E.file t path = some c

/-- The directories can always be listed, and never have two certificates with the same name. -/
def Steady (E : Env) : Prop := ∀ t path, ∃ l, E.dir t path = some l ∧ (l.map SData.name).Nodup

/-- The application has added the certificate, and since then has neither cleared the container nor removed the name from a group. -/
def AddedBy (h : List (Op × Obs)) (c : SData) : Prop :=
  ∃ g before after, h = before ++ (.insert g c, .done) :: after ∧ (∀ o, (Op.clear, o) ∉ after) ∧ ∀ g', (Op.remove g' c.name, Obs.done) ∉ after

/-- A group for a file or directory has been made, and the container has not been cleared since. -/
def Watched (h : List (Op × Obs)) (path : Str) (refreshPeriod : Nat) (isDirectory : Bool) : Prop :=
  ∃ g before after, h = before ++ (.insertPath g path refreshPeriod isDirectory, .done) :: after ∧ ∀ o, (Op.clear, o) ∉ after

/-- The certificate comes from a file or directory that is watched: it has had the certificate, and has had a certificate with this name
less than a refresh period ago. -/
def ReadBy (E : Env) (h : List (Op × Obs)) (now : Nat) (c : SData) : Prop :=
  ∃ path refreshPeriod isDirectory, Watched h path refreshPeriod isDirectory ∧ (∃ t ≤ now, Contains E t path isDirectory c) ∧
    ∃ t ≤ now, now < t + refreshPeriod ∧ ∃ c', Contains E t path isDirectory c' ∧ c'.name = c.name

/-- The time after calls. -/
def clock (t : Nat) : List Op → Nat
  | [] => t
  | .wait ms :: os => clock (t + ms) os
  | _ :: os => clock t os

end PyNDN.Spec.TrustAnchors
