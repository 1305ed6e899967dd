import Verif.Props.ConfigPolicy
/-
C84: concrete histories of a `ConfigPolicyManager`.
-/
namespace PyNDN.Props
open PyNDN PyNDN.ConfigPolicy PyNDN.Spec.ConfigPolicy
open PyNDN.BoostInfo (Str Tree)
open PyNDN.Spec.BoostInfo (Item documentView view viewDict viewList itemsView itemView group firsts)
open PyNDN.Validator (SData Packet keyComponent exCert exData exPacket exSecond exCommand exKey comp toyVerify)

/-- An environment with v2 certificates, a toy signature, and the certificates `A` and `B`. -/
def c84Env : Env where
  isSecurityV1 := false
  regex := fun _ _ => .ok false
  expand := fun r _ n =>
    if r = "^(<>*)<KEY><>$".toList then .ok (if n.dropLast.getLast? = some keyComponent then some (n.take (n.length - 2)) else none)
    else .ok none
  file := fun _ _ => .error .runtime
  base64 := fun s => if s = "A".toList then .ok (exCert [comp 97] 1 (exKey 1) 1 9000000) else .ok (exCert [comp 97] 2 (exKey 2) 2 9000000)
  dir := fun _ _ => .ok []
  v1Key := fun _ => .error .runtime
  verify := toyVerify

/-- A tree without entries. -/
def c84Leaf (v : String) : List Tree := [.mk (some v.toList) [] none]
/-- A section. -/
def c84Sec (subs : List (String × List Tree)) : Tree := .mk none (subs.map fun p => (p.1.toList, p.2)) none

def c84DataRule : Tree := c84Sec [("for", c84Leaf "data"),
  ("filter", [c84Sec [("type", c84Leaf "name"), ("name", c84Leaf "/a"), ("relation", c84Leaf "is-prefix-of")]]),
  ("checker", [c84Sec [("type", c84Leaf "hierarchical")]])]

/-- A checker that wants a key locator under a name. -/
def c84Under (name : String) : Tree := c84Sec [("type", c84Leaf "customized"),
  ("key-locator", [c84Sec [("type", c84Leaf "name"), ("name", c84Leaf name), ("relation", c84Leaf "is-prefix-of")]])]

def c84InterestRule : Tree := c84Sec [("for", c84Leaf "interest"), ("checker", [c84Under "/a/KEY"])]

def c84Anchor (v : String) : Tree := c84Sec [("type", c84Leaf "base64"), ("base64-string", c84Leaf v)]

def c84Config : Tree := c84Sec [("validator", [c84Sec [("rule", [c84DataRule, c84InterestRule]),
  ("trust-anchor", [c84Anchor "A", c84Anchor "B"])]])]

/-- The entries of the configuration. -/
def c84Items : List Item :=
  let leaf (k v : String) : Item := .mk k.toList (some v.toList) []
  let sec (k : String) (l : List Item) : Item := .mk k.toList none l
  [sec "validator"
    [sec "rule" [leaf "for" "data", sec "filter" [leaf "type" "name", leaf "name" "/a", leaf "relation" "is-prefix-of"],
       sec "checker" [leaf "type" "hierarchical"]],
     sec "rule" [leaf "for" "interest",
       sec "checker" [leaf "type" "customized",
         sec "key-locator" [leaf "type" "name", leaf "name" "/a/KEY", leaf "relation" "is-prefix-of"]]],
     sec "trust-anchor" [leaf "type" "base64", leaf "base64-string" "A"],
     sec "trust-anchor" [leaf "type" "base64", leaf "base64-string" "B"]]]

def c84Kind : ConfigPolicy.Ev → Nat × Nat
  | .called i _ => (0, i)
  | .verified i _ => (1, i)
  | .failed i _ => (2, i)
  | .raised i _ => (3, i)
  | .dropped i => (4, i)
  | .express i _ => (5, i)
  | .inserted _ => (6, 0)
  | .loadError _ => (7, 0)
  | .updateError i _ => (8, i)

/-- What is observed after a configuration has been loaded at time 0. -/
def c84Run (E : Env) (config : Tree) (es : List ConfigPolicy.Event) : List (Nat × Nat) :=
  (ConfigPolicy.run E ((ConfigPolicy.init E 0).load E config) es).trace.map c84Kind

/-- A packet is verified with a certificate that is fetched after a timeout; the same packet then needs no Interest; a packet with a
name that no rule is for fails. -/
def c84Events : List ConfigPolicy.Event :=
  [.clock 5000, .verify exPacket 0, .timeout 0, .data 0 exSecond, .verify exPacket 0,
   .verify (.data (exData [comp 98] (exKey 1) 1)) 0]

set_option maxRecDepth 100000 in
example : c84Run c84Env c84Config c84Events = [(0, 0), (5, 0), (5, 0), (1, 0), (0, 1), (1, 1), (0, 2), (2, 2)] := by decide +kernel

set_option maxRecDepth 100000 in
example : ((ConfigPolicy.init c84Env 0).load c84Env c84Config).requiresVerification = true := by decide +kernel

example : SameConfig c84Events := by
  intro e he c
  simp only [c84Events, List.mem_cons, List.not_mem_nil, or_false] at he
  rcases he with rfl | rfl | rfl | rfl | rfl | rfl <;> simp

set_option maxRecDepth 100000 in
example : view c84Config = documentView c84Items := by
  simp [c84Config, c84Items, c84Sec, c84Leaf, c84DataRule, c84InterestRule, c84Under, c84Anchor, view, viewDict, viewList, documentView,
    itemsView, itemView, group, firsts, Item.key]

set_option maxRecDepth 100000 in
/-- A configuration with a trust anchor of the type any switches verification off. -/
example : ((ConfigPolicy.init c84Env 0).load c84Env
    (c84Sec [("validator", [c84Sec [("trust-anchor", [c84Sec [("type", c84Leaf "any")]])]])])).requiresVerification = false := by decide +kernel

/-- Two commands of a key and one of another; the replay of the first and an old command of a new key fail. -/
def c84Commands : List ConfigPolicy.Event :=
  [.clock 5000, .verify (exCommand 5000) 0, .verify (exCommand 5001) 0, .verify (exCommand 5000) 0, .verify (exCommand 1500 2) 0,
   .verify (exCommand 4000 2) 0]

set_option maxRecDepth 100000 in
example : c84Run c84Env c84Config (prompt c84Commands) =
    [(0, 0), (1, 0), (0, 1), (1, 1), (0, 2), (2, 2), (0, 3), (2, 3), (0, 4), (1, 4)] := by decide +kernel

/-! ### Departures -/

set_option maxRecDepth 100000 in
/-- C84 (departure): when the search is too deep, `onValidationFailed` is not called: a TypeError is raised. -/
theorem C84_depth_raises :
    c84Run { c84Env with maxDepth := 0 } c84Config [.clock 5000, .verify exPacket 0, .data 0 exSecond] = [(0, 0), (5, 0), (3, 0)] := by
  decide +kernel

set_option maxRecDepth 100000 in
/-- C84 (departure): the timestamp is remembered after `onVerified` has returned, so a command Interest that arrives again before
that is verified twice. -/
theorem C84_reentrant_replay :
    c84Run c84Env c84Config [.clock 5000, .verify (exCommand 5000) 0, .verify (exCommand 5000) 0] = [(0, 0), (1, 0), (0, 1), (1, 1)] := by
  decide +kernel

set_option maxRecDepth 100000 in
/-- C84 (departure): if the certificate that is fetched has expired, neither callback is ever called, and nothing is waited for. -/
theorem C84_expired_silent :
    c84Run c84Env c84Config [.clock 5000, .verify exPacket 0, .data 0 (exCert [comp 97, comp 98] 2 (exKey 1) 1 1000), .timeout 0] =
      [(0, 0), (5, 0), (4, 0)] := by decide +kernel

set_option maxRecDepth 100000 in
/-- C84 (departure): if the certificate that is fetched is not verified, `onValidationFailed` gets the certificate, not the packet of
the call. -/
theorem C84_failed_certificate :
    let bad := exCert [comp 97, comp 98] 2 (exKey 1) 9
    (ConfigPolicy.run c84Env ((ConfigPolicy.init c84Env 0).load c84Env c84Config)
        [.clock 5000, .verify exPacket 0, .data 0 bad]).trace.getLast?.map (fun e => match e with
      | .failed _ (.data d) => decide (d.name = bad.name)
      | _ => false) = some true ∧ (match exPacket with | .data d => d.name | _ => []) ≠ bad.name := by decide +kernel

/-- A Data packet with an HMAC signature. -/
def c84Hmac : Packet :=
  .data { data := { name := [comp 97], signature := { info := .hmac { type := some 1, keyName := exKey 1 }, signature := some [9] } }
          signed := .ok [9] }

set_option maxRecDepth 100000 in
/-- C84 (departure): a packet with an HMAC signature raises an exception instead of failing. -/
theorem C84_hmac_raises : c84Run c84Env c84Config [.clock 5000, .verify c84Hmac 0] = [(0, 0), (3, 0)] := by decide +kernel

set_option maxRecDepth 100000 in
/-- C84 (departure): a trust anchor of the configuration is forgotten after an hour, although it has not expired: then an Interest is
sent for it. -/
theorem C84_anchor_forgotten :
    let p := Packet.data (exData [comp 97, comp 98] (exKey 1) 1)
    c84Run c84Env c84Config [.clock 3599999, .verify p 0, .clock 3600000, .verify p 0] = [(0, 0), (1, 0), (0, 1), (5, 1)] := by
  decide +kernel

set_option maxRecDepth 100000 in
/-- C84 (departure): a trust anchor directory without a refresh period, which the code means to allow, makes `load` raise an
exception. -/
theorem C84_dir_without_refresh :
    c84Run c84Env (c84Sec [("validator", [c84Sec [("trust-anchor", [c84Sec [("type", c84Leaf "dir"), ("dir", c84Leaf "certs")]])]])]) [] = [(7, 0)] ∧
    c84Run c84Env (c84Sec [("validator", [c84Sec [("trust-anchor",
      [c84Sec [("type", c84Leaf "dir"), ("dir", c84Leaf "certs"), ("refresh", c84Leaf "1h")]])]])]) [] = [] := by decide +kernel

/-- A rule with two checkers. -/
def c84TwoCheckers (first second : String) : Tree := c84Sec [("validator", [c84Sec
  [("rule", [c84Sec [("for", c84Leaf "data"), ("checker", [c84Under first, c84Under second])]]), ("trust-anchor", [c84Anchor "A"])]])]

set_option maxRecDepth 100000 in
/-- C84 (departure): only the first checker of a rule counts. -/
theorem C84_first_checker :
    let p := Packet.data (exData [comp 97] (exKey 1) 1)
    c84Run c84Env (c84TwoCheckers "/b" "/a") [.clock 5000, .verify p 0] = [(0, 0), (2, 0)] ∧
    c84Run c84Env (c84TwoCheckers "/a" "/b") [.clock 5000, .verify p 0] = [(0, 0), (1, 0)] := by decide +kernel

set_option maxRecDepth 100000 in
/-- C84 (departure): removing an old timestamp raises an exception after `onVerified`. -/
theorem C84_update_raises :
    c84Run { c84Env with maxTrackedKeys := 2, keyTimestampTtl := 1000 } c84Config
      (prompt [.clock 5000, .verify (exCommand 5000) 0, .clock 7000, .verify (exCommand 7000 2) 0]) =
      [(0, 0), (1, 0), (0, 1), (1, 1), (8, 1)] := by decide +kernel

set_option maxRecDepth 100000 in
/-- C84 (departure): with too many keys the oldest timestamp is forgotten, and the command with it can be verified again. -/
theorem C84_evicted_replay :
    c84Run { c84Env with maxTrackedKeys := 1 } c84Config
      (prompt [.clock 5002, .verify (exCommand 5000) 0, .verify (exCommand 5001 2) 0, .verify (exCommand 5000) 0]) =
      [(0, 0), (1, 0), (0, 1), (1, 1), (0, 2), (1, 2)] := by decide +kernel

theorem toUri_dropLast {n : Name} (h : n ≠ []) : Name.toUri n.dropLast ≠ n.toUri := by
  obtain ⟨m, c, rfl⟩ : ∃ m c, n = m ++ [c] := ⟨n.dropLast, n.getLast h, (List.dropLast_append_getLast h).symm⟩
  rw [List.dropLast_concat]
  have hc : 0 < c.toEscapedString.length := List.length_pos_iff.mpr (text_ne_nil c)
  intro e
  have := congrArg List.length e
  unfold Name.toUri at this
  cases m with
  | nil =>
    simp at this
    exact text_ne_nil c this
  | cons a m =>
    simp at this

/-- C84 (departure): in security v1, a fixed signer is compared with the full certificate name, under which no cache has a certificate:
if the check of the rule passes with a certificate from the signer section, the certificate is not found under the key locator. -/
theorem C84_fixed_signer_v1 (E : Env) (hv : E.isSecurityV1 = true) (y : Sys) (hy : y.fixed = []) (checker : Tree) (certId : CertId) (c : SData) (hne : c.name ≠ [])
    (hid : signerId checker = .ok (some certId)) (hc : readCertificate E y.now certId = .ok c) (kl : Name)
    (h : (checkFixed E y kl checker).2 = .ok true) : ¬ LeadsTo E kl c := by
  unfold checkFixed lookupCertificate at h
  rw [hid] at h
  dsimp only at h
  rw [hy] at h
  dsimp only [List.find?_nil] at h
  rw [hc] at h
  dsimp only at h
  split at h
  · cases h
  · cases h
  · next heq =>
    split at heq
    · injection heq with _ heq
      cases heq
    · injection heq with _ heq
      injection heq with heq
      injection heq with heq
      subst heq
      injection h with h
      have h := (name_equals_iff _ _).mp h
      subst h
      unfold LeadsTo
      rw [if_pos hv]
      exact fun e => toUri_dropLast hne e

/-- A fixed-signer section. -/
def c84Fixed : Tree := c84Sec [("type", c84Leaf "fixed-signer"), ("signer", [c84Sec [("type", c84Leaf "base64"), ("base64-string", c84Leaf "A")]])]

set_option maxRecDepth 100000 in
/-- The check of a fixed signer passes in security v1. -/
example : (checkFixed { c84Env with isSecurityV1 := true } (ConfigPolicy.init { c84Env with isSecurityV1 := true } 0)
    (exCert [comp 97] 1 (exKey 1) 1 9000000).name c84Fixed).2.toOption = some true := by decide +kernel

end PyNDN.Props
