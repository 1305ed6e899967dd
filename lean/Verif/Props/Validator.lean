import Verif.Lemmas.ValidatorSilent
/-
C51, C52: what a successful validation means, and how a validation ends.
-/
namespace PyNDN.Validator
open PyNDN PyNDN.Spec.Validator

/-! ### C51: a success is justified by a chain of certificates -/

/-- Whatever the application, the network and the clock do: if the success callback of a call of
`validate` is called, then the policy asks for no signature check of the packet, or its signature
verifies with the key of a trusted certificate that its key locator names and that the policy allows. -/
theorem C51_justified (V : Cfg) (t : Int) (es : List Event) (id : Nat) (p : Packet)
    (hs : Ev.success id ∈ (run V (init t) es).trace)
    (hc : Ev.called id p ∈ (run V (init t) es).trace) :
    V.policy.check p = .ok .bypass ∨ Justified V (run V (init t) es).trace p := by
  have h := inv_reachable V t es
  obtain ⟨q, hq, hj⟩ := h.succ id hs
  rw [h.uniq id p q hc hq]
  exact hj

theorem conclude_success {V : Cfg} {y : Sys} {id : Nat} {async ok : Bool} {r : Int} {out : Out} {j : Nat}
    (h : Ev.success j ∈ (y.conclude V id async ok r out).trace) :
    Ev.success j ∈ y.trace ∨ (j = id ∧ ∃ s c, out = .success s c) := by
  have key : ∀ e : Ev, Ev.success j ∈ y.trace ++ [e] → Ev.success j ∈ y.trace ∨ Ev.success j = e := by
    intro e he
    rcases List.mem_append.1 he with he | he
    · exact .inl he
    · exact .inr (List.mem_singleton.1 he)
  cases out with
  | success s c =>
    rcases key _ h with h | h
    · exact .inl h
    · exact .inr ⟨by simpa using h, s, c, rfl⟩
  | fail s e c => exact .inl ((key _ h).resolve_right (by simp))
  | raise s e =>
    simp only [Sys.conclude] at h
    split at h
    · exact .inl ((key _ h).resolve_right (by simp))
    · exact .inl ((key _ h).resolve_right (by simp))
  | silent s => exact .inl ((key _ h).resolve_right (by simp))
  | fetch s n =>
    simp only [Sys.conclude] at h
    split at h
    · exact .inl ((key _ h).resolve_right (by simp))
    · exact .inl ((key _ h).resolve_right (by simp))

/-- The trace only grows at the end. -/
theorem conclude_sub {V : Cfg} {y : Sys} {id : Nat} {async ok : Bool} {r : Int} {out : Out} :
    y.trace ⊆ (y.conclude V id async ok r out).trace := by
  cases out with
  | success s c => exact sub_emit _ _
  | fail s e c => exact sub_emit _ _
  | raise s e => simp only [Sys.conclude]; split <;> exact sub_emit _ _
  | silent s => exact sub_emit _ _
  | fetch s n => simp only [Sys.conclude]; split <;> exact sub_emit _ _

/-- A chain of certificates with a root that is a trust anchor now, or a cached certificate that has
not expired now. -/
def Now (V : Cfg) (y : Sys) (trace : List Ev) (p : Packet) : Prop :=
  ∃ root certs, (root ∈ y.st.anchors ∨ NotExpired root y.now) ∧ Trusted V trace root ∧
    certs.length < V.maxDepth ∧ Chain V trace root certs p

theorem now_of_out {V : Cfg} {y y' : Sys} {A : List SData} {tr : List Ev} {p : Packet} {d : Nat} {s : Session}
    {c : List SData} (hA : A = y.st.anchors) (hs : tr ⊆ y'.trace)
    (h : OutInv V tr A y.now p d (.success s c)) :
    V.policy.check p = .ok .bypass ∨ Now V y y'.trace p := by
  subst hA
  refine h.2.1.imp (fun h => h) ?_
  rintro ⟨root, cs, h1, h2, h3, h4⟩
  exact ⟨root, cs, h1, Trusted.mono hs h2, h3, Chain.mono hs h4⟩

/-- At the moment of the success callback there is a chain of fewer than `maxDepth` certificates, each
signed by the one before it as the policy allows, from a certificate that is a trust anchor at this
moment, or that was verified before and has not expired at this moment, to the packet. -/
theorem C51_now (V : Cfg) (t : Int) (es : List Event) (e : Event) (id : Nat) (p : Packet)
    (hn : Ev.success id ∉ (run V (init t) es).trace)
    (hs : Ev.success id ∈ (step V (run V (init t) es) e).trace)
    (hc : Ev.called id p ∈ (step V (run V (init t) es) e).trace) :
    V.policy.check p = .ok .bypass ∨
      Now V (run V (init t) es) (step V (run V (init t) es) e).trace p := by
  have h := inv_reachable V t es
  have h' := inv_step h e
  generalize run V (init t) es = y at *
  have key : ∀ e : Ev, Ev.success id ∈ y.trace ++ [e] → Ev.success id = e := by
    intro e he
    rcases List.mem_append.1 he with he | he
    · exact absurd he hn
    · exact List.mem_singleton.1 he
  cases e with
  | validate q ok =>
    have huniq := h'.uniq
    simp only [step] at hs hc huniq ⊢
    unfold Sys.validate at hs hc huniq ⊢
    dsimp only at hs hc huniq ⊢
    cases hco : checkOriginal V y.now y.records q with
    | mk rs r =>
      have hco' : checkOriginal V ({ y.emit (.called y.next q) with next := y.next + 1 } : Sys).now
          ({ y.emit (.called y.next q) with next := y.next + 1 } : Sys).records q = (rs, r) := hco
      rw [hco'] at hs hc huniq ⊢
      dsimp only at hs hc huniq ⊢
      have hold : ∀ y' : Sys, y'.trace = y.trace ++ [.called y.next q] → Ev.success id ∉ y'.trace := by
        intro y' hy hm
        rw [hy] at hm
        rcases List.mem_append.1 hm with hm | hm
        · exact hn hm
        · cases List.mem_singleton.1 hm
      split at hs
      · rcases conclude_success hs with hm | ⟨_, _, _, ho⟩
        · exact absurd hm (hold _ rfl)
        · cases ho
      · rcases conclude_success hs with hm | ⟨_, _, _, ho⟩
        · exact absurd hm (hold _ rfl)
        · cases ho
      · rcases conclude_success hs with hm | ⟨hid, _, _, _⟩
        · exact absurd hm (hold _ rfl)
        · subst hid
          have : p = q := huniq _ _ _ hc (conclude_sub (by simp [Sys.emit]))
          subst this
          exact .inl (checkOriginal_ok hco)
      · rcases conclude_success hs with hm | ⟨_, _, _, ho⟩
        · exact absurd hm (hold _ rfl)
        · cases ho
      · rename_i rec n
        rcases conclude_success hs with hm | ⟨hid, s, c, ho⟩
        · exact absurd hm (hold _ rfl)
        · subst hid
          have hpq : p = q := huniq _ _ _ hc (conclude_sub (by simp [Sys.emit]))
          subst hpq
          have hi := inv_called h p rs
          have hl : Linked V (y.emit (.called y.next p)).trace p [] n := checkOriginal_ok hco
          have hrc := requestCertificate_inv (V := V) hi.now _
            (s := { packet := p, record := rec }) (Nat.le_refl _) hi.store rfl hl
          have hout := hrc.2.2
          dsimp only [Sys.emit] at hout ho
          rw [ho] at hout
          exact now_of_out rfl conclude_sub hout
  | data k d ok =>
    have huniq := h'.uniq
    simp only [step] at hs hc huniq ⊢
    unfold Sys.onData at hs hc huniq ⊢
    split at hs
    · exact absurd hs hn
    · rename_i q hk
      rw [hk] at hc huniq
      dsimp only at hc huniq ⊢
      split at hs
      · rename_i hm
        rw [if_pos hm] at hc huniq ⊢
        obtain ⟨g1, g2, g3, g4, g5, g6⟩ := h.pend q (List.mem_of_getElem? hk)
        have hi := inv_take h hk
        have ho := onCertificate_inv hi.now hi.store rfl g2 (matchesData_named hm)
        rcases conclude_success hs with hm | ⟨hid, s, c, hout⟩
        · exact absurd hm hn
        · subst hid
          have hpq := huniq _ _ _ hc (conclude_sub g1)
          subst hpq
          have ho2 := ho.2.2
          replace hout : (onCertificate V y.now y.st q.session d).2 = .success s c := hout
          dsimp only at ho2
          rw [hout] at ho2
          exact now_of_out rfl conclude_sub ho2
      · exact absurd hs hn
  | timeout k ok =>
    have huniq := h'.uniq
    simp only [step] at hs hc huniq ⊢
    unfold Sys.onTimeout at hs hc huniq ⊢
    split at hs
    · exact absurd hs hn
    · rename_i q hk
      rw [hk] at hc huniq
      dsimp only at hs hc huniq ⊢
      obtain ⟨g1, g2, g3, g4, g5, g6⟩ := h.pend q (List.mem_of_getElem? hk)
      have hi := inv_take h hk
      have ho := refetch_inv (r := q.retriesLeft - 1) hi.now hi.store rfl g2 g3
      rcases conclude_success hs with hm | ⟨hid, s, c, hout⟩
      · exact absurd hm hn
      · subst hid
        have hpq := huniq _ _ _ hc (conclude_sub g1)
        subst hpq
        have ho2 := ho.2.2.1
        dsimp only at ho2 hout
        rw [hout] at ho2
        exact now_of_out rfl conclude_sub ho2
  | resume k =>
    exfalso
    simp only [step] at hs
    unfold Sys.resume at hs
    split at hs
    · exact hn hs
    · rename_i f hk
      obtain ⟨rs, hrs⟩ := addRecord_eq { y with frames := y.frames.eraseIdx k } f.record
      dsimp only at hs
      rw [hrs] at hs
      dsimp only [Sys.fail, Sys.emit] at hs
      split at hs
      · split at hs <;> exact absurd (key _ hs) (by simp)
      · split at hs
        · exact hn hs
        · split at hs <;> exact absurd (key _ hs) (by simp)
  | loadAnchor g c => exact absurd (key _ hs) (by simp)
  | removeAnchor g n => exact absurd hs hn
  | fileAdded c =>
    simp only [step] at hs
    split at hs
    · exact absurd hs hn
    · exact absurd (key _ hs) (by simp)
  | fileRemoved n => exact absurd hs hn
  | resetAnchors => exact absurd hs hn
  | cacheVerified c =>
    simp only [step] at hs
    split at hs
    · exact absurd hs hn
    · exact absurd (key _ hs) (by simp)
  | cacheUnverified c =>
    simp only [step] at hs
    split at hs <;> exact absurd hs hn
  | resetVerified => exact absurd hs hn
  | clock t => exact absurd (key _ hs) (by simp)

/-! ### C52: every validation ends once -/

/-- A call of `validate` ends at most once, with one callback at most. -/
theorem C52_once (V : Cfg) (t : Int) (es : List Event) (id : Nat) :
    ends id (run V (init t) es).trace ≤ 1 ∧ (run V (init t) es).trace.countP (isCallback id) ≤ 1 := by
  have h := (inv_reachable V t es).acc id
  have h3 := callbacks_le_ends id (run V (init t) es).trace
  have h5 : opened (run V (init t) es).next id ≤ 1 := by unfold opened; split <;> omega
  omega

/-- Each call has ended, or is waiting for exactly one answer of the network; so when no Interest is
unanswered, every call has ended. -/
theorem C52_live (V : Cfg) (t : Int) (es : List Event) (id : Nat) (p : Packet)
    (hc : Ev.called id p ∈ (run V (init t) es).trace) :
    ends id (run V (init t) es).trace +
      ((run V (init t) es).pending.filter fun q => q.id == id).length = 1 := by
  have h := inv_reachable V t es
  have := h.acc id
  have hlt := h.calls id p hc
  rw [← List.countP_eq_length_filter]
  unfold opened at this
  rw [if_pos hlt] at this
  omega

/-- The number of Interests sent for a call is bounded, also if the network answers each certificate
request with another certificate to check, or never. -/
theorem C52_bounded (V : Cfg) (t : Int) (es : List Event) (id : Nat) :
    sends id (run V (init t) es).trace ≤ 4 * V.maxDepth := (inv_reachable V t es).send id

theorem countP_split (id : Nat) : ∀ tr : List Ev, (∀ i e, Ev.raised i e ∉ tr) → LoudTrace tr →
    ends id tr = tr.countP (isCallback id)
  | [], _, _ => rfl
  | e :: tr, hr, hs => by
    have ih := countP_split id tr (fun i e' h => hr i e' (List.mem_cons_of_mem _ h))
      (fun i h => hs i (List.mem_cons_of_mem _ h))
    unfold ends at ih ⊢
    rw [List.countP_cons, List.countP_cons, ih]
    have : isEnd id e = isCallback id e := by
      cases e with
      | raised i e' => exact absurd (List.mem_cons_self ..) (hr i e')
      | silent i => exact absurd (List.mem_cons_self ..) (hs i)
      | _ => rfl
    rw [this]

/-- If the signature check raises for no key, the policy raises nothing and always decides, and all
packets given to the validator can be encoded, then each call of `validate` that is not waiting for the
network has called exactly one of its callbacks, exactly once. -/
theorem C52_told (V : Cfg) (t : Int) (es : List Event) (hV : Total V) (hl : V.policy.Loud)
    (he : ∀ e ∈ es, EventP Signed e) (id : Nat) (p : Packet)
    (hc : Ev.called id p ∈ (run V (init t) es).trace) :
    (run V (init t) es).trace.countP (isCallback id) +
      ((run V (init t) es).pending.filter fun q => q.id == id).length = 1 := by
  have h1 := C52_live V t es id p hc
  have h2 := sysP_run hV (fun c h => h) es (inv_init V t) (sysP_init Signed t) he
  have h3 : LoudTrace (run V (init t) es).trace := loud_run hl es (by intro i hi; simp [init] at hi)
  rw [← countP_split id _ h2.quiet h3]
  exact h1

/-- The policies that meet the conditions of `C52_told`: the hierarchy policy, accepting all, and a
configuration in which every rule has a checker, which `ConfigRule.create` and the loading of the
configuration ensure (config_rule.py:191-193), and in which no checker compares the key locator's
identity by a name relation. -/
theorem C52_policies :
    (Policy.simpleHierarchy.Total ∧ Policy.simpleHierarchy.Loud) ∧
    (Policy.acceptAll.Total ∧ Policy.acceptAll.Loud) ∧
    ∀ (b : Bool) (dr ir : List Rule),
      (∀ r ∈ dr ++ ir, r.checkers ≠ [] ∧ ∀ c ∈ r.checkers, c.Safe) →
      (∀ r ∈ dr, r.isForInterest = false) → (∀ r ∈ ir, r.isForInterest = true) →
      (Policy.config b dr ir).Total ∧ (Policy.config b dr ir).Loud := by
  refine ⟨⟨simpleHierarchy_total, simpleHierarchy_loud⟩, ⟨acceptAll_total, fun p h => by cases h⟩, ?_⟩
  intro b dr ir h hd hi
  refine ⟨config_total (fun r hr => ⟨hd r hr, (h r (List.mem_append_left _ hr)).2⟩)
    (fun r hr => ⟨hi r hr, (h r (List.mem_append_right _ hr)).2⟩), config_loud fun r hr => (h r hr).1⟩

/-! ### Examples

A toy signature: the signature bits are the signed bytes followed by the key. -/

def toyVerify (signed : Bytes) (sig : Option Bytes) (key : Bytes) : Except Err Bool :=
  .ok (sig == some (signed ++ key))

def exV : Cfg := { verify := toyVerify, policy := .simpleHierarchy }

def comp (b : UInt8) : Component := Component.generic [b]

/-- A certificate for `identity/KEY/k` with the public key `[k]`, signed with the key `[issuer]`. -/
def exCert (identity : Name) (k : UInt8) (kl : Name) (issuer : UInt8) (notAfter : Int := 1000000) : SData :=
  { data :=
      { name := identity ++ [keyComponent, comp k, comp 105, comp 118]
        metaInfo := { type := 2, freshnessPeriod := some 3600000 }
        content := some [k]
        signature := { info := .rsa { type := some 1, keyName := kl } (some (0, notAfter))
                       signature := some [7, k, issuer] } }
    full := .error .runtime
    signed := .ok [7, k] }

/-- A Data packet signed with the key `[k]`. -/
def exData (name : Name) (kl : Name) (k : UInt8) : SData :=
  { data :=
      { name := name
        content := some [1]
        signature := { info := .rsa { type := some 1, keyName := kl } none, signature := some [9, k] } }
    signed := .ok [9] }

def exAnchor : SData := exCert [comp 97] 1 [comp 97, keyComponent, comp 1] 1
def exSecond : SData := exCert [comp 97, comp 98] 2 [comp 97, keyComponent, comp 1] 1
def exPacket : Packet := .data (exData [comp 97, comp 98, comp 99] [comp 97, comp 98, keyComponent, comp 2] 2)

def exEvents : List Event :=
  [.loadAnchor "g" exAnchor, .clock 5000, .validate exPacket true, .timeout 0 true, .data 0 exSecond true,
   .resume 0, .validate exPacket true, .resume 0]

def evKind : Ev → Nat × Nat
  | .called i _ => (0, i)
  | .success i => (1, i)
  | .failure i _ => (2, i)
  | .raised i _ => (3, i)
  | .silent i => (4, i)
  | .express i _ => (5, i)
  | .trusted _ => (6, 0)
  | .clock _ => (7, 0)

set_option maxRecDepth 100000 in
/-- A packet is validated with a certificate that is fetched after a timeout; a second validation of
the same packet uses the verified cache and sends nothing. -/
example : (run exV (init 0) exEvents).trace.map evKind =
    [(7, 0), (6, 0), (7, 0), (0, 0), (5, 0), (5, 0), (1, 0), (0, 1), (1, 1)] := by decide +kernel

set_option maxRecDepth 100000 in
/-- It does not bypass. -/
example : exV.policy.check exPacket ≠ .ok .bypass := by decide +kernel

example : Total exV := ⟨fun a b k => ⟨_, rfl⟩, simpleHierarchy_total⟩
example : ∀ e ∈ exEvents, EventP Signed e := by
  intro e he
  simp only [exEvents, List.mem_cons, List.not_mem_nil, or_false] at he
  rcases he with rfl | rfl | rfl | rfl | rfl | rfl | rfl | rfl <;>
    simp [EventP, PacketSigned, Signed, exAnchor, exSecond, exPacket, exData, exCert]

set_option maxRecDepth 100000 in
/-- The validity period of a trust anchor is not checked: with an anchor that expired at time 1000, a
packet is accepted at time 5000. -/
theorem C51_expired_anchor :
    ¬ NotExpired (exCert [comp 97] 1 [comp 97, keyComponent, comp 1] 1 1000) 5000 ∧
    Ev.success 0 ∈ (run exV (init 0)
      [.loadAnchor "g" (exCert [comp 97] 1 [comp 97, keyComponent, comp 1] 1 1000), .clock 5000,
       .validate (.data (exData [comp 97, comp 98] [comp 97, keyComponent, comp 1] 1)) true]).trace := by
  refine ⟨?_, by decide +kernel⟩
  rintro ⟨kl, nb, na, h, hlt⟩
  rcases h with h | h
  · simp [exCert] at h; omega
  · simp [exCert] at h

set_option maxRecDepth 100000 in
/-- Removing all trust anchors does not end the trust in the certificates that were verified with
them: they stay in the verified cache, and packets that they sign are still accepted. -/
theorem C51_reset_anchors :
    let y := run exV (init 0) (exEvents.take 6 ++ [.resetAnchors])
    y.st.anchors = [] ∧ Ev.success 1 ∉ y.trace ∧ Ev.success 1 ∈ (step exV y (.validate exPacket true)).trace := by
  decide +kernel

/-- A configuration whose only rule compares the identity of the key locator with a name. -/
def exRelation : Cfg :=
  { verify := toyVerify
    policy := .config false [⟨false, [], [.relation [comp 97] .isPrefixOf]⟩] [] }

set_option maxRecDepth 100000 in
/-- With such a rule, a received packet whose key locator name is not a key name makes `validate`
raise ValueError: neither callback is called. -/
theorem C52_raises :
    (run exRelation (init 0)
      [.validate (.data (exData [comp 97, comp 98] [comp 97, comp 98] 1)) true]).trace.map evKind =
    [(7, 0), (0, 0), (3, 0)] := by decide +kernel

end PyNDN.Validator
