import Verif.Props.Validator
import Verif.Props.Regex
import Verif.Spec.ValidatorPolicy
/-
C53: which key may sign which name.
-/
namespace PyNDN.Validator
open PyNDN PyNDN.Spec.Validator

theorem related_iff (r : Relation) (a b : Name) : checkNameRelation r a b = true ↔ Related r a b := by
  cases r with
  | equal => exact name_equals_iff a b
  | isPrefixOf => exact matches_iff a b
  | isStrictPrefixOf =>
    unfold checkNameRelation Related Under
    rw [Bool.and_eq_true, matches_iff, decide_eq_true_iff]

theorem keyLocatorNameOf_ok {si : SigInfo} {kl : Name} :
    keyLocatorNameOf si = .ok kl ↔ ∃ l, si.keyLocator? = some l ∧ l.type = some 1 ∧ l.keyName = kl := by
  unfold keyLocatorNameOf
  cases si.keyLocator? with
  | none => simp
  | some l =>
    dsimp only
    split
    · simp_all
    · rename_i h
      simp at h
      simp [h]

theorem interestSignature_length {n : Name} {sig : Signature} (h : interestSignature n = .ok sig) :
    2 ≤ n.length := by
  unfold interestSignature at h
  cases hp : pyIndex n (-2) with
  | error e => rw [hp] at h; cases h
  | ok c =>
    unfold pyIndex at hp
    rcases Nat.lt_or_ge n.length 2 with hlt | hge
    · dsimp only at hp
      rw [if_pos (show (if (-2 : Int) < 0 then ((n.length : Int) + -2) else -2) < 0 by simp; omega)] at hp
      cases hp
    · exact hge

theorem getKeyLocatorName_ok {p : Packet} {kl : Name} :
    getKeyLocatorName p = .ok kl ↔ KeyLocatorIs p kl := by
  cases p with
  | data d => exact keyLocatorNameOf_ok
  | interest i s =>
    unfold getKeyLocatorName KeyLocatorIs
    dsimp only
    constructor
    · intro h
      split at h
      · cases h
      · split at h
        · cases h
        · rename_i sig hs
          obtain ⟨l, h1, h2, h3⟩ := keyLocatorNameOf_ok.1 h
          exact ⟨sig, l, hs, h1, h2, h3⟩
    · rintro ⟨sig, l, hs, h⟩
      have := interestSignature_length hs
      rw [if_neg (by omega), hs]
      exact keyLocatorNameOf_ok.2 ⟨l, h⟩

/-- The name that the rules look at. -/
def subjectOf (isForInterest : Bool) (n : Name) : Name :=
  if isForInterest then n.take (n.length - 2) else n

theorem matchPacket_ok {f : Filter} {b : Bool} {n : Name} (hn : b = true → 2 ≤ n.length) :
    ∃ r, f.matchPacket b n = .ok r ∧ (r = true ↔ Selects f (subjectOf b n)) := by
  have key : ∀ m, f.matchName m = true ↔ Selects f m := by
    intro m
    cases f with
    | relation a r => exact related_iff r a m
    | regex g => exact Iff.rfl
  unfold Filter.matchPacket subjectOf
  cases b with
  | false => exact ⟨_, rfl, key _⟩
  | true =>
    have := hn rfl
    simp only [if_true]
    rw [if_neg (by omega)]
    have hg := getPrefix_neg n 2 (by omega)
    have hg' : getPrefix n (-2) = .ok (n.take (n.length - 2)) := hg
    rw [hg']
    exact ⟨_, rfl, key _⟩

theorem anyFilter_ok {b : Bool} {n : Name} (hn : b = true → 2 ≤ n.length) : ∀ fs : List Filter,
    ∃ r, anyFilter b n fs = .ok r ∧ (r = true ↔ ∃ f ∈ fs, Selects f (subjectOf b n))
  | [] => ⟨false, rfl, by simp⟩
  | f :: fs => by
    obtain ⟨r, h1, h2⟩ := matchPacket_ok (f := f) hn
    obtain ⟨r', h3, h4⟩ := anyFilter_ok hn fs
    unfold anyFilter
    rw [h1]
    cases r with
    | true =>
      refine ⟨true, rfl, ?_⟩
      simp
      exact .inl (h2.1 rfl)
    | false =>
      refine ⟨r', h3, ?_⟩
      rw [h4]
      have : ¬ Selects f (subjectOf b n) := fun h => by simpa using h2.2 h
      simp [this]

theorem ruleMatch_ok {r : Rule} {b : Bool} {n : Name} (hb : r.isForInterest = b)
    (hn : b = true → 2 ≤ n.length) :
    ∃ x, r.matchPacket b n = .ok x ∧ (x = true ↔ Applies r (subjectOf b n)) := by
  unfold Rule.matchPacket Applies
  rw [if_neg (by simp [hb])]
  split
  · rename_i h
    exact ⟨true, rfl, by simp [List.length_eq_zero_iff.1 h]⟩
  · rename_i h
    obtain ⟨x, h1, h2⟩ := anyFilter_ok hn r.filters
    refine ⟨x, h1, ?_⟩
    rw [h2]
    have : r.filters ≠ [] := fun e => h (by rw [e]; rfl)
    simp [this]

theorem lift_ok {α : Type} {x : Except Err α} {a : α} : Res.lift x = .ok a ↔ x = .ok a := by
  cases x <;> simp [Res.lift]

theorem keyName_form {kl identity : Name} : extractIdentityFromKeyName kl = .ok identity ↔
    ∃ kid, kl = identity ++ [keyComponent, kid] ∧ identity ≠ [] := by
  unfold extractIdentityFromKeyName isValidKeyName
  have hg : getPrefix kl (-2) = .ok (kl.take (kl.length - 2)) := getPrefix_neg kl 2 (by omega)
  rw [hg]
  by_cases hlen : kl.length > 2
  · have hp : pyIndex kl (-2) = .ok (kl[kl.length - 2]'(by omega)) := pyIndex_neg kl 2 (by omega) (by omega)
    rw [if_pos hlen, hp]
    have hkl : kl = kl.take (kl.length - 2) ++ [kl[kl.length - 2]'(by omega), kl[kl.length - 1]'(by omega)] := by
      conv => lhs; rw [← List.take_append_drop (kl.length - 2) kl]
      congr 1
      rw [List.drop_eq_getElem_cons (by omega), List.drop_eq_getElem_cons (by omega), List.drop_eq_nil_of_le (by omega)]
      congr 2
      simp only [show kl.length - 2 + 1 = kl.length - 1 by omega]
    constructor
    · intro h
      simp [bind, Except.bind, pure, Except.pure] at h
      split at h
      · cases h
      · rename_i hc
        simp [component_equals_iff] at hc
        cases h
        refine ⟨kl[kl.length - 1]'(by omega), ?_, ?_⟩
        · rw [← hc]
          exact hkl
        · intro e
          have := congrArg List.length e
          simp at this
          omega
    · rintro ⟨kid, e, hne⟩
      subst e
      have hx : (identity ++ [keyComponent, kid]).length - 2 = identity.length := by simp
      simp [bind, Except.bind, pure, Except.pure, (component_equals_iff keyComponent keyComponent).2 rfl]
  · rw [if_neg hlen]
    simp [bind, Except.bind]
    rintro kid rfl
    simp at hlen
    simpa using hlen

theorem checkNames_ok {c : Checker} {n kl : Name} : c.checkNames n kl = .ok () ↔ Passes c n kl := by
  cases c with
  | relation a r =>
    unfold Checker.checkNames Passes
    dsimp only
    constructor
    · intro h
      cases hx : extractIdentityFromKeyName kl with
      | error e => rw [hx] at h; cases h
      | ok identity =>
        rw [hx] at h
        obtain ⟨kid, h1, h2⟩ := keyName_form.1 hx
        have h' : (if checkNameRelation r a identity = true then .ok () else Res.fail .policyError) = .ok () := h
        split at h'
        · rename_i hr
          exact ⟨identity, kid, h1, h2, (related_iff _ _ _).1 hr⟩
        · cases h'
    · rintro ⟨identity, kid, h1, h2, h3⟩
      rw [keyName_form.2 ⟨kid, h1, h2⟩]
      show (if checkNameRelation r a identity = true then .ok () else Res.fail .policyError) = .ok ()
      rw [if_pos ((related_iff _ _ _).2 h3)]
  | regex f =>
    unfold Checker.checkNames Passes
    dsimp only
    split <;> simp_all
  | hyper p k r =>
    unfold Checker.checkNames Passes
    dsimp only
    constructor
    · intro h
      split at h
      · cases h
      · rename_i a ha
        split at h
        · cases h
        · rename_i b hb
          split at h
          · rename_i hr
            exact ⟨a, b, ha, hb, (related_iff _ _ _).1 hr⟩
          · cases h
    · rintro ⟨a, b, ha, hb, hr⟩
      rw [ha, hb]
      dsimp only
      rw [if_pos ((related_iff _ _ _).2 hr)]

theorem checkPacket_ok {c : Checker} {b : Bool} {n kl : Name} (hn : b = true → 2 ≤ n.length) :
    c.check b n kl = (match c.checkNames (subjectOf b n) kl with
      | .ok () => .ok (some ())
      | .fail e => .fail e
      | .raise e => .raise e) := by
  unfold Checker.check subjectOf
  cases b with
  | false =>
    simp only [Bool.false_eq_true, if_false, bind, Res.bind, pure]
    cases c.checkNames n kl <;> rfl
  | true =>
    have := hn rfl
    simp only [if_true]
    have hg : getPrefix n (-2) = .ok (n.take (n.length - 2)) := getPrefix_neg n 2 (by omega)
    rw [if_neg (by omega), hg]
    simp only [Res.lift, bind, Res.bind, pure]
    cases c.checkNames (n.take (n.length - 2)) kl <;> rfl

theorem allCheckers_ok {b : Bool} {n kl : Name} (hn : b = true → 2 ≤ n.length) : ∀ (cs : List Checker) (x : Bool),
    allCheckers b n kl cs x = .ok true ↔ (cs = [] ∧ x = true ∨ cs ≠ []) ∧ ∀ c ∈ cs, Passes c (subjectOf b n) kl
  | [], x => by simp [allCheckers]
  | c :: cs, x => by
    unfold allCheckers
    rw [checkPacket_ok hn]
    have ih := allCheckers_ok (kl := kl) hn cs true
    cases hc : c.checkNames (subjectOf b n) kl with
    | ok u =>
      have hp := checkNames_ok.1 hc
      simp only [bind, Res.bind]
      rw [ih]
      simp [hp]
      intro _
      by_cases h : cs = [] <;> simp [h]
    | fail e =>
      have hp : ¬ Passes c (subjectOf b n) kl := fun h => by rw [checkNames_ok.2 h] at hc; cases hc
      simp [bind, Res.bind, hp]
    | raise e =>
      have hp : ¬ Passes c (subjectOf b n) kl := fun h => by rw [checkNames_ok.2 h] at hc; cases hc
      simp [bind, Res.bind, hp]

theorem applyRules_ok {b : Bool} {n kl : Name} (hn : b = true → 2 ≤ n.length) : ∀ (rs : List Rule),
    (∀ r ∈ rs, r.isForInterest = b) → ∀ kl', (applyRules b n kl rs = .ok (.request kl') ↔
      kl' = kl ∧ Accepts rs (subjectOf b n) kl)
  | [], _, kl' => by
    unfold applyRules
    constructor
    · intro h; cases h
    · rintro ⟨_, before, r, after, h, _⟩; simp at h
  | r :: rs, hb, kl' => by
    obtain ⟨x, h1, h2⟩ := ruleMatch_ok (r := r) (hb r (List.mem_cons_self ..)) hn
    have ih := applyRules_ok (kl := kl) hn rs (fun q hq => hb q (List.mem_cons_of_mem _ hq)) kl'
    unfold applyRules
    rw [h1]
    simp only [Res.lift, bind, Res.bind, pure]
    cases x with
    | false =>
      have hna : ¬ Applies r (subjectOf b n) := fun h => by simpa using h2.2 h
      simp only [Bool.false_eq_true, if_false]
      rw [ih]
      constructor
      · rintro ⟨e, before, q, after, h3, h4, h5⟩
        refine ⟨e, r :: before, q, after, by rw [h3]; rfl, ?_, h5⟩
        intro q' hq'
        rcases List.mem_cons.1 hq' with rfl | hq'
        · exact hna
        · exact h4 q' hq'
      · rintro ⟨e, before, q, after, h3, h4, h5⟩
        refine ⟨e, ?_⟩
        cases before with
        | nil =>
          simp at h3
          exact absurd (h3.1 ▸ h5.1) hna
        | cons q' before =>
          simp at h3
          exact ⟨before, q, after, h3.2, fun q h => h4 q (List.mem_cons_of_mem _ h), h5⟩
    | true =>
      have ha : Applies r (subjectOf b n) := h2.1 rfl
      simp only [if_true]
      have hck : r.check b n kl = .ok true ↔ r.checkers ≠ [] ∧ ∀ c ∈ r.checkers, Passes c (subjectOf b n) kl := by
        unfold Rule.check
        rw [if_neg (by simp [hb r (List.mem_cons_self ..)]), allCheckers_ok hn]
        simp
      have hacc : Accepts (r :: rs) (subjectOf b n) kl ↔
          r.checkers ≠ [] ∧ ∀ c ∈ r.checkers, Passes c (subjectOf b n) kl := by
        constructor
        · rintro ⟨before, q, after, h3, h4, h5, h6⟩
          cases before with
          | nil =>
            simp at h3
            rw [h3.1]
            exact h6
          | cons q' before =>
            simp at h3
            exact absurd ha (h3.1 ▸ h4 q' (List.mem_cons_self ..))
        · intro h
          exact ⟨[], r, rs, rfl, (fun q hq => by cases hq), ha, h⟩
      rw [hacc, ← hck]
      cases hr : r.check b n kl with
      | ok y => cases y <;> simp [eq_comm]
      | fail e => simp
      | raise e => simp

/-! ### C53 -/

/-- The rules of a validator configuration decide as documented: the key locator name is approved if
and only if the first rule that applies to the packet's name has checkers and all of them pass. -/
theorem C53_rules (dataRules interestRules : List Rule) (hd : ∀ r ∈ dataRules, r.isForInterest = false)
    (hi : ∀ r ∈ interestRules, r.isForInterest = true) (p : Packet) (kl : Name) :
    (Policy.config false dataRules interestRules).check p = .ok (.request kl) ↔
      KeyLocatorIs p kl ∧
        Accepts (match p with | .data _ => dataRules | .interest _ _ => interestRules) (subject p) kl := by
  unfold Policy.check
  simp only [Bool.false_eq_true, if_false]
  rw [← getKeyLocatorName_ok]
  cases hk : getKeyLocatorName p with
  | fail e => simp [bind, Res.bind]
  | raise e => simp [bind, Res.bind]
  | ok k =>
    simp only [bind, Res.bind]
    cases p with
    | data d =>
      dsimp only
      rw [applyRules_ok (by simp) dataRules hd]
      simp only [subjectOf, Bool.false_eq_true, if_false, subject, Res.ok.injEq]
      constructor
      · rintro ⟨rfl, h⟩; exact ⟨rfl, h⟩
      · rintro ⟨rfl, h⟩; exact ⟨rfl, h⟩
    | interest i s =>
      dsimp only
      have hlen : 2 ≤ i.name.length := by
        obtain ⟨sig, _, hs, _⟩ := getKeyLocatorName_ok.1 hk
        exact interestSignature_length hs
      rw [applyRules_ok (fun _ => hlen) interestRules hi]
      simp only [subjectOf, if_true, subject, Res.ok.injEq]
      constructor
      · rintro ⟨rfl, h⟩; exact ⟨rfl, h⟩
      · rintro ⟨rfl, h⟩; exact ⟨rfl, h⟩

theorem rooted_of_trusted {V : Cfg} {trace : List Ev} {Link : Packet → SData → Prop}
    (h : ∀ p c, Allowed V.policy p c → Link p c) {c : SData} (ht : Trusted V trace c) : Rooted V trace Link c := by
  induction ht with
  | given c h => exact .given c h
  | issued c issuer _ hs ha _ ih => exact .issued c issuer ih hs (h _ _ ha)

/-- A packet and its chain of certificates are accepted only if the links of the chain are. -/
theorem links_of_success {V : Cfg} {Link : Packet → SData → Prop}
    (h : ∀ p c, Allowed V.policy p c → Link p c) (hb : ∀ p, V.policy.check p ≠ .ok .bypass)
    (t : Int) (es : List Event) (id : Nat) (p : Packet)
    (hs : Ev.success id ∈ (run V (init t) es).trace) (hc : Ev.called id p ∈ (run V (init t) es).trace) :
    ∃ c, Rooted V (run V (init t) es).trace Link c ∧ SignedBy V.verify p c ∧ Link p c := by
  rcases C51_justified V t es id p hs hc with hx | ⟨c, h1, h2, h3⟩
  · exact absurd hx (hb p)
  · exact ⟨c, rooted_of_trusted h h1, h2, h p c h3⟩

theorem applyRules_bypass {b : Bool} {n kl : Name} : ∀ rs : List Rule, applyRules b n kl rs ≠ .ok .bypass
  | [] => by unfold applyRules; intro h; cases h
  | r :: rs => by
    unfold applyRules
    simp only [bind, Res.bind, pure]
    intro h
    split at h
    · split at h
      · split at h
        · split at h <;> cases h
        · cases h
        · cases h
      · exact applyRules_bypass rs h
    · cases h
    · cases h

theorem config_bypass {dr ir : List Rule} (p : Packet) : (Policy.config false dr ir).check p ≠ .ok .bypass := by
  unfold Policy.check
  simp only [Bool.false_eq_true, if_false, bind, Res.bind]
  intro h
  split at h
  · split at h
    · exact applyRules_bypass _ h
    · exact applyRules_bypass _ h
  · cases h
  · cases h

theorem simple_bypass (p : Packet) : Policy.simpleHierarchy.check p ≠ .ok .bypass := by
  unfold Policy.check
  simp only [bind, Res.bind]
  intro h
  split at h
  · split at h
    · split at h <;> cases h
    · cases h
    · cases h
  · cases h
  · cases h

theorem hierarchicalKey_some {kl identity : Name} (h : hierarchicalKey kl = some identity) :
    ∃ k kid, kl = identity ++ [k, kid] ∧ isKeyLike k = true := by
  unfold hierarchicalKey at h
  split at h
  · rename_i hc
    obtain ⟨h1, h2, h3⟩ := hc
    cases h
    rw [List.getElem?_eq_getElem (by omega)] at h3
    refine ⟨kl[kl.length - 2]'(by omega), kl[kl.length - 1]'(by omega), ?_, by simpa using h3⟩
    conv => lhs; rw [← List.take_append_drop (kl.length - 2) kl]
    congr 1
    rw [List.drop_eq_getElem_cons (by omega), List.drop_eq_getElem_cons (by omega), List.drop_eq_nil_of_le (by omega)]
    congr 2
    simp only [show kl.length - 2 + 1 = kl.length - 1 by omega]
  · cases h

theorem hierarchicalPacket_some {n a : Name} (h : hierarchicalPacket n = some a) : a = n := by
  unfold hierarchicalPacket at h
  split at h
  · cases h; rfl
  · cases h

/-- The configuration with the hierarchical checker for all packets. -/
def hierarchicalPolicy : Policy :=
  .config false [⟨false, [], [hierarchicalChecker]⟩] [⟨true, [], [hierarchicalChecker]⟩]

/-- With the hierarchical checker, a packet is accepted only if it is signed by the key in a certificate
that its key locator `/<identity>/<k>/<id>` names, where `identity` is a prefix of the packet's name and
`k` contains "KEY"; and the same holds of that certificate and the next one, and so on up to one that
the application declared trusted. -/
theorem C53_hierarchical (V : Cfg) (hV : V.policy = hierarchicalPolicy) (t : Int) (es : List Event) (id : Nat)
    (p : Packet) (hs : Ev.success id ∈ (run V (init t) es).trace)
    (hc : Ev.called id p ∈ (run V (init t) es).trace) :
    ∃ c, Rooted V (run V (init t) es).trace Hierarchical c ∧ SignedBy V.verify p c ∧ Hierarchical p c := by
  refine links_of_success ?_ (by rw [hV]; exact config_bypass) t es id p hs hc
  rw [hV]
  rintro p c ⟨kl, h1, h2⟩
  obtain ⟨h3, h4⟩ := (C53_rules _ _ (by simp) (by simp) p kl).1 h1
  have h5 : Passes hierarchicalChecker (subject p) kl := by
    cases p with
    | data d =>
      obtain ⟨before, r, after, e, _, _, _, h6⟩ := h4
      cases before with
      | nil =>
        simp at e
        rw [← e.1] at h6
        exact h6 _ (List.mem_cons_self ..)
      | cons q b => simp at e
    | interest i s =>
      obtain ⟨before, r, after, e, _, _, _, h6⟩ := h4
      cases before with
      | nil =>
        simp at e
        rw [← e.1] at h6
        exact h6 _ (List.mem_cons_self ..)
      | cons q b => simp at e
  obtain ⟨a, b, ha, hb, hr⟩ := h5
  rw [hierarchicalPacket_some ha] at hr
  obtain ⟨k, kid, rfl, hk⟩ := hierarchicalKey_some hb
  exact ⟨b, k, kid, h3, hk, h2, hr⟩

/-- With the simple hierarchy policy, a packet is accepted only if it is signed by the key in a
certificate that its key locator names, where the key locator without its last two components is a
prefix of the packet's name; and so on up to a certificate that the application declared trusted.
Nothing is said about the form of the key locator. -/
theorem C53_simple_partial (V : Cfg) (hV : V.policy = .simpleHierarchy) (t : Int) (es : List Event) (id : Nat)
    (p : Packet) (hs : Ev.success id ∈ (run V (init t) es).trace)
    (hc : Ev.called id p ∈ (run V (init t) es).trace) :
    ∃ c, Rooted V (run V (init t) es).trace Simple c ∧ SignedBy V.verify p c ∧ Simple p c := by
  refine links_of_success ?_ (by rw [hV]; exact simple_bypass) t es id p hs hc
  rw [hV]
  rintro p c ⟨kl, h1, h2⟩
  unfold Policy.check at h1
  simp only [bind, Res.bind] at h1
  cases hk : getKeyLocatorName p with
  | fail e => rw [hk] at h1; cases h1
  | raise e => rw [hk] at h1; cases h1
  | ok k =>
    rw [hk] at h1
    have hg : getPrefix k (-2) = .ok (k.take (k.length - 2)) := getPrefix_neg k 2 (by omega)
    simp only [hg, Res.lift] at h1
    split at h1
    · rename_i hm
      cases h1
      exact ⟨kl, getKeyLocatorName_ok.1 hk, h2, (matches_iff _ _).1 hm⟩
    · cases h1

/-- For the key name in its certificate's name, this is the identity of the certificate. -/
theorem C53_identity (p : Packet) (c : SData) (kl : Name) (hm : kl.matches c.data.name = true)
    (hl : kl.length + 2 = c.data.name.length) (hu : Under (kl.take (kl.length - 2)) p.name) :
    Under (identityOf c) p.name := by
  unfold identityOf Under at *
  have h1 := (matches_iff _ _).1 hm
  rw [List.prefix_iff_eq_take] at h1
  rw [List.map_take] at hu ⊢
  have : c.data.name.length - 4 = kl.length - 2 := by omega
  rw [this]
  have h2 : (c.data.name.map Component.value).take (kl.length - 2) =
      (kl.map Component.value).take (kl.length - 2) := by
    rw [h1]
    simp [List.take_take]
  rw [h2]
  exact hu

/-! ### The hierarchical checker is what its regular expressions say -/

open PyNDN.Regex PyNDN.Spec.Regex in
/-- The regular expressions of the hierarchical checker, whatever was matched before. -/
theorem hierarchical_regex (search : List Char → List Char → Bool)
    (hs : ∀ t, search "KEY".toList t = containsText ['K', 'E', 'Y'] t) :
    (∃ t, compile search "^(<>*)<KEY><>$".toList = .ok t ∧ ∀ kl s,
      match t.run kl s with
      | (true, s') => ∃ x, hierarchicalKey kl = some x ∧ t.expand s' "\\1".toList = .ok x
      | (false, _) => hierarchicalKey kl = none) ∧
    (∃ t, compile search "^(<>*)$".toList = .ok t ∧ ∀ n s,
      match t.run n s with
      | (true, s') => ∃ x, hierarchicalPacket n = some x ∧ t.expand s' "\\1".toList = .ok x
      | (false, _) => hierarchicalPacket n = none) := by
  constructor
  · let p : Pat := .group (.comp [] .star .nil) .one (.comp "KEY".toList .one (.comp [] .one .nil))
    have hok : p.Ok := by
      refine ⟨⟨?_, ⟨Nat.zero_le _, Nat.le_refl _⟩, trivial⟩, ⟨Nat.le_refl _, by simp [Rep.bounds]⟩, ?_,
        ⟨Nat.le_refl _, by simp [Rep.bounds]⟩, ?_, ⟨Nat.le_refl _, by simp [Rep.bounds]⟩, trivial⟩
      · intro c hc; cases hc
      · unfold NoBrackets; decide
      · intro c hc; cases hc
    have hct := compile_text search true true p hok (.inl rfl)
    obtain ⟨t, ht, hcap⟩ := C55_capture search true true p hok ⟨rfl, trivial, trivial⟩ (.inl rfl)
    have hte := hct
    rw [ht] at hte
    refine ⟨t, ht, ?_⟩
    intro kl s
    have hlang : Lang t.primary kl ↔ ∃ u k kid, kl = u ++ [k, kid] ∧ u.length ≤ 32767 ∧ isKeyLike k = true := by
      cases hte
      show Lang (toRx search p 0).1 kl ↔ _
      rw [toRx_lang]
      constructor
      · rintro ⟨u, v, n, rfl, h1, h2, h3, a, b, rfl, h4, h5, h6, c, d, rfl, h7, h8, _, hd⟩
        have hn : n = 1 := by simp [Rep.bounds] at h1 h2; omega
        subst hn
        obtain ⟨u', v', rfl, h9, h10⟩ := pow_one.1 h3
        have hv' : v' = [] := h10.2.2
        subst hv'
        have hd' : d = [] := hd
        subst hd'
        have ha : a.length = 1 := by simp [Rep.bounds] at h4 h5; omega
        have hc : c.length = 1 := by simp [Rep.bounds] at h7 h8; omega
        obtain ⟨k, rfl⟩ := List.length_eq_one_iff.1 ha
        obtain ⟨kid, rfl⟩ := List.length_eq_one_iff.1 hc
        refine ⟨u', k, kid, by simp, h10.1, ?_⟩
        rcases h6 k (List.mem_cons_self ..) with h | h
        · cases h
        · rw [hs] at h
          exact h
      · rintro ⟨u, k, kid, rfl, h1, h2⟩
        refine ⟨u, [k, kid], 1, rfl, Nat.le_refl _, Nat.le_refl _, pow_one.2 ⟨u, [], by simp, Nat.zero_le _, h1,
          fun c _ => .inl rfl, rfl⟩, [k], [kid], rfl, Nat.le_refl _, Nat.le_refl _, ?_, [kid], [], rfl,
          Nat.le_refl _, Nat.le_refl _, fun c _ => .inl rfl, rfl⟩
        intro c hc
        have : c = k := by simpa using hc
        subst this
        right
        rw [hs]
        exact h2
    have hkey : ∀ u k kid, kl = u ++ [k, kid] → u.length ≤ 32767 → isKeyLike k = true →
        hierarchicalKey kl = some u := by
      rintro u k kid rfl h1 h2
      unfold hierarchicalKey
      rw [if_pos ⟨by simp, by simp; omega, by simp [h2]⟩]
      simp
    cases hr : t.run kl s with
    | mk b s' =>
      cases b with
      | true =>
        dsimp only
        obtain ⟨_, a, b, c, cap, e, ha, hc, hsp, hex⟩ := hcap kl s s' hr
        rw [ha rfl, hc rfl] at e
        simp at e
        subst e
        have hx := hex 0 (by decide)
        have e1 : ('\\' :: strDec (0 + 1)) = "\\1".toList := by simp [strDec]
        rw [e1] at hx
        obtain ⟨v, hv, hb, a', b', rfl, h4, h5, h6, c', d', rfl, h7, h8, _, hd⟩ := hsp
        have hd' : d' = [] := hd
        subst hd'
        have ha' : a'.length = 1 := by simp [Rep.bounds] at h4 h5; omega
        have hc' : c'.length = 1 := by simp [Rep.bounds] at h7 h8; omega
        obtain ⟨k, rfl⟩ := List.length_eq_one_iff.1 ha'
        obtain ⟨kid, rfl⟩ := List.length_eq_one_iff.1 hc'
        obtain ⟨u', v', hu', h9, h10⟩ := hb
        have hv' : v' = [] := h10.2.2
        rw [hv', List.append_nil] at hu'
        refine ⟨cap 0, hkey (cap 0) k kid (by simpa using hv) (by rw [hu']; exact h10.1) ?_, hx⟩
        rcases h6 k (List.mem_cons_self ..) with h | h
        · cases h
        · rw [hs] at h
          exact h
      | false =>
        dsimp only
        cases hk : hierarchicalKey kl with
        | none => rfl
        | some x =>
          exfalso
          have hlen : x.length ≤ 32767 := by
            unfold hierarchicalKey at hk
            split at hk
            · rename_i hc
              cases hk
              simp
              omega
            · cases hk
          obtain ⟨k, kid, e, hkl⟩ := hierarchicalKey_some hk
          have hl : Lang t.primary kl := hlang.2 ⟨x, k, kid, e, hlen, hkl⟩
          have hsol : Solid t.primary := by
            cases hte
            exact toRx_solid search p 0 ⟨trivial, trivial, .inl rfl⟩
          have := top_complete t hsol (by cases hte; intro m n h; cases h) kl s (.inl hl)
          rw [hr] at this
          cases this
  · let p : Pat := .group (.comp [] .star .nil) .one .nil
    have hok : p.Ok := by
      refine ⟨⟨?_, ⟨Nat.zero_le _, Nat.le_refl _⟩, trivial⟩, ⟨Nat.le_refl _, by simp [Rep.bounds]⟩, trivial⟩
      · intro c hc; cases hc
    have hct := compile_text search true true p hok (.inl rfl)
    obtain ⟨t, ht, hcap⟩ := C55_capture search true true p hok ⟨rfl, trivial, trivial⟩ (.inl rfl)
    have hte := hct
    rw [ht] at hte
    refine ⟨t, ht, ?_⟩
    intro kl s
    cases hr : t.run kl s with
    | mk b s' =>
      cases b with
      | true =>
        dsimp only
        obtain ⟨_, a, b, c, cap, e, ha, hc, hsp, hex⟩ := hcap kl s s' hr
        rw [ha rfl, hc rfl] at e
        simp at e
        subst e
        have hx := hex 0 (by decide)
        have e1 : ('\\' :: strDec (0 + 1)) = "\\1".toList := by simp [strDec]
        rw [e1] at hx
        obtain ⟨v, hv, hb, hn⟩ := hsp
        have hn' : v = [] := hn
        subst hn'
        obtain ⟨u', v', hu', h9, h10⟩ := hb
        have hv' : v' = [] := h10.2.2
        rw [hv', List.append_nil] at hu'
        rw [List.append_nil] at hv
        refine ⟨cap 0, ?_, hx⟩
        unfold hierarchicalPacket
        rw [hv, if_pos (by rw [hu']; exact h10.1)]
      | false =>
        dsimp only
        unfold hierarchicalPacket
        rw [if_neg]
        intro hlen
        have hl : Lang t.primary kl := by
          cases hte
          exact (toRx_lang search p 0 kl).2 ⟨kl, [], 1, by simp, Nat.le_refl _, Nat.le_refl _,
            pow_one.2 ⟨kl, [], by simp, Nat.zero_le _, hlen, fun c _ => .inl rfl, rfl⟩, rfl⟩
        have hsol : Solid t.primary := by
          cases hte
          exact toRx_solid search p 0 ⟨trivial, trivial, .inl rfl⟩
        have := top_complete t hsol (by cases hte; intro m n h; cases h) kl s (.inl hl)
        rw [hr] at this
        cases this

/-! ### Cases -/

def exHier : Cfg := { verify := toyVerify, policy := hierarchicalPolicy }

set_option maxRecDepth 100000 in
/-- The hypotheses of `C53_hierarchical` are met by a chain of two certificates. -/
example : (run exHier (init 0) exEvents).trace.map evKind =
    [(7, 0), (6, 0), (7, 0), (0, 0), (5, 0), (5, 0), (1, 0), (0, 1), (1, 1)] := by decide +kernel

/-- "MONKEY". -/
def monkey : Component := Component.generic [0x4d, 0x4f, 0x4e, 0x4b, 0x45, 0x59]

set_option maxRecDepth 100000 in
/-- The hierarchical checker takes a component that contains "KEY" for the component "KEY": the holder of
a key for `/a/MONKEY/x` is accepted for `/a/c`. -/
theorem C53_key_substring :
    let cert := exCert [comp 97, monkey, comp 120] 2 [comp 97, keyComponent, comp 1] 1
    let p := Packet.data (exData [comp 97, comp 99] [comp 97, monkey, comp 120] 2)
    identityOf cert = [comp 97, monkey, comp 120] ∧ ¬ Under (identityOf cert) p.name ∧
    Ev.success 0 ∈ (run exHier (init 0)
      [.loadAnchor "g" cert, .clock 5000, .validate p true]).trace := by
  refine ⟨by decide +kernel, ?_, by decide +kernel⟩
  unfold Under
  rw [← List.isPrefixOf_iff_prefix]
  decide +kernel

set_option maxRecDepth 100000 in
/-- Under the simple hierarchy policy the holder of any trusted key is accepted for all names: the
certificate for `/a/b` verifies a packet named `/z/q` whose key locator is `/a`. -/
theorem C53_simple_escalation :
    let cert := exCert [comp 97, comp 98] 2 [comp 97, keyComponent, comp 1] 1
    let p := Packet.data (exData [comp 122, comp 113] [comp 97] 2)
    identityOf cert = [comp 97, comp 98] ∧ ¬ Under (identityOf cert) p.name ∧
    Ev.success 0 ∈ (run exV (init 0)
      [.loadAnchor "g" cert, .clock 5000, .validate p true]).trace := by
  refine ⟨by decide +kernel, ?_, by decide +kernel⟩
  unfold Under
  rw [← List.isPrefixOf_iff_prefix]
  decide +kernel

end PyNDN.Validator
