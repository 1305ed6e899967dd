import Verif.Lemmas.ValidatorConfig
/-
C83: a validator enforces exactly the rules and loads exactly the trust anchors that are written in its configuration file.
-/
namespace PyNDN.Props
open PyNDN PyNDN.Validator PyNDN.BoostInfo PyNDN.ValidatorConfig
open PyNDN.Spec.BoostInfo (Item View view itemView itemsView group documentView Lines Text)
open PyNDN.Spec.ValidatorConfig
open PyNDN.Spec.Validator (Accepts Applies Passes subject)

variable {A C : Type} (E : Env A C)

/-- The trust anchors from which a configuration is loaded: those of a new policy, or, if the policy has been configured before, none
of the previous ones. -/
def StartsFrom (E : Env A C) (s : State A) (a : A) : Prop := s = State.initial a ∨ (s.isConfigured = true ∧ a = E.reset s.anchors)

/-- Whether a packet is an Interest. -/
def isInterest : Packet → Bool
  | .data _ => false
  | .interest _ _ => true

theorem start_eq {s : State A} {a : A} (h : StartsFrom E s a) : start E s = ⟨false, true, [], [], a⟩ := by
  rcases h with rfl | ⟨h, rfl⟩
  · rfl
  · unfold start
    rw [if_pos h]

theorem load_start (t : Tree) (s : State A) : load E t s =
    match t.get "validator".toList with
    | [validatorSection] =>
      match loadRules E (validatorSection.get "rule".toList) (start E s) with
      | (s, .error e) => (s, .error e)
      | (s, .ok ()) => loadAnchors E (validatorSection.get "trust-anchor".toList) s
    | _ => (start E s, .error .config) := rfl

/-- C83 (loading): `load` succeeds with a given result if and only if the configuration has a meaning - one section `validator`, every
rule and every trust anchor complete and of a known kind - and the trust anchors can be loaded, and then the policy has exactly the
rules of the file, in its order, the trust anchors of the file and nothing of an earlier configuration; validation is switched off
if and only if the file has a trust anchor `type any`. -/
theorem C83_load {t : Tree} {v : Option Str} {items : List Item} (ht : view t = .node v (group (itemsView items))) {s : State A} {a : A}
    (hs : StartsFrom E s a) (s' : State A) :
    load E t s = (s', .ok ()) ↔ ∃ rules anchors b, ConfigIs E items rules anchors ∧ Loads E anchors a b ∧
      s' = { shouldBypass := anchors.any Option.isNone, isConfigured := true, dataRules := rules.filter (fun r => !r.isForInterest),
             interestRules := rules.filter (fun r => r.isForInterest), anchors := b } := by
  rw [load_start, start_eq E hs]
  rcases one_section ht kValidator with ⟨u, i, hu, hi, hv⟩ | ⟨hu, hi⟩
  · rw [hu]
    dsimp only
    have hr := each_of_map (get_sections (view_children hv) kRule)
    have hanc := each_of_map (get_sections (view_children hv) kAnchor)
    rcases loadRules_eq E hr (⟨false, true, [], [], a⟩ : State A) with ⟨rs, h1, h2⟩ | ⟨is1, j, is2, rs, e, h1, h2, h3, h4⟩
    · rw [h2]
      dsimp only
      rw [loadAnchors_ok E hanc]
      constructor
      · rintro ⟨cs, b, h3, h4, rfl⟩
        exact ⟨rs, cs, b, ⟨i, hi, h1, h3⟩, h4, by simp [addRules]⟩
      · rintro ⟨rules, cs, b, ⟨⟨i', hi', h3, h4⟩⟩, h5, rfl⟩
        rw [hi] at hi'
        injection hi' with hi' _
        subst hi'
        have hrs : rules = rs := by
          have : ∀ {is : List Item} {xs ys : List Rule} {ts : List Tree}, Each (fun t i => view t = itemView i) ts is →
              Each (RuleIs E) is xs → Each (RuleIs E) is ys → xs = ys := by
            intro is xs ys ts hts hx hy
            rw [← mapM_ok (fun t i hv => rule_ok E hv) hts] at hx hy
            rw [hx] at hy
            injection hy
          exact this hr h3 h1
        subst hrs
        exact ⟨cs, b, h4, h5, by simp [addRules]⟩
    · rw [h4]
      constructor
      · intro he
        simp at he
      · rintro ⟨rules, cs, b, ⟨⟨i', hi', h5, _⟩⟩, _, _⟩
        rw [hi] at hi'
        injection hi' with hi' _
        subst hi'
        rw [h1] at h5
        have : ∀ (xs : List Item) (ys : List Rule), Each (RuleIs E) (xs ++ j :: is2) ys → False := by
          intro xs
          induction xs with
          | nil =>
            intro ys h
            cases h with
            | cons h _ => exact h3 _ h
          | cons x xs ih =>
            intro ys h
            cases h with
            | cons _ h => exact ih _ h
        exact (this _ _ h5).elim
  · constructor
    · intro he
      split at he
      · next u hu' => exact absurd hu' (hu u)
      · simp at he
    · rintro ⟨rules, cs, b, ⟨⟨i', hi', _⟩⟩, _⟩
      exact absurd hi' (hi i')

theorem applyRules_not_bypass (b : Bool) (n kl : Name) (rs : List Rule) : applyRules b n kl rs ≠ .ok .bypass := by
  induction rs with
  | nil => intro h; cases h
  | cons r rs ih =>
    unfold applyRules
    intro h
    cases hm : Res.lift (r.matchPacket b n) with
    | fail e => rw [hm] at h; cases h
    | raise e => rw [hm] at h; cases h
    | ok x =>
      rw [hm] at h
      cases x with
      | false => exact ih h
      | true =>
        cases hc : r.check b n kl with
        | fail e => simp [bind, Res.bind, hc] at h
        | raise e => simp [bind, Res.bind, hc] at h
        | ok y => cases y <;> simp [bind, Res.bind, hc, pure] at h

/-- C83 (deciding): after a configuration has been loaded, the policy asks for the certificate of a key if and only if the packet names
the key and the first rule of the file, among those for this kind of packet, that applies to the packet's name has all its checkers
pass; and it skips validation if and only if the file has a trust anchor `type any`. -/
theorem C83_decides {t : Tree} {v : Option Str} {items : List Item} (ht : view t = .node v (group (itemsView items))) {s : State A} {a : A}
    (hs : StartsFrom E s a) {s' : State A} (h : load E t s = (s', .ok ())) :
    ∃ rules anchors, ConfigIs E items rules anchors ∧
      (∀ p, s'.policy.check p = .ok .bypass ↔ none ∈ anchors) ∧
      (none ∉ anchors → ∀ p kl, s'.policy.check p = .ok (.request kl) ↔
        Spec.Validator.KeyLocatorIs p kl ∧ Accepts (rules.filter fun r => r.isForInterest == isInterest p) (subject p) kl) := by
  obtain ⟨rules, anchors, b, hc, hl, rfl⟩ := (C83_load E ht hs s').mp h
  have hany : anchors.any Option.isNone = true ↔ none ∈ anchors := by
    rw [List.any_eq_true]
    constructor
    · rintro ⟨x, hx, hn⟩
      cases x with
      | none => exact hx
      | some y => cases hn
    · exact fun hx => ⟨none, hx, rfl⟩
  refine ⟨rules, anchors, hc, fun p => ?_, fun hno p kl => ?_⟩
  · rw [← hany]
    cases hb : anchors.any Option.isNone with
    | true => simp [State.policy, Policy.check, hb]
    | false =>
      simp only [State.policy, Policy.check, hb, Bool.false_eq_true, if_false, iff_false]
      intro hx
      cases hk : getKeyLocatorName p with
      | fail e => rw [hk] at hx; cases hx
      | raise e => rw [hk] at hx; cases hx
      | ok kl =>
        rw [hk] at hx
        cases p with
        | data d => exact applyRules_not_bypass _ _ _ _ hx
        | interest i sg => exact applyRules_not_bypass _ _ _ _ hx
  · have hb : anchors.any Option.isNone = false := by
      cases hb : anchors.any Option.isNone with
      | false => rfl
      | true => exact absurd (hany.mp hb) hno
    simp only [State.policy, hb]
    rw [C53_rules _ _ (fun r hr => by simpa using (List.mem_filter.mp hr).2) (fun r hr => by simpa using (List.mem_filter.mp hr).2)]
    cases p with
    | data d => simp [isInterest]
    | interest i sg => simp [isInterest]

/-- C83 (from the file): the same from the text of the file, whatever its layout. -/
theorem C83_text (files : Files) (depth : Nat) {items : List Item} {ls : List Str} {text : Str} (hl : Lines items ls) (ht : Text ls text)
    {s : State A} {a : A} (hs : StartsFrom E s a) (s' : State A) :
    loadText E files (depth + 1) text s = (s', .ok ()) ↔ ∃ rules anchors b, ConfigIs E items rules anchors ∧ Loads E anchors a b ∧
      s' = { shouldBypass := anchors.any Option.isNone, isConfigured := true, dataRules := rules.filter (fun r => !r.isForInterest),
             interestRules := rules.filter (fun r => r.isForInterest), anchors := b } := by
  obtain ⟨t, h1, h2⟩ := C82_read_partial files depth hl ht
  unfold loadText
  rw [h1]
  exact C83_load E h2 hs s'

/-- C83 (whatever happens): also after a load that was stopped by an exception, the policy only asks for a certificate because a rule that
is written in the file, for this kind of packet, applies and passes, and it only skips validation because the file says so. -/
theorem C83_safe {t : Tree} {v : Option Str} {items : List Item} (ht : view t = .node v (group (itemsView items))) {s : State A} {a : A}
    (hs : StartsFrom E s a) (p : Packet) :
    ((load E t s).1.policy.check p = .ok .bypass →
      ∃ x ∈ sections "validator" items, ∃ i ∈ sections "trust-anchor" x.children, AnchorIs E i none) ∧
    (∀ kl, (load E t s).1.policy.check p = .ok (.request kl) → Spec.Validator.KeyLocatorIs p kl ∧
      ∃ x ∈ sections "validator" items, ∃ i ∈ sections "rule" x.children, ∃ r, RuleIs E i r ∧ r.isForInterest = isInterest p ∧
        Applies r (subject p) ∧ ∀ c ∈ r.checkers, Passes c (subject p) kl) := by
  have key : ((load E t s).1.shouldBypass = true →
      ∃ x ∈ sections "validator" items, ∃ i ∈ sections "trust-anchor" x.children, AnchorIs E i none) ∧
      (∀ b, ∀ r ∈ (if b then (load E t s).1.interestRules else (load E t s).1.dataRules), r.isForInterest = b ∧
        ∃ x ∈ sections "validator" items, ∃ i ∈ sections "rule" x.children, RuleIs E i r) := by
    rw [load_start, start_eq E hs]
    rcases one_section ht kValidator with ⟨u, i, hu, hi, hv⟩ | ⟨hu, hi⟩
    · rw [hu]
      dsimp only
      have hr := each_of_map (get_sections (view_children hv) kRule)
      have hanc := each_of_map (get_sections (view_children hv) kAnchor)
      have hin : ∀ (is : List Item) (rs : List Rule), Each (RuleIs E) is rs → ∀ r ∈ rs, ∃ j ∈ is, RuleIs E j r := by
        intro is rs he
        induction he with
        | nil => intro r hr; cases hr
        | cons h1 _ ih =>
          intro r hr
          rcases List.mem_cons.mp hr with rfl | hr
          · exact ⟨_, by simp, h1⟩
          · obtain ⟨j, hj, hk⟩ := ih r hr
            exact ⟨j, List.mem_cons_of_mem _ hj, hk⟩
      have hmem : ∀ (rs : List Rule), (∀ r ∈ rs, ∃ j ∈ sections "rule" i.children, RuleIs E j r) →
          ∀ b, ∀ r ∈ (if b then (addRules (⟨false, true, [], [], a⟩ : State A) rs).interestRules
            else (addRules (⟨false, true, [], [], a⟩ : State A) rs).dataRules), r.isForInterest = b ∧
            ∃ x ∈ sections "validator" items, ∃ i ∈ sections "rule" x.children, RuleIs E i r := by
        intro rs hrs b r hr
        cases b with
        | false =>
          simp only [addRules, Bool.false_eq_true, if_false, List.nil_append] at hr
          obtain ⟨h1, h2⟩ := List.mem_filter.mp hr
          exact ⟨by simpa using h2, i, by rw [hi]; simp, hrs r h1⟩
        | true =>
          simp only [addRules, if_true, List.nil_append] at hr
          obtain ⟨h1, h2⟩ := List.mem_filter.mp hr
          exact ⟨by simpa using h2, i, by rw [hi]; simp, hrs r h1⟩
      rcases loadRules_eq E hr (⟨false, true, [], [], a⟩ : State A) with ⟨rs, h1, h2⟩ | ⟨is1, j, is2, rs, e, h1, h2, h3, h4⟩
      · rw [h2]
        dsimp only
        obtain ⟨k1, k2, k3, k4⟩ := loadAnchors_keeps E hanc (addRules (⟨false, true, [], [], a⟩ : State A) rs)
        refine ⟨fun hb => ?_, ?_⟩
        · rcases k4 hb with k5 | ⟨j, hj, hk⟩
          · cases k5
          · exact ⟨i, by rw [hi]; simp, j, hj, hk⟩
        · rw [k1, k2]
          exact hmem rs (hin _ _ h1)
      · rw [h4]
        refine ⟨(fun hb => by cases hb), hmem rs fun r hr => ?_⟩
        obtain ⟨k, hk, hk'⟩ := hin _ _ h2 r hr
        exact ⟨k, by rw [h1]; simp [hk], hk'⟩
    · have : (match t.get "validator".toList with
          | [validatorSection] =>
            match loadRules E (validatorSection.get "rule".toList) (⟨false, true, [], [], a⟩ : State A) with
            | (s, .error e) => (s, .error e)
            | (s, .ok ()) => loadAnchors E (validatorSection.get "trust-anchor".toList) s
          | _ => ((⟨false, true, [], [], a⟩ : State A), Except.error LoadErr.config)) = (⟨false, true, [], [], a⟩, .error .config) := by
        split
        · next u hu' => exact absurd hu' (hu u)
        · rfl
      rw [this]
      refine ⟨(fun hb => by cases hb), fun b r hr => ?_⟩
      cases b <;> cases hr
  constructor
  · intro hp
    cases hb : (load E t s).1.shouldBypass with
    | true => exact key.1 hb
    | false =>
      simp only [State.policy, Policy.check, hb, Bool.false_eq_true, if_false] at hp
      cases hk : getKeyLocatorName p with
      | fail e => rw [hk] at hp; cases hp
      | raise e => rw [hk] at hp; cases hp
      | ok kl =>
        rw [hk] at hp
        cases p with
        | data d => exact absurd hp (applyRules_not_bypass _ _ _ _)
        | interest i sg => exact absurd hp (applyRules_not_bypass _ _ _ _)
  · intro kl hp
    cases hb : (load E t s).1.shouldBypass with
    | true => simp [State.policy, Policy.check, hb] at hp
    | false =>
      have hd := key.2 false
      have hi := key.2 true
      simp only [Bool.false_eq_true, if_false, if_true] at hd hi
      rw [State.policy, hb, C53_rules _ _ (fun r hr => (hd r hr).1) (fun r hr => (hi r hr).1)] at hp
      obtain ⟨hk, before, r, after, hr, _, ha, _, hpass⟩ := hp
      refine ⟨hk, ?_⟩
      cases p with
      | data d =>
        simp only at hr
        obtain ⟨h1, x, hx, j, hj, hrule⟩ := hd r (by rw [hr]; simp)
        exact ⟨x, hx, j, hj, r, hrule, h1, ha, hpass⟩
      | interest i sg =>
        simp only at hr
        obtain ⟨h1, x, hx, j, hj, hrule⟩ := hi r (by rw [hr]; simp)
        exact ⟨x, hx, j, hj, r, hrule, h1, ha, hpass⟩

/-- C83 (loading again): what a configured policy becomes does not depend on its previous configuration. -/
theorem C83_reload (t : Tree) (s1 s2 : State A) (h1 : s1.isConfigured = true) (h2 : s2.isConfigured = true)
    (h : E.reset s1.anchors = E.reset s2.anchors) : load E t s1 = load E t s2 := by
  rw [load_start, load_start, start_eq E (.inr ⟨h1, rfl⟩), start_eq E (.inr ⟨h2, rfl⟩), h]

/-- C83 (a file that cannot be parsed): the policy and its trust anchors stay as they are. -/
theorem C83_unparsed (files : Files) (depth : Nat) (text : Str) (s : State A)
    (h : ∀ t, BoostInfo.read files depth text (Tree.empty none) ≠ .ok t) :
    (loadText E files depth text s).1 = s ∧ (loadText E files depth text s).2 ≠ .ok () := by
  unfold loadText
  cases hr : BoostInfo.read files depth text (Tree.empty none) with
  | ok t => exact absurd hr (h t)
  | error e => exact ⟨rfl, by simp⟩

theorem has_of_sections {i j : Item} {key : String} {v : Str} (h : sections key i.children = sections key j.children) :
    Has i key v ↔ Has j key v := by
  unfold Has
  rw [h]

theorem sections_skip (key : String) (q : Str) (hk : key.toList ≠ q) (w : Option Str) (pre post sub : List Item) :
    sections key (pre ++ .mk q w sub :: post) = sections key (pre ++ post) := by
  have hn : ¬ q = key.toList := fun e => hk e.symm
  unfold sections
  rw [List.filter_append, List.filter_append, List.filter_cons_of_neg]
  simp [Item.key, hn]

/-- C83 (departure): the `sig-type` of a checker is ignored: whatever it says, the checker means the same as without it. -/
theorem C83_sig_type (k : Str) (v w : Option Str) (pre post sub : List Item) (c : Checker) :
    CheckerIs E (.mk k v (pre ++ .mk "sig-type".toList w sub :: post)) c ↔ CheckerIs E (.mk k v (pre ++ post)) c := by
  have hsec : ∀ key : String, key.toList ≠ "sig-type".toList →
      sections key (pre ++ .mk "sig-type".toList w sub :: post) = sections key (pre ++ post) :=
    fun key hk => sections_skip key _ hk w pre post sub
  have ht : ∀ x, Has (.mk k v (pre ++ .mk "sig-type".toList w sub :: post)) "type" x ↔ Has (.mk k v (pre ++ post)) "type" x :=
    fun x => has_of_sections (hsec "type" (by decide))
  have hkl : sections "key-locator" (pre ++ .mk "sig-type".toList w sub :: post) = sections "key-locator" (pre ++ post) :=
    hsec "key-locator" (by decide)
  constructor
  · intro h
    cases h with
    | customized h1 h2 h3 h4 => exact .customized ((ht _).mp h1) h2 (by rw [← h3]; exact hkl.symm) h4
    | hierarchical h1 h2 => exact .hierarchical ((ht _).mp h1) h2
  · intro h
    cases h with
    | customized h1 h2 h3 h4 => exact .customized ((ht _).mpr h1) h2 (by rw [← h3]; exact hkl) h4
    | hierarchical h1 h2 => exact .hierarchical ((ht _).mpr h1) h2

/-! ### A case -/

/-- An environment that keeps the calls. -/
def c83Env : Env (List (AnchorCall Str)) Str where
  regex := fun _ => some fun n => n.length == 1
  hyper := fun _ _ => none
  certificate := .ok
  loadAnchor := fun c a => (a ++ [c], .ok ())
  reset := fun _ => []

/-- A configuration file. -/
def c83Text : Str := ("validator {\n rule {\n id \"a rule\"\n for Data\n filter {\n type name\n name /a\n relation is-prefix-of\n }\n" ++
  " checker {\n type customized\n sig-type rsa-sha256\n key-locator {\n type name\n name /b\n relation equal\n }\n }\n }\n" ++
  " rule {\n id two\n for interest\n checker {\n type hierarchical\n }\n }\n" ++
  " trust-anchor {\n type file\n file-name root.cert\n refresh 2h\n }\n}\n").toList

/-- What can be seen of the calls. -/
def c83Call : AnchorCall Str → Str × Nat
  | .file f p => (f, p)
  | .certificate c => (c, 0)
  | .dir d p => (d, p)

/-- The result of loading it into a new policy. -/
def c83Result : State (List (AnchorCall Str)) × Except LoadErr Unit := loadText c83Env (fun _ => none) 1 c83Text (State.initial [])

/-- The file is loaded: a rule for each kind, the trust anchor with its refresh period. -/
example : c83Result.2.toBool = true ∧ c83Result.1.shouldBypass = false ∧ c83Result.1.dataRules.length = 1 ∧
    c83Result.1.interestRules.length = 1 ∧ c83Result.1.anchors.map c83Call = [("root.cert".toList, 7200000)] := by decide +kernel

def c83Name (c : Char) : Name := [⟨.generic, [UInt8.ofNat c.toNat]⟩]

def c83Passes : Res Unit → Bool
  | .ok _ => true
  | _ => false

/-- The rule for Data of the file selects the names under /a and wants a key of /b. -/
example : c83Result.1.dataRules.map (fun q =>
      (q.filters.map fun f => (f.matchName (c83Name 'a' ++ c83Name 'x'), f.matchName (c83Name 'b')),
       q.checkers.map fun c => (c83Passes (c.checkNames (c83Name 'a') (c83Name 'b' ++ [keyComponent] ++ c83Name 'k')),
        c83Passes (c.checkNames (c83Name 'a') (c83Name 'a' ++ [keyComponent] ++ c83Name 'k'))))) =
      [([(true, false)], [(true, false)])] := by decide +kernel

/-- The entries of a small file, in which validation is switched off. -/
def c83Items : List Item :=
  [.mk "validator".toList none
    [.mk "rule".toList none [.mk "id".toList (some "r".toList) [], .mk "for".toList (some "DATA".toList) [],
      .mk "checker".toList none [.mk "type".toList (some "hierarchical".toList) []]],
     .mk "trust-anchor".toList none [.mk "type".toList (some "any".toList) []]]]

/-- Its lines. -/
def c83Lines : List Str := ["validator {".toList, "rule {".toList, "id r".toList, "for DATA".toList, "checker {".toList,
  "type hierarchical".toList, "}".toList, "}".toList, "trust-anchor {".toList, "type any".toList, "}".toList, "}".toList]

theorem c83_entry (key v : Str) (h1 : Spec.BoostInfo.WordsOk key (some v) := by unfold Spec.BoostInfo.WordsOk; decide)
    (h2 : Spec.BoostInfo.WordText key key := by exact c82_plain _)
    (h3 : Spec.BoostInfo.WordText v v := by exact c82_plain _) :
    Spec.BoostInfo.EntryText key (some v) (key ++ [' '] ++ v) := ⟨h1, key, [' '], v, h2, (by unfold Spec.BoostInfo.Spaces; decide), by simp, h3, rfl⟩

theorem c83_line (l : Str) : Spec.BoostInfo.LineOf l l :=
  ⟨[], [], (fun c hc => by cases hc), c82_end, by simp⟩

set_option maxRecDepth 4000 in
theorem c83_lines : Lines c83Items c83Lines := by
  have hsec : ∀ {key : Str} {children : List Item} {body : List Str} {items : List Item} {ls : List Str} (l : Str),
      Spec.BoostInfo.WordsOk key none → Spec.BoostInfo.WordText key key → '{' ∉ key → l = key ++ [' '] ++ ['{'] → Lines children body → Lines items ls →
      Lines (.mk key none children :: items) (l :: (body ++ "}".toList :: ls)) := by
    intro key children body items ls l h1 h2 h3 h4 h5 h6
    subst h4
    exact .sectionSame ⟨h1, h2⟩ h3 (by unfold Spec.BoostInfo.Spaces; decide) (by simp) (c83_line _) h5 (c83_line _) h6
  refine hsec (body := c83Lines.drop 1 |>.dropLast) (ls := []) _ (by unfold Spec.BoostInfo.WordsOk; decide) (c82_plain _) (by decide) (by decide) ?_ .nil
  refine hsec (body := ["id r".toList, "for DATA".toList, "checker {".toList, "type hierarchical".toList, "}".toList])
    (ls := ["trust-anchor {".toList, "type any".toList, "}".toList]) _ (by unfold Spec.BoostInfo.WordsOk; decide) (c82_plain _) (by decide) (by decide) ?_ ?_
  · refine .entry (c83_entry "id".toList "r".toList) (c83_line _) (.entry (c83_entry "for".toList "DATA".toList) (c83_line _) ?_)
    exact hsec (body := ["type hierarchical".toList]) (ls := []) _ (by unfold Spec.BoostInfo.WordsOk; decide) (c82_plain _) (by decide) (by decide)
      (.entry (c83_entry "type".toList "hierarchical".toList) (c83_line _) .nil) .nil
  · exact hsec (body := ["type any".toList]) (ls := []) _ (by unfold Spec.BoostInfo.WordsOk; decide) (c82_plain _) (by decide) (by decide)
      (.entry (c83_entry "type".toList "any".toList) (c83_line _) .nil) .nil

/-- The small file has a meaning, and its tree satisfies the hypotheses. -/
example : ConfigIs c83Env c83Items [⟨false, [], [hierarchicalChecker]⟩] [none] ∧
    (∃ text, Text c83Lines text ∧ ∃ t, BoostInfo.read (fun _ => none) 1 text (Tree.empty none) = .ok t ∧ view t = documentView c83Items) ∧
    StartsFrom c83Env (State.initial []) [] := by
  refine ⟨⟨_, rfl, .cons ⟨⟨_, _, _, rfl, rfl⟩, ⟨_, ⟨_, _, rfl, rfl⟩, rfl⟩, .nil, .cons (.hierarchical ⟨_, _, rfl, rfl⟩ rfl) .nil, by simp⟩ .nil,
    .cons (.any ⟨_, _, rfl, rfl⟩ rfl) .nil⟩, ?_, .inl rfl⟩
  have ht : ∃ text, Text c83Lines text := by
    have : ∀ ls : List Str, (∀ l ∈ ls, ∀ c ∈ l, isLineBreak c = false) → ∃ text, Text ls text := by
      intro ls
      induction ls with
      | nil => exact fun _ => ⟨[], .nil⟩
      | cons l ls ih =>
        intro h
        obtain ⟨text, ht⟩ := ih fun k hk => h k (List.mem_cons_of_mem _ hk)
        exact ⟨_, .cons (h l (by simp)) (.inl rfl) ht⟩
    exact this _ (by decide)
  obtain ⟨text, ht⟩ := ht
  exact ⟨text, ht, C82_read_partial _ 0 c83_lines ht⟩

end PyNDN.Props
