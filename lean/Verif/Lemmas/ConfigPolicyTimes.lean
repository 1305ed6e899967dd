import Verif.Lemmas.ConfigPolicyRuns
import Mathlib.Data.List.Perm.Subperm
/-
The timestamps that a `ConfigPolicyManager` remembers.
-/
namespace PyNDN.ConfigPolicy
open PyNDN PyNDN.BoostInfo
open PyNDN.Validator (SData Packet Relation Cache Entry interestSignature)
open PyNDN.Spec.Validator (KeyLocatorIs)
open PyNDN.Spec.ConfigPolicy
open PyNDN.Spec.BoostInfo (Item view itemView itemsView group)
open PyNDN.Spec.ValidatorConfig (Has Each)

variable {E : Env}

/-! ### The key and the time of a command -/

theorem beforeLast_none {p : Component → Bool} {n : Name} : beforeLast p n = none ↔ ∀ x ∈ n, p x = false := by
  induction n with
  | nil => simp [beforeLast]
  | cons c cs ih =>
    unfold beforeLast
    cases h : beforeLast p cs with
    | some r =>
      constructor
      · intro h'
        cases h'
      · intro h'
        have := ih.mpr (fun x hx => h' x (by simp [hx]))
        rw [h] at this
        cases this
    | none =>
      have h1 := ih.mp h
      dsimp only
      cases hc : p c with
      | true => simp [hc]
      | false => simpa [hc] using h1

theorem beforeLast_some {p : Component → Bool} {n : Name} : ∀ {r : Name}, beforeLast p n = some r ↔
    ∃ e es, n = r ++ e :: es ∧ p e = true ∧ ∀ x ∈ es, p x = false := by
  induction n with
  | nil =>
    intro r
    constructor
    · intro h
      cases h
    · rintro ⟨e, es, h, _⟩
      simp at h
  | cons c cs ih =>
    intro r
    unfold beforeLast
    cases h : beforeLast p cs with
    | some r' =>
      dsimp only
      obtain ⟨e, es, h1, h2, h3⟩ := ih.mp h
      constructor
      · intro h'
        injection h' with h'
        subst h'
        exact ⟨e, es, by rw [h1]; rfl, h2, h3⟩
      · rintro ⟨e', es', h4, h5, h6⟩
        cases r with
        | nil =>
          injection h4 with _ h4
          have := h6 e (by rw [← h4, h1]; simp)
          rw [h2] at this
          cases this
        | cons x r =>
          injection h4 with h7 h4
          have := ih.mpr ⟨e', es', h4, h5, h6⟩
          rw [h] at this
          injection this with this
          rw [h7, this]
    | none =>
      dsimp only
      have h1 := beforeLast_none.mp h
      constructor
      · intro h'
        split at h'
        · next hc =>
          injection h' with h'
          subst h'
          exact ⟨c, cs, rfl, hc, h1⟩
        · cases h'
      · rintro ⟨e', es', h4, h5, h6⟩
        cases r with
        | nil =>
          injection h4 with h7 h4
          rw [h7, if_pos h5]
        | cons x r =>
          injection h4 with _ h4
          have := h1 e' (by rw [h4]; simp)
          rw [h5] at this
          cases this

theorem withoutFirst_some {p : Component → Bool} {n : Name} : ∀ {r : Name}, withoutFirst p n = some r ↔
    ∃ a b c, n = a ++ b :: c ∧ p b = true ∧ (∀ x ∈ a, p x = false) ∧ r = a ++ c := by
  induction n with
  | nil =>
    intro r
    constructor
    · intro h
      cases h
    · rintro ⟨a, b, c, h, _⟩
      simp at h
  | cons x cs ih =>
    intro r
    unfold withoutFirst
    cases hx : p x with
    | true =>
      rw [if_pos rfl]
      constructor
      · intro h
        injection h with h
        exact ⟨[], x, cs, rfl, hx, by simp, h.symm⟩
      · rintro ⟨a, b, c, h1, h2, h3, h4⟩
        cases a with
        | nil =>
          injection h1 with _ h1
          rw [h4, h1]
          rfl
        | cons z a =>
          injection h1 with h1 _
          have := h3 z (by simp)
          rw [← h1, hx] at this
          cases this
    | false =>
      rw [if_neg (by simp)]
      constructor
      · intro h
        cases hw : withoutFirst p cs with
        | none =>
          rw [hw] at h
          cases h
        | some r' =>
          rw [hw] at h
          injection h with h
          obtain ⟨a, b, c, h1, h2, h3, h4⟩ := ih.mp hw
          refine ⟨x :: a, b, c, by rw [h1]; rfl, h2, ?_, by rw [← h, h4]; rfl⟩
          intro z hz
          rcases List.mem_cons.mp hz with hz | hz
          · rw [hz]; exact hx
          · exact h3 z hz
      · rintro ⟨a, b, c, h1, h2, h3, h4⟩
        cases a with
        | nil =>
          injection h1 with h1 _
          rw [← h1, hx] at h2
          cases h2
        | cons z a =>
          injection h1 with h5 h1
          have := ih.mpr ⟨a, b, c, h1, h2, fun y hy => h3 y (by simp [hy]), rfl⟩
          rw [this, h4, h5]
          rfl

theorem publicKeyName_some {n r : Name} : publicKeyName n = .ok r ↔
    ∃ a b c d, n = a ++ b :: c ++ d ∧ b.toEscapedString = "KEY".toList ∧ (∀ x ∈ a, x.toEscapedString ≠ "KEY".toList) ∧
      (∃ e es, d = e :: es ∧ e.toEscapedString = "ID-CERT".toList ∧ ∀ x ∈ es, x.toEscapedString ≠ "ID-CERT".toList) ∧ r = a ++ c := by
  have hk : ∀ b : Component, isKey b = true ↔ b.toEscapedString = "KEY".toList := fun b => beq_iff_eq
  have hk' : ∀ b : Component, isKey b = false ↔ b.toEscapedString ≠ "KEY".toList := fun b => beq_eq_false_iff_ne
  have hi : ∀ b : Component, isIdCert b = true ↔ b.toEscapedString = "ID-CERT".toList := fun b => beq_iff_eq
  have hi' : ∀ b : Component, isIdCert b = false ↔ b.toEscapedString ≠ "ID-CERT".toList := fun b => beq_eq_false_iff_ne
  unfold publicKeyName
  constructor
  · intro h
    split at h
    · cases h
    · next temp ht =>
      split at h
      · cases h
      · next k hw =>
        injection h with h
        subst h
        obtain ⟨e, es, h1, h2, h3⟩ := beforeLast_some.mp ht
        obtain ⟨a, b, c, h4, h5, h6, h7⟩ := withoutFirst_some.mp hw
        exact ⟨a, b, c, e :: es, by rw [h1, h4], (hk b).mp h5, fun x hx => (hk' x).mp (h6 x hx),
          ⟨e, es, rfl, (hi e).mp h2, fun x hx => (hi' x).mp (h3 x hx)⟩, h7⟩
  · rintro ⟨a, b, c, d, h1, h2, h3, ⟨e, es, rfl, h4, h5⟩, h6⟩
    have ht : beforeLast isIdCert n = some (a ++ b :: c) :=
      beforeLast_some.mpr ⟨e, es, h1, (hi e).mpr h4, fun x hx => (hi' x).mpr (h5 x hx)⟩
    have hw : withoutFirst isKey (a ++ b :: c) = some r :=
      withoutFirst_some.mpr ⟨a, b, c, rfl, (hk b).mpr h2, fun x hx => (hk' x).mpr (h3 x hx), h6⟩
    rw [ht]
    dsimp only
    rw [hw]

theorem pyIndex_four {n : Name} {c : Component} (h : pyIndex n (-4) = .ok c) : ∃ a b, n = a ++ c :: b ∧ b.length = 3 := by
  unfold pyIndex at h
  dsimp only at h
  rw [if_pos (show (-4 : Int) < 0 by decide)] at h
  split at h
  · cases h
  · next hlt =>
    split at h
    · next x hx =>
      injection h with h
      subst h
      obtain ⟨hk, hx⟩ := List.getElem?_eq_some_iff.mp hx
      refine ⟨n.take ((n.length : Int) + -4).toNat, n.drop (((n.length : Int) + -4).toNat + 1), ?_, ?_⟩
      · rw [← hx, ← List.drop_eq_getElem_cons hk, List.take_append_drop]
      · rw [List.length_drop]
        omega
    · cases h

theorem split_four {a b a' b' : Name} {c c' : Component} (h : a ++ c :: b = a' ++ c' :: b') (h1 : b.length = 3) (h2 : b'.length = 3) :
    c = c' := by
  have := List.append_inj_right' h (by simp [h1, h2])
  injection this

theorem keyLocatorIs_of {p : Packet} {sig : Signature} (h : extractSignature p = some sig) {kl : KeyLocator}
    (h1 : sig.info.keyLocator? = some kl) (h2 : kl.type = some 1) (n : Name) : KeyLocatorIs p n ↔ n = kl.keyName := by
  cases p with
  | data d =>
    injection h with h
    subst h
    constructor
    · rintro ⟨kl', h3, _, h5⟩
      rw [h1] at h3
      injection h3 with h3
      rw [← h5, h3]
    · rintro rfl
      exact ⟨kl, h1, h2, rfl⟩
  | interest i s =>
    have h : (interestSignature i.name).toOption = some sig := h
    have hsig : interestSignature i.name = .ok sig := by
      cases he : interestSignature i.name with
      | error e =>
        rw [he] at h
        cases h
      | ok sig' =>
        rw [he] at h
        injection h with h
        rw [h]
    constructor
    · rintro ⟨sig', kl', h0, h3, _, h5⟩
      rw [hsig] at h0
      injection h0 with h0
      subst h0
      rw [h1] at h3
      injection h3 with h3
      rw [← h5, h3]
    · rintro rfl
      exact ⟨sig, kl, hsig, h1, h2, rfl⟩

/-- The command of a packet that has been checked is that of the specification. -/
theorem checked_command {ts : List (Str × Nat)} {now : Int} {p : Packet} {cmd : Option (Str × Nat)} (h : Checked E ts now p cmd) :
    (cmd = none ∧ ∀ t, ¬ CommandTime p t) ∨
    ∃ k t, cmd = some (k, t) ∧ (∀ key, CommandKey E p key ↔ key = k) ∧ (∀ t', CommandTime p t' ↔ t' = t) := by
  obtain ⟨sig, kl, h1, h2, h3, h4, _⟩ := h
  cases p with
  | data d =>
    injection h4 with h4
    exact .inl ⟨h4.symm, fun t ht => ht⟩
  | interest i s =>
    right
    unfold commandOf at h4
    dsimp only at h4
    obtain ⟨n, hn, h4⟩ := ebind_ok.mp h4
    obtain ⟨c, hc, h4⟩ := ebind_ok.mp h4
    have h4 := pure_ok.mp h4
    refine ⟨n.toUri, c.toNumber, h4.symm, fun key => ?_, fun t' => ?_⟩
    · unfold CommandKey
      unfold keyNameOf at hn
      rw [h2] at hn
      dsimp only at hn
      cases hv : E.isSecurityV1 with
      | true =>
        rw [if_pos hv] at hn
        constructor
        · rintro ⟨kl', h5, h6⟩
          rw [if_pos rfl] at h6
          obtain ⟨a, b, c, d, g1, g2, g3, g4, g5⟩ := h6
          rw [(keyLocatorIs_of h1 h2 h3 kl').mp h5] at g1
          have := publicKeyName_some.mpr ⟨a, b, c, d, g1, g2, g3, g4, rfl⟩
          rw [hn] at this
          injection this with this
          rw [g5, this]
        · rintro rfl
          refine ⟨kl.keyName, (keyLocatorIs_of h1 h2 h3 _).mpr rfl, ?_⟩
          rw [if_pos rfl]
          obtain ⟨a, b, c, d, g1, g2, g3, g4, g5⟩ := publicKeyName_some.mp hn
          exact ⟨a, b, c, d, g1, g2, g3, g4, by rw [g5]⟩
      | false =>
        rw [if_neg (by rw [hv]; simp)] at hn
        injection hn with hn
        subst hn
        constructor
        · rintro ⟨kl', h5, h6⟩
          rw [if_neg (by simp)] at h6
          rw [h6, (keyLocatorIs_of h1 h2 h3 kl').mp h5]
        · rintro rfl
          exact ⟨kl.keyName, (keyLocatorIs_of h1 h2 h3 _).mpr rfl, by rw [if_neg (by simp)]⟩
    · obtain ⟨a, b, hab, hb⟩ := pyIndex_four hc
      constructor
      · rintro ⟨a', c', b', h5, h6, h7⟩
        rw [h7, split_four (hab.symm.trans h5) hb h6]
      · rintro rfl
        exact ⟨a, c, b, hab, hb, rfl⟩

/-! ### One step -/

/-- What a step other than loading a configuration and the return of a callback does. -/
structure Progress (E : Env) (y y' : Sys) : Prop where
  timestamps : y'.timestamps = y.timestamps
  requires : y'.requiresVerification = y.requiresVerification
  trace : ∃ l, y'.trace = y.trace ++ l ∧
    (((∀ id p, Ev.verified id p ∉ l) ∧ y'.frames = y.frames) ∨
      ∃ l0 id p cmd, l = l0 ++ [.verified id p] ∧ (∀ id p, Ev.verified id p ∉ l0) ∧ Checked E y.timestamps y.now p cmd ∧
        y'.frames = y.frames ++ framesOf id cmd)

def Event.isResume : Event → Bool
  | .resume _ => true
  | _ => false

theorem progress_same {y y' : Sys} (h1 : y'.timestamps = y.timestamps) (h2 : y'.requiresVerification = y.requiresVerification)
    (h3 : y'.frames = y.frames) {l : List Ev} (h4 : y'.trace = y.trace ++ l) (h5 : ∀ id p, Ev.verified id p ∉ l) : Progress E y y' :=
  ⟨h1, h2, l, h4, .inl ⟨h5, h3⟩⟩

theorem verify_progress {y y0 : Sys} {id : Nat} {p : Packet} {n : Nat} {rest : List Level} (hr : y.requiresVerification = true)
    (h1 : y0.timestamps = y.timestamps) (h2 : y0.requiresVerification = y.requiresVerification) (h3 : y0.frames = y.frames)
    (h4 : y0.now = y.now) {l : List Ev} (h5 : y0.trace = y.trace ++ l) (h6 : ∀ id p, Ev.verified id p ∉ l) :
    Progress E y (y0.verify E id p n rest) := by
  rcases verify_ends (E := E) (good := Checked E y.timestamps y.now) (y := y0) id p n rest
    (fun e => by rw [h2, hr] at e; cases e) (fun p cmd hc => by rw [h1, h4] at hc; exact hc) with ⟨e, h⟩ | h
  · refine ⟨h.timestamps.trans h1, h.requires.trans h2, l ++ [e], by rw [h.trace, h5, List.append_assoc], ?_⟩
    rcases h.kind with ⟨he, hf⟩ | ⟨q, cmd, he, hc, hf⟩
    · refine .inl ⟨fun i q hm => ?_, hf.trans h3⟩
      rcases List.mem_append.mp hm with hm | hm
      · exact h6 i q hm
      · have := List.mem_singleton.mp hm
        subst this
        rcases he with ⟨_, he⟩ | he | ⟨_, he⟩ <;> cases he
    · exact .inr ⟨l, id, q, cmd, by rw [he], h6, hc, by rw [hf, h3]⟩
  · obtain ⟨m, ht⟩ := h.trace
    refine progress_same (h.timestamps.trans h1) (h.requires.trans h2) (h.frames.trans h3) (l := l ++ [.express id m])
      (by rw [ht, h5, List.append_assoc]) ?_
    intro i q hm
    rcases List.mem_append.mp hm with hm | hm
    · exact h6 i q hm
    · cases List.mem_singleton.mp hm

theorem step_progress {y : Sys} (hr : y.requiresVerification = true) (e : Event) (h1 : e.isLoad = false) (h2 : e.isResume = false) :
    Progress E y (step E y e) := by
  cases e with
  | verify p n =>
    refine verify_progress (l := [.called y.next p]) hr rfl rfl rfl rfl rfl ?_
    intro i q hm
    cases List.mem_singleton.mp hm
  | data k d =>
    show Progress E y (y.onData E k d)
    unfold Sys.onData
    split
    · exact progress_same rfl rfl rfl (l := []) (by simp) (by simp)
    · exact verify_progress (l := []) hr rfl rfl rfl rfl (by simp) (by simp)
  | timeout k =>
    show Progress E y (y.onTimeout k)
    unfold Sys.onTimeout
    split
    · exact progress_same rfl rfl rfl (l := []) (by simp) (by simp)
    · dsimp only
      split
      · exact progress_same rfl rfl rfl (l := [_]) rfl (by simp)
      · exact progress_same rfl rfl rfl (l := [_]) rfl (by simp)
  | resume k => cases h2
  | insert c =>
    show Progress E y (match y.store.insert y.now c with
      | .error _ => y
      | .ok s => { y.emit (.inserted c) with store := s })
    split
    · exact progress_same rfl rfl rfl (l := []) (by simp) (by simp)
    · exact progress_same rfl rfl rfl (l := [_]) rfl (by simp)
  | clock t => exact progress_same rfl rfl rfl (l := []) (by simp [step]) (by simp)
  | load c => cases h1

/-- What the return of a callback does. -/
theorem resume_step (y : Sys) (k : Nat) : (step E y (.resume k) = y ∧ y.frames[k]? = none) ∨
    ∃ f l, y.frames[k]? = some f ∧ (step E y (.resume k)).frames = y.frames.eraseIdx k ∧
      (step E y (.resume k)).timestamps = (updateTimestamp E y.now f.key f.timestamp y.timestamps).1 ∧
      (step E y (.resume k)).requiresVerification = y.requiresVerification ∧
      (step E y (.resume k)).trace = y.trace ++ l ∧ ∀ id p, Ev.verified id p ∉ l := by
  show (y.resume E k = y ∧ _) ∨ ∃ f l, _ ∧ (y.resume E k).frames = _ ∧ (y.resume E k).timestamps = _ ∧
    (y.resume E k).requiresVerification = _ ∧ (y.resume E k).trace = _ ∧ _
  unfold Sys.resume
  cases hf : y.frames[k]? with
  | none => exact .inl ⟨rfl, rfl⟩
  | some f =>
    right
    dsimp only
    obtain ⟨l, r, hu⟩ : ∃ l r, updateTimestamp E y.now f.key f.timestamp y.timestamps = (l, r) := ⟨_, _, rfl⟩
    rw [hu]
    cases r with
    | none => exact ⟨f, [], rfl, rfl, by rw [hu], rfl, by simp, by simp⟩
    | some e => exact ⟨f, [_], rfl, rfl, by rw [hu]; rfl, rfl, rfl, by simp⟩

/-! ### Where the timestamps come from -/

theorem setTimestamp_mem {k : Str} {t : Nat} {l : List (Str × Nat)} {e : Str × Nat} (h : e ∈ setTimestamp k t l) : e = (k, t) ∨ e ∈ l := by
  induction l with
  | nil => simpa [setTimestamp] using h
  | cons x l ih =>
    unfold setTimestamp at h
    split at h
    · rcases List.mem_cons.mp h with h | h
      · exact .inl h
      · exact .inr (by simp [h])
    · rcases List.mem_cons.mp h with h | h
      · exact .inr (by simp [h])
      · rcases ih h with h | h
        · exact .inl h
        · exact .inr (by simp [h])

theorem updateTimestamp_mem {now : Int} {k : Str} {t : Nat} {l : List (Str × Nat)} {e : Str × Nat}
    (h : e ∈ (updateTimestamp E now k t l).1) : e = (k, t) ∨ e ∈ l := by
  apply setTimestamp_mem
  unfold updateTimestamp at h
  dsimp only at h
  split at h
  · split at h
    · exact (List.mem_filter.mp h).1
    · split at h
      · split at h
        · exact h
        · exact (List.mem_filter.mp h).1
      · exact h
  · exact h

/-- A verified Interest has the key and the time. -/
def Source (E : Env) (tr : List Ev) (k : Str) (t : Nat) : Prop := ∃ id q, Ev.verified id q ∈ tr ∧ CommandKey E q k ∧ CommandTime q t

/-- The invariant: the timestamps come from verified Interests. -/
structure Sources (E : Env) (y : Sys) : Prop where
  requires : y.requiresVerification = true
  timestamps : ∀ e ∈ y.timestamps, Source E y.trace e.1 e.2
  frames : ∀ f ∈ y.frames, Source E y.trace f.key f.timestamp

theorem source_mono {tr tr' : List Ev} (h : ∀ e ∈ tr, e ∈ tr') {k : Str} {t : Nat} (hs : Source E tr k t) : Source E tr' k t := by
  obtain ⟨id, q, h1, h2⟩ := hs
  exact ⟨id, q, h _ h1, h2⟩

theorem step_sources {y : Sys} (hy : Sources E y) (e : Event) (h1 : e.isLoad = false) : Sources E (step E y e) := by
  cases h2 : e.isResume with
  | false =>
    have hp := step_progress (E := E) hy.requires e h1 h2
    obtain ⟨l, ht, hk⟩ := hp.trace
    have hm : ∀ x ∈ y.trace, x ∈ (step E y e).trace := fun x hx => by rw [ht]; exact List.mem_append_left _ hx
    refine ⟨hp.requires.trans hy.requires, fun x hx => ?_, fun f hf => ?_⟩
    · rw [hp.timestamps] at hx
      exact source_mono hm (hy.timestamps x hx)
    · rcases hk with ⟨_, hf'⟩ | ⟨l0, id, p, cmd, hl, _, hc, hf'⟩
      · rw [hf'] at hf
        exact source_mono hm (hy.frames f hf)
      · rw [hf'] at hf
        rcases List.mem_append.mp hf with hf | hf
        · exact source_mono hm (hy.frames f hf)
        · rcases checked_command hc with ⟨rfl, _⟩ | ⟨k, t, rfl, hk, htm⟩
          · simp [framesOf] at hf
          · have := List.mem_singleton.mp (show f ∈ [(⟨id, k, t⟩ : Frame)] from hf)
            subst this
            exact ⟨id, p, by rw [ht, hl]; simp, (hk _).mpr rfl, (htm _).mpr rfl⟩
  | true =>
    cases e with
    | resume k =>
      rcases resume_step (E := E) y k with ⟨h, _⟩ | ⟨f, l, hf, hfr, hts, hrq, htr, _⟩
      · rw [h]
        exact hy
      · have hm : ∀ x ∈ y.trace, x ∈ (step E y (.resume k)).trace := fun x hx => by rw [htr]; exact List.mem_append_left _ hx
        refine ⟨hrq.trans hy.requires, fun x hx => ?_, fun g hg => ?_⟩
        · rw [hts] at hx
          rcases updateTimestamp_mem hx with rfl | hx
          · exact source_mono hm (hy.frames f (List.mem_of_getElem? hf))
          · exact source_mono hm (hy.timestamps x hx)
        · rw [hfr] at hg
          exact source_mono hm (hy.frames g (List.mem_of_mem_eraseIdx hg))
    | verify p n => cases h2
    | data k d => cases h2
    | timeout k => cases h2
    | insert c => cases h2
    | clock t => cases h2
    | load c => cases h2

theorem run_sources (es : List Event) (h : ∀ e ∈ es, e.isLoad = false) : ∀ {y : Sys}, Sources E y → Sources E (run E y es) := by
  induction es with
  | nil => exact fun hy => hy
  | cons e es ih => exact fun hy => ih (fun x hx => h x (by simp [hx])) (step_sources hy e (h e (by simp)))

theorem find_none_of {l : List (Str × Nat)} {k : Str} (h : ∀ e ∈ l, e.1 ≠ k) : (l.find? fun e => e.1 == k) = none := by
  rw [List.find?_eq_none]
  intro e he
  simpa using h e he

/-- The first command Interest with a key. -/
theorem first_use {y : Sys} (hy : Sources E y) (e : Event) (h1 : e.isLoad = false) {l : List Ev}
    (hl : (step E y e).trace = y.trace ++ l) {id : Nat} {p : Packet} (hp : Ev.verified id p ∈ l) {k : Str} {t : Nat}
    (hk : CommandKey E p k) (ht : CommandTime p t) (hn : ∀ id' q, Ev.verified id' q ∈ y.trace → ¬ CommandKey E q k) :
    y.now - E.graceInterval < t ∧ t < y.now + E.graceInterval := by
  cases h2 : e.isResume with
  | false =>
    have hpr := step_progress (E := E) hy.requires e h1 h2
    obtain ⟨l', htr, hc⟩ := hpr.trace
    rw [hl] at htr
    have := List.append_cancel_left htr
    subst this
    rcases hc with ⟨hno, _⟩ | ⟨l0, id', q, cmd, rfl, hno, hchk, _⟩
    · exact absurd hp (hno id p)
    · have : id = id' ∧ p = q := by
        rcases List.mem_append.mp hp with hp | hp
        · exact absurd hp (hno id p)
        · have := List.mem_singleton.mp hp
          injection this with a b
          exact ⟨a, b⟩
      obtain ⟨rfl, rfl⟩ := this
      rcases checked_command hchk with ⟨_, hnt⟩ | ⟨k', t', rfl, hk', ht'⟩
      · exact absurd ht (hnt t)
      · obtain rfl := (hk' k).mp hk
        obtain rfl := (ht' t).mp ht
        obtain ⟨_, _, _, _, _, _, hfresh⟩ := hchk
        have hf := hfresh y rfl rfl
        unfold isFresh timestampIsFresh at hf
        have hnone : (y.timestamps.find? fun e => e.1 == k) = none := by
          apply find_none_of
          rintro x hx rfl
          obtain ⟨id', q, g1, g2, _⟩ := hy.timestamps x hx
          exact hn id' q g1 g2
        dsimp only at hf
        rw [hnone] at hf
        have := of_decide_eq_true hf
        exact ⟨this.1, this.2⟩
  | true =>
    cases e with
    | resume j =>
      rcases resume_step (E := E) y j with ⟨h, _⟩ | ⟨f, l', _, _, _, _, htr, hno⟩
      · rw [h] at hl
        have : y.trace ++ [] = y.trace ++ l := by simpa using hl
        have := List.append_cancel_left this
        subst this
        cases hp
      · rw [hl] at htr
        have := List.append_cancel_left htr
        subst this
        exact absurd hp (hno id p)
    | verify p n => cases h2
    | data k d => cases h2
    | timeout k => cases h2
    | insert c => cases h2
    | clock t => cases h2
    | load c => cases h2

theorem loadAnchors_timestamps (ts : List Tree) : ∀ {y y' : Sys} {prev : Option CertId} {r : Except Err Unit},
    loadAnchors E ts prev y = (y', r) → y'.timestamps = y.timestamps := by
  induction ts with
  | nil =>
    intro y y' prev r h
    injection h with h _
    exact h ▸ rfl
  | cons t ts ih =>
    intro y y' prev r h
    unfold loadAnchors at h
    split at h
    · injection h with h _
      exact h ▸ rfl
    · split at h
      · next hd =>
        injection h with h _
        exact h ▸ (addDirectory_same hd).timestamps
      · next hd => exact (ih h).trans (addDirectory_same hd).timestamps
    · injection h with h _
      subst h
      rfl
    · split at h
      · next hl =>
        injection h with h _
        exact h ▸ (lookup_same hl).timestamps
      · next hl => exact (ih h).trans (lookup_same hl).timestamps
    · split at h
      · injection h with h _
        exact h ▸ rfl
      · split at h
        · next hl =>
          injection h with h _
          exact h ▸ (lookup_same hl).timestamps
        · next hl => exact (ih h).trans (lookup_same hl).timestamps

/-- A trust anchor that switches verification off. -/
theorem anchorAction_any {i : Item} {t : Tree} (hv : view t = itemView i) (h : anchorAction t = .ok .any) : Has i "type" "any".toList := by
  unfold anchorAction at h
  obtain ⟨ty, hty, h⟩ := ebind_ok.mp h
  split at h
  · obtain ⟨v, h1, h⟩ := ebind_ok.mp h
    obtain ⟨f, h2, h⟩ := ebind_ok.mp h
    have h := pure_ok.mp h
    cases h
  · split at h
    · obtain ⟨v, h1, h⟩ := ebind_ok.mp h
      obtain ⟨f, h2, h⟩ := ebind_ok.mp h
      have h := pure_ok.mp h
      cases h
    · split at h
      · obtain ⟨v, h1, h⟩ := ebind_ok.mp h
        obtain ⟨f, h2, h⟩ := ebind_ok.mp h
        obtain ⟨g, h3, h⟩ := ebind_ok.mp h
        have h := pure_ok.mp h
        cases h
      · split at h
        · next e =>
          subst e
          exact value_has hv ValidatorConfig.kType hty
        · have h := pure_ok.mp h
          cases h

theorem loadAnchors_off {ts : List Tree} {is : List Item} (h : Each (fun t i => view t = itemView i) ts is) :
    ∀ {y y' : Sys} {prev : Option CertId} {r : Except Err Unit}, loadAnchors E ts prev y = (y', r) → y.requiresVerification = true →
    y'.requiresVerification = false → ∃ i ∈ is, Has i "type" "any".toList := by
  induction h with
  | nil =>
    intro y y' prev r h h1 h2
    injection h with h _
    rw [← h, h1] at h2
    cases h2
  | @cons t i ts is hv _ ih =>
    intro y y' prev r h h1 h2
    have more : (∃ j ∈ is, Has j "type" "any".toList) → ∃ j ∈ i :: is, Has j "type" "any".toList := by
      rintro ⟨j, hj, h⟩
      exact ⟨j, by simp [hj], h⟩
    unfold loadAnchors at h
    split at h
    · injection h with h _
      rw [← h, h1] at h2
      cases h2
    · split at h
      · next hd =>
        injection h with h _
        rw [← h, (addDirectory_same hd).requires, h1] at h2
        cases h2
      · next hd => exact more (ih h ((addDirectory_same hd).requires.trans h1) h2)
    · next ha => exact ⟨i, by simp, anchorAction_any hv ha⟩
    · split at h
      · next hl =>
        injection h with h _
        rw [← h, (lookup_same hl).requires, h1] at h2
        cases h2
      · next hl => exact more (ih h ((lookup_same hl).requires.trans h1) h2)
    · split at h
      · injection h with h _
        rw [← h, h1] at h2
        cases h2
      · split at h
        · next hl =>
          injection h with h _
          rw [← h, (lookup_same hl).requires, h1] at h2
          cases h2
        · next hl => exact more (ih h ((lookup_same hl).requires.trans h1) h2)

theorem load_off {items : List Item} {t : Tree} {v : Option Str} (ht : view t = .node v (group (itemsView items))) {y : Sys}
    (h : (y.load E t).requiresVerification = false) : ∃ i ∈ trustAnchors items, Has i "type" "any".toList := by
  unfold Sys.load at h
  dsimp only at h
  obtain ⟨y1, r, h1⟩ : ∃ y1 r, loadAnchors E (t.get "validator/trust-anchor".toList) none
      { y with store := y.store.clear, fixed := [], timestamps := [], requiresVerification := true, config := t,
               anchors := Store.new E.isSecurityV1, dirs := [] } = (y1, r) := ⟨_, _, rfl⟩
  rw [h1] at h
  apply loadAnchors_off (anchors_each ht) h1 rfl
  cases r with
  | ok u => exact h
  | error e => exact h

/-! ### Replay -/

/-- The invariant of a policy manager whose callbacks have returned. -/
structure Remembers (E : Env) (y : Sys) : Prop where
  frames : y.frames = []
  nodup : (y.timestamps.map Prod.fst).Nodup
  known : ∀ id q k t, Ev.verified id q ∈ y.trace → CommandKey E q k → CommandTime q t → ∃ t', (k, t') ∈ y.timestamps ∧ t ≤ t'
  ordered : y.trace.Pairwise (InOrder E)

theorem setTimestamp_keys (k : Str) (t : Nat) (l : List (Str × Nat)) :
    (setTimestamp k t l).map Prod.fst = if k ∈ l.map Prod.fst then l.map Prod.fst else l.map Prod.fst ++ [k] := by
  induction l with
  | nil => rfl
  | cons e l ih =>
    unfold setTimestamp
    by_cases h : e.1 = k
    · rw [if_pos h]
      simp [h]
    · rw [if_neg h, List.map_cons, ih]
      have hk : k ≠ e.1 := fun e' => h e'.symm
      by_cases h2 : k ∈ l.map Prod.fst
      · rw [if_pos h2, if_pos (by simp [h2])]
        rfl
      · rw [if_neg h2, if_neg (by simpa [hk] using h2)]
        rfl

theorem setTimestamp_self (k : Str) (t : Nat) (l : List (Str × Nat)) : (k, t) ∈ setTimestamp k t l := by
  induction l with
  | nil => simp [setTimestamp]
  | cons e l ih =>
    unfold setTimestamp
    split
    · simp
    · simp [ih]

theorem setTimestamp_other {k : Str} {t : Nat} {l : List (Str × Nat)} {e : Str × Nat} (h : e ∈ l) (hk : e.1 ≠ k) :
    e ∈ setTimestamp k t l := by
  induction l with
  | nil => cases h
  | cons x l ih =>
    unfold setTimestamp
    split
    · next hx =>
      rcases List.mem_cons.mp h with h | h
      · exact absurd (h ▸ hx) hk
      · simp [h]
    · rcases List.mem_cons.mp h with h | h
      · simp [h]
      · simp [ih h]

theorem setTimestamp_nodup {k : Str} {t : Nat} {l : List (Str × Nat)} (h : (l.map Prod.fst).Nodup) :
    ((setTimestamp k t l).map Prod.fst).Nodup := by
  rw [setTimestamp_keys]
  split
  · exact h
  · next hk =>
    rw [List.nodup_append]
    exact ⟨h, by simp, fun a ha b hb => by
      rw [List.mem_singleton.mp hb]
      rintro rfl
      exact hk ha⟩

theorem nodup_length {a b : List Str} (h : a.Nodup) (hs : ∀ x ∈ a, x ∈ b) : a.length ≤ b.length :=
  (List.Nodup.subperm h hs).length_le

theorem updateTimestamp_few {now : Int} {k : Str} {t : Nat} {l : List (Str × Nat)} (h : (setTimestamp k t l).length < E.maxTrackedKeys) :
    (updateTimestamp E now k t l).1 = setTimestamp k t l := by
  unfold updateTimestamp
  dsimp only
  rw [if_neg (by omega)]

theorem find_of_mem {l : List (Str × Nat)} (h : (l.map Prod.fst).Nodup) {k : Str} {t : Nat} (hm : (k, t) ∈ l) :
    (l.find? fun e => e.1 == k) = some (k, t) := by
  induction l with
  | nil => cases hm
  | cons e l ih =>
    rw [List.map_cons, List.nodup_cons] at h
    rcases List.mem_cons.mp hm with hm | hm
    · rw [← hm]
      simp
    · have : e.1 ≠ k := by
        rintro rfl
        exact h.1 (List.mem_map.mpr ⟨_, hm, rfl⟩)
      rw [List.find?_cons_of_neg (by simpa using this)]
      exact ih h.2 hm

/-- A checked command Interest is later than those that are remembered. -/
theorem checked_later {y : Sys} (hy : Remembers E y) {p : Packet} {k : Str} {t : Nat} (hc : Checked E y.timestamps y.now p (some (k, t)))
    {id : Nat} {q : Packet} {t' : Nat} (h1 : Ev.verified id q ∈ y.trace) (h2 : CommandKey E q k) (h3 : CommandTime q t') : t' < t := by
  obtain ⟨t0, h4, h5⟩ := hy.known id q k t' h1 h2 h3
  obtain ⟨_, _, _, _, _, _, hfresh⟩ := hc
  have hf := hfresh y rfl rfl
  unfold isFresh timestampIsFresh at hf
  dsimp only at hf
  rw [find_of_mem hy.nodup h4] at hf
  dsimp only at hf
  have : ¬ t ≤ t0 := by simpa using hf
  omega

theorem ordered_append {tr l : List Ev} (h : tr.Pairwise (InOrder E)) (hl : ∀ id p, Ev.verified id p ∉ l) :
    (tr ++ l).Pairwise (InOrder E) := by
  rw [List.pairwise_append]
  refine ⟨h, ?_, fun a _ b hb => ?_⟩
  · rw [List.pairwise_iff_forall_sublist]
    intro a b hab i p j q k t t' ha
    have : a ∈ l := hab.subset (by simp)
    rw [ha] at this
    exact absurd this (hl i p)
  · intro i p j q k t t' _ hb'
    rw [hb'] at hb
    exact absurd hb (hl j q)

theorem remembers_quiet {y y' : Sys} (hy : Remembers E y) (h1 : y'.frames = y.frames) (h2 : y'.timestamps = y.timestamps) {l : List Ev}
    (h3 : y'.trace = y.trace ++ l) (h4 : ∀ id p, Ev.verified id p ∉ l) : Remembers E y' := by
  refine ⟨h1.trans hy.frames, by rw [h2]; exact hy.nodup, fun id q k t hv hk ht => ?_, by rw [h3]; exact ordered_append hy.ordered h4⟩
  rw [h3] at hv
  rw [h2]
  rcases List.mem_append.mp hv with hv | hv
  · exact hy.known id q k t hv hk ht
  · exact absurd hv (h4 id q)

/-- All the command Interests that have been verified have one of the keys. -/
def KeysIn (E : Env) (K : List Str) (tr : List Ev) : Prop := ∀ id q k, Ev.verified id q ∈ tr → CommandKey E q k → k ∈ K

theorem resume_none {y : Sys} (h : y.frames = []) (k : Nat) : step E y (.resume k) = y := by
  show y.resume E k = y
  unfold Sys.resume
  rw [h]
  rfl

/-- An event and the return of the callback that it calls. -/
theorem pair_remembers {K : List Str} (hK : K.length < E.maxTrackedKeys) {y : Sys} (hs : Sources E y) (hy : Remembers E y) (e : Event)
    (h1 : e.isLoad = false) (hk : KeysIn E K (step E (step E y e) (.resume 0)).trace) :
    Remembers E (step E (step E y e) (.resume 0)) := by
  cases h2 : e.isResume with
  | true =>
    cases e with
    | resume k =>
      rw [resume_none hy.frames, resume_none hy.frames]
      exact hy
    | verify p n => cases h2
    | data k d => cases h2
    | timeout k => cases h2
    | insert c => cases h2
    | clock t => cases h2
    | load c => cases h2
  | false =>
    have hp := step_progress (E := E) hs.requires e h1 h2
    obtain ⟨l, ht, hcase⟩ := hp.trace
    rcases hcase with ⟨hno, hf⟩ | ⟨l0, id, p, cmd, hl, hno, hc, hf⟩
    · rw [resume_none (hf.trans hy.frames)]
      exact remembers_quiet hy hf hp.timestamps ht hno
    · have hy0 : Remembers E { y with trace := y.trace ++ l0 } := remembers_quiet hy rfl rfl rfl hno
      have htr : (step E y e).trace = (y.trace ++ l0) ++ [.verified id p] := by rw [ht, hl, List.append_assoc]
      rw [hy.frames] at hf
      have hord : (∀ i q k t t', Ev.verified i q ∈ y.trace ++ l0 → CommandKey E q k → CommandKey E p k → CommandTime q t →
          CommandTime p t' → t < t') → ((y.trace ++ l0) ++ [Ev.verified id p]).Pairwise (InOrder E) := by
        intro h
        rw [List.pairwise_append]
        refine ⟨hy0.ordered, by simp, fun a ha b hb => ?_⟩
        intro i q j r k t t' ea eb g1 g2 g3 g4
        subst ea
        rw [List.mem_singleton.mp hb] at eb
        injection eb with _ eb
        subst eb
        exact h i q k t t' ha g1 g2 g3 g4
      rcases checked_command hc with ⟨rfl, hnt⟩ | ⟨k, t, rfl, hk', ht'⟩
      · rw [resume_none hf]
        refine ⟨hf, by rw [hp.timestamps]; exact hy.nodup, fun i q k t hv g1 g2 => ?_, ?_⟩
        · rw [htr] at hv
          rw [hp.timestamps]
          rcases List.mem_append.mp hv with hv | hv
          · exact hy0.known i q k t hv g1 g2
          · have := List.mem_singleton.mp hv
            injection this with _ this
            subst this
            exact absurd g2 (hnt t)
        · rw [htr]
          exact hord fun i q k t t' _ _ _ _ g => absurd g (hnt t')
      · rcases resume_step (E := E) (step E y e) 0 with ⟨_, hnone⟩ | ⟨f, l', hf0, hfr, hts, hrq, htr2, hno2⟩
        · rw [hf] at hnone
          cases hnone
        · rw [hf] at hf0 hfr
          injection hf0 with hf0
          subst hf0
          dsimp only at hts
          have hmem : ∀ x ∈ y.trace ++ l0 ++ [Ev.verified id p], x ∈ (step E (step E y e) (.resume 0)).trace := fun x hx => by
            rw [htr2, htr]
            exact List.mem_append_left _ hx
          have hfew : (setTimestamp k t y.timestamps).length < E.maxTrackedKeys := by
            have hle := nodup_length (a := (setTimestamp k t y.timestamps).map Prod.fst) (b := K) (setTimestamp_nodup hy.nodup) (by
              intro x hx
              obtain ⟨en, hen, rfl⟩ := List.mem_map.mp hx
              rcases setTimestamp_mem hen with rfl | hen
              · exact hk id p k (hmem _ (by simp)) ((hk' k).mpr rfl)
              · obtain ⟨i, q, g1, g2, _⟩ := hs.timestamps en hen
                exact hk i q _ (hmem _ (by simp [g1])) g2)
            rw [List.length_map] at hle
            omega
          rw [hp.timestamps, updateTimestamp_few hfew] at hts
          have hlater : ∀ i q t', Ev.verified i q ∈ y.trace ++ l0 → CommandKey E q k → CommandTime q t' → t' < t := fun i q t' g1 g2 g3 =>
            checked_later hy0 hc g1 g2 g3
          refine ⟨hfr, by rw [hts]; exact setTimestamp_nodup hy.nodup, fun i q k2 t2 hv g1 g2 => ?_, ?_⟩
          · rw [hts]
            rw [htr2, htr] at hv
            rcases List.mem_append.mp hv with hv | hv
            · rcases List.mem_append.mp hv with hv | hv
              · by_cases hkk : k2 = k
                · subst hkk
                  exact ⟨t, setTimestamp_self _ _ _, Nat.le_of_lt (hlater i q t2 hv g1 g2)⟩
                · obtain ⟨t3, g3, g4⟩ := hy0.known i q k2 t2 hv g1 g2
                  exact ⟨t3, setTimestamp_other g3 hkk, g4⟩
              · have := List.mem_singleton.mp hv
                injection this with _ this
                subst this
                obtain rfl := (hk' k2).mp g1
                obtain rfl := (ht' t2).mp g2
                exact ⟨t2, setTimestamp_self _ _ _, Nat.le_refl _⟩
            · exact absurd hv (hno2 i q)
          · rw [htr2, htr]
            apply ordered_append _ hno2
            apply hord
            intro i q k2 t2 t3 g1 g2 g3 g4 g5
            obtain rfl := (hk' k2).mp g3
            obtain rfl := (ht' t3).mp g5
            exact hlater i q t2 g1 g2 g4

/-- A step keeps the trace. -/
theorem step_trace {y : Sys} (hr : y.requiresVerification = true) (e : Event) (h1 : e.isLoad = false) :
    ∃ l, (step E y e).trace = y.trace ++ l := by
  cases h2 : e.isResume with
  | false =>
    obtain ⟨l, h, _⟩ := (step_progress (E := E) hr e h1 h2).trace
    exact ⟨l, h⟩
  | true =>
    cases e with
    | resume k =>
      rcases resume_step (E := E) y k with ⟨h, _⟩ | ⟨f, l, _, _, _, _, htr, _⟩
      · exact ⟨[], by rw [h]; simp⟩
      · exact ⟨l, htr⟩
    | verify p n => cases h2
    | data k d => cases h2
    | timeout k => cases h2
    | insert c => cases h2
    | clock t => cases h2
    | load c => cases h2

theorem run_trace (es : List Event) (h : ∀ e ∈ es, e.isLoad = false) : ∀ {y : Sys}, Sources E y →
    ∃ l, (run E y es).trace = y.trace ++ l := by
  induction es with
  | nil => exact fun _ => ⟨[], by simp [run]⟩
  | cons e es ih =>
    intro y hy
    obtain ⟨l, hl⟩ := step_trace (E := E) hy.requires e (h e (by simp))
    obtain ⟨l', hl'⟩ := ih (fun x hx => h x (by simp [hx])) (step_sources hy e (h e (by simp)))
    exact ⟨l ++ l', by show (run E (step E y e) es).trace = _; rw [hl', hl, List.append_assoc]⟩

theorem prompt_noLoad {es : List Event} (h : ∀ e ∈ es, e.isLoad = false) : ∀ e ∈ prompt es, e.isLoad = false := by
  intro e he
  obtain ⟨x, hx, he⟩ := List.mem_flatMap.mp he
  simp only [List.mem_cons, List.not_mem_nil, or_false] at he
  rcases he with rfl | rfl
  · exact h e hx
  · rfl

theorem prompt_remembers {K : List Str} (hK : K.length < E.maxTrackedKeys) (es : List Event) (h : ∀ e ∈ es, e.isLoad = false) :
    ∀ {y : Sys}, Sources E y → Remembers E y → KeysIn E K (run E y (prompt es)).trace → Remembers E (run E y (prompt es)) := by
  induction es with
  | nil => exact fun _ hy _ => hy
  | cons e es ih =>
    intro y hs hy hk
    have hes : ∀ x ∈ es, x.isLoad = false := fun x hx => h x (by simp [hx])
    have hs1 := step_sources hs e (h e (by simp))
    have hs2 := step_sources hs1 (.resume 0) rfl
    have hk : KeysIn E K (run E (step E (step E y e) (.resume 0)) (prompt es)).trace := hk
    obtain ⟨l, hl⟩ := run_trace (prompt es) (prompt_noLoad hes) hs2
    have hk1 : KeysIn E K (step E (step E y e) (.resume 0)).trace := fun i q k hv g =>
      hk i q k (by rw [hl]; exact List.mem_append_left _ hv) g
    exact ih hes hs2 (pair_remembers hK hs hy e (h e (by simp)) hk1) hk

end PyNDN.ConfigPolicy
