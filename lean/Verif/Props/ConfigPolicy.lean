import Verif.Lemmas.ConfigPolicyTimes
import Verif.Props.Command
/-
C84: verification with a `ConfigPolicyManager`.
-/
namespace PyNDN.Props
open PyNDN PyNDN.ConfigPolicy PyNDN.Spec.ConfigPolicy
open PyNDN.BoostInfo (Str Tree)
open PyNDN.Spec.BoostInfo (Item documentView view)
open PyNDN.Validator (SData Packet)

/-- No event loads another configuration. -/
def SameConfig (es : List Event) : Prop := ∀ e ∈ es, ∀ c, e ≠ .load c

theorem sameConfig_isLoad {es : List Event} (h : SameConfig es) : ∀ e ∈ es, e.isLoad = false := by
  intro e he
  cases e with
  | load c => exact absurd rfl (h _ he c)
  | verify p n => rfl
  | data k d => rfl
  | timeout k => rfl
  | resume k => rfl
  | insert c => rfl
  | clock t => rfl

theorem init_storeOk (E : Env) (t0 : Int) : StoreOk E (ConfigPolicy.init E t0).store := by
  show StoreOk E (Store.new E.isSecurityV1)
  unfold Store.new
  cases hv : E.isSecurityV1 with
  | true =>
    rw [if_pos rfl]
    exact ⟨hv, by simp⟩
  | false =>
    rw [if_neg (by simp)]
    exact hv

/-- C84: after a configuration has been loaded (unless it switches verification off), each packet for which `onVerified` is called is
signed by a certificate which the rules allow, and this certificate is given in the configuration, or has been put into the cache by
the application, or is itself signed in this way.  This holds whatever the network, the clock and the files do. -/
theorem C84_sound_partial (E : Env) (items : List Item) (t : Tree) (ht : view t = documentView items) (t0 : Int) (es : List Event)
    (hes : SameConfig es) (hr : ((ConfigPolicy.init E t0).load E t).requiresVerification = true) (id : Nat) (p : Packet)
    (h : Ev.verified id p ∈ (ConfigPolicy.run E ((ConfigPolicy.init E t0).load E t) es).trace) :
    Justified E items (ConfigPolicy.run E ((ConfigPolicy.init E t0).load E t) es).trace p :=
  (run_inv es (sameConfig_isLoad hes) (load_inv ht (init_storeOk E t0) (fun _ _ h => by cases h) hr)).verified id p h

/-- C84: loading a configuration into any policy manager switches verification off only if the configuration has a trust anchor of the
type any. -/
theorem C84_off (E : Env) (items : List Item) (t : Tree) (ht : view t = documentView items) (y : Sys)
    (h : (y.load E t).requiresVerification = false) : ∃ i ∈ trustAnchors items, Spec.ValidatorConfig.Has i "type" "any".toList :=
  load_off ht h

theorem init_counts (E : Env) (t0 : Int) : Counts E (ConfigPolicy.init E t0) :=
  ⟨fun _ => rfl, fun _ => Nat.zero_le _, fun _ _ h => by cases h⟩

/-- C84: in each history, each call has ended exactly once or waits for exactly one Interest, and no callback is called for what is
not a call. -/
theorem C84_once_partial (E : Env) (t0 : Int) (es : List Event) (id : Nat) :
    let y := ConfigPolicy.run E (ConfigPolicy.init E t0) es
    (y.trace.countP (isEnd id) + (y.pending.filter fun r => r.id == id).length = if id < y.next then 1 else 0) ∧
      y.trace.countP (isCallback id) ≤ 1 := by
  intro y
  have h := (run_counts es (init_counts E t0)).once id
  refine ⟨?_, ?_⟩
  · rw [← List.countP_eq_length_filter]
    exact h
  · have hle : y.trace.countP (isCallback id) ≤ y.trace.countP (isEnd id) := List.countP_mono_left fun e _ he => by
      cases e <;> first | exact he | cases he
    have h : y.trace.countP (isEnd id) + waits id y.pending = if id < y.next then 1 else 0 := h
    split at h <;> omega

/-- C84: a call expresses at most three Interests for each of at most `searchDepth + 1` certificates. -/
theorem C84_sends (E : Env) (t0 : Int) (es : List Event) (id : Nat) :
    (ConfigPolicy.run E (ConfigPolicy.init E t0) es).trace.countP (isSend id) ≤ 3 * (E.maxDepth + 1) := by
  have h := (run_counts es (init_counts E t0)).sends id
  split at h <;> omega

theorem load_sources (E : Env) (t : Tree) (t0 : Int) (hr : ((ConfigPolicy.init E t0).load E t).requiresVerification = true) :
    ConfigPolicy.Sources E ((ConfigPolicy.init E t0).load E t) ∧ ConfigPolicy.Remembers E ((ConfigPolicy.init E t0).load E t) := by
  unfold Sys.load at hr ⊢
  dsimp only at hr ⊢
  obtain ⟨y1, r, h1⟩ : ∃ y1 r, loadAnchors E (t.get "validator/trust-anchor".toList) none
      { ConfigPolicy.init E t0 with
        store := (ConfigPolicy.init E t0).store.clear, fixed := [], timestamps := [], requiresVerification := true, config := t,
        anchors := Store.new E.isSecurityV1, dirs := [] } = (y1, r) := ⟨_, _, rfl⟩
  obtain ⟨h2, _, _, h3⟩ := loadAnchors_trace _ h1
  have h4 := loadAnchors_timestamps _ h1
  have h2 : y1.trace = [] := h2
  have h3 : y1.frames = [] := h3
  have h4 : y1.timestamps = [] := h4
  rw [h1] at hr ⊢
  cases r with
  | ok u =>
    refine ⟨⟨hr, ?_, ?_⟩, ⟨h3, ?_, ?_, ?_⟩⟩
    · rw [h4]; simp
    · rw [h3]; simp
    · rw [h4]; simp
    · rw [h2]; simp
    · rw [h2]; simp
  | error e =>
    refine ⟨⟨hr, ?_, ?_⟩, ⟨h3, ?_, ?_, ?_⟩⟩
    · show ∀ e ∈ y1.timestamps, _
      rw [h4]; simp
    · show ∀ e ∈ y1.frames, _
      rw [h3]; simp
    · show (y1.timestamps.map _).Nodup
      rw [h4]; simp
    · show ∀ id q k t, _ ∈ y1.trace ++ [_] → _
      rw [h2]; simp
    · show (y1.trace ++ [_]).Pairwise _
      rw [h2]; simp

/-- C84: if each `onVerified` returns before anything else happens, and less than `maxTrackedKeys` different keys are used, then the
command Interests with the same key that are verified have increasing timestamps: none is verified twice. -/
theorem C84_no_replay_partial (E : Env) (t : Tree) (t0 : Int) (es : List Event) (hes : SameConfig es)
    (hr : ((ConfigPolicy.init E t0).load E t).requiresVerification = true) (keys : List Str) (hk : keys.length < E.maxTrackedKeys)
    (hkeys : ∀ id q key, Ev.verified id q ∈ (ConfigPolicy.run E ((ConfigPolicy.init E t0).load E t) (prompt es)).trace →
      CommandKey E q key → key ∈ keys) :
    (ConfigPolicy.run E ((ConfigPolicy.init E t0).load E t) (prompt es)).trace.Pairwise (InOrder E) := by
  obtain ⟨h1, h2⟩ := load_sources E t t0 hr
  exact (prompt_remembers hk es (sameConfig_isLoad hes) h1 h2 hkeys).ordered

/-- C84: the first command Interest with a key that is verified has a timestamp less than `graceInterval` away from the clock. -/
theorem C84_first_use (E : Env) (t : Tree) (t0 : Int) (es : List Event) (hes : SameConfig es)
    (hr : ((ConfigPolicy.init E t0).load E t).requiresVerification = true) (e : Event) (he : ∀ c, e ≠ .load c) (l : List Ev)
    (hl : (ConfigPolicy.step E (ConfigPolicy.run E ((ConfigPolicy.init E t0).load E t) es) e).trace =
      (ConfigPolicy.run E ((ConfigPolicy.init E t0).load E t) es).trace ++ l)
    (id : Nat) (p : Packet) (hp : Ev.verified id p ∈ l) (key : Str) (ts : Nat) (hk : CommandKey E p key) (hts : CommandTime p ts)
    (hnew : ∀ i q, Ev.verified i q ∈ (ConfigPolicy.run E ((ConfigPolicy.init E t0).load E t) es).trace → ¬ CommandKey E q key) :
    (ConfigPolicy.run E ((ConfigPolicy.init E t0).load E t) es).now - E.graceInterval < ts ∧
      ts < (ConfigPolicy.run E ((ConfigPolicy.init E t0).load E t) es).now + E.graceInterval := by
  have hs := run_sources es (sameConfig_isLoad hes) (load_sources E t t0 hr).1
  exact first_use hs e (sameConfig_isLoad (es := [e]) (fun x hx => by rw [List.mem_singleton.mp hx]; exact he) e (by simp)) hl hp hk hts hnew

end PyNDN.Props
