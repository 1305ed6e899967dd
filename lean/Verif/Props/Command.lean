import Verif.Lemmas.CommandFresh
import Verif.Model.Preparer
import Verif.Props.Name
/-
C54: command Interests.
-/
namespace PyNDN.Validator
open PyNDN PyNDN.Spec.Validator

theorem length_le_of_nodup_subset {α : Type} [DecidableEq α] : ∀ (l k : List α), l.Nodup → (∀ a ∈ l, a ∈ k) →
    l.length ≤ k.length
  | [], _, _, _ => Nat.zero_le _
  | a :: l, k, hn, hs => by
    rw [List.nodup_cons] at hn
    have h1 := length_le_of_nodup_subset l (k.erase a) hn.2 (fun b hb =>
      (List.mem_erase_of_ne (by rintro rfl; exact hn.1 hb)).2 (hs b (List.mem_cons_of_mem _ hb)))
    have h2 := List.length_erase_of_mem (hs a (List.mem_cons_self ..))
    have h3 : 0 < k.length := List.length_pos_of_mem (hs a (List.mem_cons_self ..))
    simp only [List.length_cons]
    omega

/-- Accepted commands with the same key locator have increasing timestamps, in the order in which they
were given to `validate`: none is a replay, if the clock does not go back, commands of one key are
validated one after another, records live longer than twice the grace period, and there is a record for
each key. -/
theorem C54_no_replay (V : Cfg) (o : CommandOptions) (hV : V.command = some o)
    (hlife : 2 * max o.gracePeriod 0 < o.recordLifetime) (t : Int) (es : List Event)
    (hroom : o.maxRecords < 0 ∨ ∃ keys : List Name, (keys.length : Int) ≤ o.maxRecords ∧
      ∀ p ok kl ts, Event.validate p ok ∈ es → CommandIs p kl ts → kl ∈ keys)
    (hs : Sequential V (init t) es) (i j : Nat) (p q : Packet) (kl : Name) (ts ts' : Nat)
    (hi : Ev.called i p ∈ (run V (init t) es).trace) (hsi : Ev.success i ∈ (run V (init t) es).trace)
    (hj : Ev.called j q ∈ (run V (init t) es).trace) (hsj : Ev.success j ∈ (run V (init t) es).trace)
    (hp : CommandIs p kl ts) (hq : CommandIs q kl ts') (hij : i < j) : ts < ts' := by
  have hdi : Done V (run V (init t) es) i kl ts := ⟨hsi, p, hi, (recOf_command hV).2 hp⟩
  have hdj : Done V (run V (init t) es) j kl ts' := ⟨hsj, q, hj, (recOf_command hV).2 hq⟩
  rcases hroom with hneg | ⟨keys, hlen, hkeys⟩
  · exact (ci_run (P := fun _ => True) hV hlife (by intro rs _ _ h; omega) es (inv_init V t)
      (ci_init V o _ t) hs (fun _ _ _ _ _ _ => trivial)).mono i kl ts j ts' hdi hdj hij
  · refine (ci_run (P := fun n => n ∈ keys) hV hlife ?_ es (inv_init V t)
      (ci_init V o _ t) hs hkeys).mono i kl ts j ts' hdi hdj hij
    intro rs hn hall h
    have := length_le_of_nodup_subset (rs.map Record.keyName) keys hn (by
      intro a ha
      obtain ⟨r, hr, rfl⟩ := List.mem_map.1 ha
      exact hall r hr)
    rw [List.length_map] at this
    omega

/-- A command whose timestamp is not within the grace period of the clock is refused at once. -/
theorem C54_stale (V : Cfg) (o : CommandOptions) (hV : V.command = some o) (y : Sys) (p : Packet) (ok : Bool)
    (kl : Name) (ts : Nat) (hp : CommandIs p kl ts)
    (hts : (ts : Int) < y.now - max o.gracePeriod 0 ∨ y.now + max o.gracePeriod 0 < ts) :
    (step V y (.validate p ok)).trace =
      y.trace ++ [.called y.next p, .failure y.next .policyError] := by
  cases p with
  | data d => exact absurd hp id
  | interest i s =>
    have h := commandIs_parse.2 hp
    have hc : (checkOriginal V y.now y.records (.interest i s)) =
        (cleanUp o y.now y.records, .fail .policyError) := by
      unfold checkOriginal
      rw [hV]
      dsimp only
      rw [h]
      dsimp only
      unfold checkTimestamp
      rw [if_pos (by omega)]
      rfl
    simp only [step]
    unfold Sys.validate
    dsimp only
    have e1 : checkOriginal V ({ y.emit (.called y.next (.interest i s)) with next := y.next + 1 } : Sys).now
        ({ y.emit (.called y.next (.interest i s)) with next := y.next + 1 } : Sys).records (.interest i s) = _ := hc
    rw [e1]
    simp [Sys.conclude, Sys.fail, Sys.emit]

/-- An Interest that is not a command is not accepted. -/
theorem C54_not_command (V : Cfg) (o : CommandOptions) (hV : V.command = some o) (y : Sys) (i : Interest)
    (s : Except Err Bytes) (ok : Bool) (hp : ∀ kl ts, ¬ CommandIs (.interest i s) kl ts) :
    ∃ e, (step V y (.validate (.interest i s) ok)).trace = y.trace ++ [.called y.next (.interest i s), e] ∧
      ((∃ r, e = .failure y.next r) ∨ ∃ r, e = .raised y.next r) := by
  simp only [step]
  unfold Sys.validate
  dsimp only
  have hpar : ∀ x, parseCommandInterest (.interest i s) ≠ .ok x := by
    rintro ⟨kl, ts⟩ hx
    exact hp kl ts (commandIs_parse.1 hx)
  cases h : parseCommandInterest (.interest i s) with
  | ok x => exact absurd h (hpar x)
  | fail e =>
    have e1 : checkOriginal V ({ y.emit (.called y.next (.interest i s)) with next := y.next + 1 } : Sys).now
        ({ y.emit (.called y.next (.interest i s)) with next := y.next + 1 } : Sys).records (.interest i s) =
        (y.records, .fail e) := by
      unfold checkOriginal
      rw [hV]
      dsimp only
      rw [h]
      rfl
    rw [e1]
    exact ⟨.failure y.next e, by simp [Sys.conclude, Sys.fail, Sys.emit], .inl ⟨e, rfl⟩⟩
  | raise e =>
    have e1 : checkOriginal V ({ y.emit (.called y.next (.interest i s)) with next := y.next + 1 } : Sys).now
        ({ y.emit (.called y.next (.interest i s)) with next := y.next + 1 } : Sys).records (.interest i s) =
        (y.records, .raise e) := by
      unfold checkOriginal
      rw [hV]
      dsimp only
      rw [h]
      rfl
    rw [e1]
    exact ⟨.raised y.next e, by simp [Sys.conclude, Sys.emit], .inr ⟨e, rfl⟩⟩

/-- A command within the grace period, newer than the accepted commands with its key locator, is
validated as it would be without the command policy. -/
theorem C54_fresh (V : Cfg) (o : CommandOptions) (hV : V.command = some o) (t : Int) (es : List Event)
    (p : Packet) (ok : Bool) (kl : Name) (ts : Nat) (hp : CommandIs p kl ts)
    (hts : (run V (init t) es).now - max o.gracePeriod 0 ≤ ts ∧ (ts : Int) ≤ (run V (init t) es).now + max o.gracePeriod 0)
    (hnew : ∀ i q ts', Ev.called i q ∈ (run V (init t) es).trace → Ev.success i ∈ (run V (init t) es).trace →
      CommandIs q kl ts' → ts' < ts) :
    (step V (run V (init t) es) (.validate p ok)).trace =
      (step { V with command := none } (run V (init t) es) (.validate p ok)).trace := by
  have hrp := rp_run es (inv_init V t) (rp_init V t)
  generalize run V (init t) es = y at *
  refine validate_bare V y p ok (some (kl, ts)) ?_
  cases p with
  | data d => exact absurd hp id
  | interest i s =>
    have h := commandIs_parse.2 hp
    unfold checkOriginal
    rw [hV]
    dsimp only
    rw [h]
    dsimp only
    have hck : checkTimestamp o y.now (cleanUp o y.now y.records) kl ts = .ok () := by
      unfold checkTimestamp
      rw [if_neg (by omega)]
      split
      · rename_i r hr
        have hm := List.mem_of_find?_eq_some hr
        have hk := List.find?_some hr
        rw [name_equals_iff] at hk
        obtain ⟨id, hd1, q, hd2, hd3⟩ := hrp.recs r ((cleanUp_sub _).subset hm)
        have hq := (recOf_command hV).1 hd3
        rw [hk] at hq
        have := hnew id q r.timestamp hd2 hd1 hq
        rw [if_neg (by omega)]
      · rfl
    rw [hck]
    rfl

/-! ### Examples -/

/-- The SignatureInfo of an RSA signature with the key locator `/a/KEY/<k>`. -/
def exInfo (k : UInt8) : Component :=
  Component.generic [0x16, 18, 0x1b, 1, 1, 0x1c, 13, 7, 11, 8, 1, 97, 8, 3, 0x4b, 0x45, 0x59, 8, 1, k]

/-- A command `/a/c` with a timestamp below 256^2, signed with the key `k`. -/
def exCommand (ts : Nat) (k : UInt8 := 1) : Packet :=
  .interest
    { name := [comp 97, comp 99, Component.generic [UInt8.ofNat (ts / 256), UInt8.ofNat ts],
        Component.generic [1, 2, 3, 4, 5, 6, 7, 8], exInfo k, Component.generic [0x17, 2, 9, k]] }
    (.ok [9])

def exCommandV (o : CommandOptions := {}) : Cfg := { exV with command := some o }

def exKey (k : UInt8) : Name := [comp 97, keyComponent, comp k]
def exAnchors : List Event :=
  [.loadAnchor "g" (exCert [comp 97] 1 (exKey 1) 1), .loadAnchor "g" (exCert [comp 97] 2 (exKey 2) 2)]

set_option maxRecDepth 100000 in
theorem exCommand_is : CommandIs (exCommand 5000) (exKey 1) 5000 ∧ CommandIs (exCommand 5001) (exKey 1) 5001 := by
  constructor
  · exact commandIs_parse.1 (by decide +kernel)
  · exact commandIs_parse.1 (by decide +kernel)

/-- Two commands are accepted, one after the other; a replay of the first is refused. -/
def exCommands : List Event :=
  exAnchors ++ [.clock 5000, .validate (exCommand 5000) true, .resume 0, .validate (exCommand 5001) true, .resume 0,
    .validate (exCommand 5000) true, .resume 0]

set_option maxRecDepth 100000 in
example : (run (exCommandV) (init 0) exCommands).trace.map evKind =
    [(7, 0), (6, 0), (6, 0), (7, 0), (0, 0), (1, 0), (0, 1), (1, 1), (0, 2), (2, 2)] := by decide +kernel

theorem inTurn_idle {y : Sys} (h1 : y.pending = []) (h2 : y.frames = []) (p : Packet) (ok : Bool) :
    InTurn y (.validate p ok) := by
  intro kl ts _ id q ts' _ _ h
  rcases h with ⟨q, hq, _⟩ | ⟨f, hf, _⟩
  · rw [h1] at hq; cases hq
  · rw [h2] at hf; cases hf

set_option maxRecDepth 100000 in
/-- The hypotheses of `C54_no_replay` hold for these events. -/
example : Sequential (exCommandV) (init 0) exCommands := by
  refine ⟨trivial, trivial, (by decide : (0 : Int) ≤ 5000), inTurn_idle (by decide +kernel) (by decide +kernel) _ _,
    trivial, inTurn_idle (by decide +kernel) (by decide +kernel) _ _, trivial,
    inTurn_idle (by decide +kernel) (by decide +kernel) _ _, trivial, trivial⟩

set_option maxRecDepth 100000 in
/-- A fresh command of `C54_fresh`, in a state where an older command was accepted. -/
example : Ev.success 1 ∈ (step (exCommandV) (run (exCommandV) (init 0) (exCommands.take 5))
    (.validate (exCommand 5001) true)).trace := by decide +kernel

set_option maxRecDepth 100000 in
/-- If one command Interest is validated twice while its certificate is fetched, it is accepted twice:
the timestamp is compared before the fetch and recorded after it. -/
theorem C54_concurrent :
    let cert := exCert [comp 97] 2 (exKey 1) 1
    let y := run (exCommandV) (init 0) [.loadAnchor "g" (exCert [comp 97] 1 (exKey 1) 1), .clock 5000,
      .validate (exCommand 5000 2) true, .validate (exCommand 5000 2) true,
      .data 0 cert true, .resume 0, .data 0 cert true]
    Ev.called 0 (exCommand 5000 2) ∈ y.trace ∧ Ev.called 1 (exCommand 5000 2) ∈ y.trace ∧
    Ev.success 0 ∈ y.trace ∧ Ev.success 1 ∈ y.trace := by decide +kernel

set_option maxRecDepth 100000 in
/-- With more keys than records, a command is accepted twice: the commands of other keys push out its
record. -/
theorem C54_evicted :
    let y := run (exCommandV { maxRecords := 1 }) (init 0) (exAnchors ++ [.clock 5000,
      .validate (exCommand 5000) true, .resume 0, .validate (exCommand 5000 2) true, .resume 0,
      .validate (exCommand 5000) true])
    Ev.called 0 (exCommand 5000) ∈ y.trace ∧ Ev.called 2 (exCommand 5000) ∈ y.trace ∧
    Ev.success 0 ∈ y.trace ∧ Ev.success 2 ∈ y.trace := by decide +kernel

set_option maxRecDepth 100000 in
/-- If records live for only twice the grace period, a command with a timestamp in the future is
accepted twice. -/
theorem C54_lifetime :
    let y := run (exCommandV { gracePeriod := 100, recordLifetime := 200 }) (init 0) (exAnchors ++ [.clock 5000,
      .validate (exCommand 5100) true, .resume 0, .clock 5200, .validate (exCommand 5100) true])
    Ev.called 0 (exCommand 5100) ∈ y.trace ∧ Ev.called 1 (exCommand 5100) ∈ y.trace ∧
    Ev.success 0 ∈ y.trace ∧ Ev.success 1 ∈ y.trace := by decide +kernel

end PyNDN.Validator

namespace PyNDN.Command
open PyNDN

theorem bump_spec (ts last : Int) : last < bump ts last ∧ ts ≤ bump ts last ∧
    (last < ts → bump ts last = ts) ∧ bump ts last ≤ max ts (last + 1) := by
  unfold bump
  split
  · rename_i h
    obtain ⟨h1, h2, h3, h4⟩ := bump_spec (ts + 1) last
    refine ⟨h1, by omega, by omega, by omega⟩
  · exact ⟨by omega, by omega, fun _ => rfl, by omega⟩
termination_by (last + 1 - ts).toNat

/-- `name` is `before` with two more components, the first of which is the number `ts`, and the
second one is `random`. -/
def Prepared (before name : Name) (ts : Int) (random : Bytes) : Prop :=
  ∃ c, name = before ++ [c, Component.generic random] ∧ (c.toNumber : Int) = ts

theorem prepare_spec (p : Preparer) (now : Int) (random : Bytes) (name : Name)
    (h0 : -1 ≤ p.last) (h1 : now < 2 ^ 64) (h2 : p.last < 2 ^ 64 - 1) :
    ∃ n, (p.prepare now random name).2 = .ok n ∧ Prepared name n (bump now p.last) random := by
  obtain ⟨hb1, hb2, _, hb4⟩ := bump_spec now p.last
  have hnn : 0 ≤ bump now p.last := by omega
  refine ⟨name ++ [Component.generic (nonNegIntBytes (bump now p.last).toNat ++ []), Component.generic random], ?_,
    _, rfl, ?_⟩
  · unfold Preparer.prepare writeNonNegativeInteger
    simp only []
    rw [if_neg (by omega)]
    rfl
  · unfold Component.toNumber
    simp only [Component.generic, List.append_nil]
    rw [nonNegIntBytes_spec, accumulate_nonNeg _ (by omega)]
    omega

/-- Whatever the clock does, the names that one `CommandInterestPreparer` makes end with a timestamp
and the random bytes, the timestamps increase strictly, no timestamp is before its clock reading, and a
timestamp is its clock reading if this is after the earlier ones. -/
theorem C54_prepared (t : Int) (h0 : 0 ≤ t) (calls : List (Int × Bytes × Name))
    (hb : t + calls.length < 2 ^ 64) (hc : ∀ c ∈ calls, c.1 + calls.length < 2 ^ 64) :
    ∃ out : List (Int × Name), (Preparer.new t).prepareAll calls = out.map (fun x => .ok x.2) ∧
      out.length = calls.length ∧
      (∀ (k : Nat) (now : Int) (random : Bytes) (name : Name) (ts : Int) (n : Name),
        calls[k]? = some (now, random, name) → out[k]? = some (ts, n) →
        Prepared name n ts random ∧ now ≤ ts ∧ t < ts ∧
        ((∀ x ∈ t :: (out.take k).map Prod.fst, x < now) → ts = now)) ∧
      (out.map Prod.fst).Pairwise (· < ·) := by
  suffices H : ∀ (calls : List (Int × Bytes × Name)) (p : Preparer), 0 ≤ p.last →
      p.last + calls.length < 2 ^ 64 → (∀ c ∈ calls, c.1 + calls.length < 2 ^ 64) →
      ∃ out : List (Int × Name), p.prepareAll calls = out.map (fun x => .ok x.2) ∧
        out.length = calls.length ∧
        (∀ (k : Nat) (now : Int) (random : Bytes) (name : Name) (ts : Int) (n : Name),
          calls[k]? = some (now, random, name) → out[k]? = some (ts, n) →
          Prepared name n ts random ∧ now ≤ ts ∧ p.last < ts ∧
          ((∀ x ∈ p.last :: (out.take k).map Prod.fst, x < now) → ts = now)) ∧
        (out.map Prod.fst).Pairwise (· < ·) ∧ ∀ x ∈ out, p.last < x.1 by
    obtain ⟨out, h1, h2, h3, h4, _⟩ := H calls (.new t) h0 hb hc
    exact ⟨out, h1, h2, h3, h4⟩
  intro calls
  induction calls with
  | nil =>
    intro p _ _ _
    exact ⟨[], rfl, rfl, (fun k now random name ts n h => by simp at h), List.Pairwise.nil, (fun x h => by cases h)⟩
  | cons c calls ih =>
    obtain ⟨now, random, name⟩ := c
    intro p hp hb hc
    simp only [List.length_cons] at hb hc
    have hnow := hc _ (List.mem_cons_self ..)
    dsimp only at hnow
    obtain ⟨n, hn, hprep⟩ := prepare_spec p now random name (by omega) (by omega) (by omega)
    obtain ⟨hb1, hb2, hb3, hb4⟩ := bump_spec now p.last
    have hlast : (p.prepare now random name).1.last = bump now p.last := rfl
    obtain ⟨out, h1, h2, h3, h4, h5⟩ := ih (p.prepare now random name).1 (by omega) (by omega)
      (fun c hcm => by have := hc c (List.mem_cons_of_mem _ hcm); omega)
    rw [hlast] at h3 h5
    refine ⟨(bump now p.last, n) :: out, ?_, by simp [h2], ?_, ?_, ?_⟩
    · show (p.prepare now random name).2 :: (p.prepare now random name).1.prepareAll calls = _
      rw [hn, h1]
      rfl
    · intro k now' random' name' ts n' hk ho
      cases k with
      | zero =>
        simp only [List.getElem?_cons_zero, Option.some.injEq, Prod.mk.injEq] at hk ho
        obtain ⟨rfl, rfl, rfl⟩ := hk
        obtain ⟨rfl, rfl⟩ := ho
        exact ⟨hprep, hb2, hb1, fun h => hb3 (h _ (List.mem_cons_self ..))⟩
      | succ k =>
        simp only [List.getElem?_cons_succ] at hk ho
        obtain ⟨h6, h7, h8, h9⟩ := h3 k now' random' name' ts n' hk ho
        refine ⟨h6, h7, by omega, fun h => h9 (fun x hx => h x ?_)⟩
        exact List.mem_cons_of_mem _ hx
    · simp only [List.map_cons, List.pairwise_cons]
      refine ⟨?_, h4⟩
      intro x hx
      obtain ⟨y, hy, rfl⟩ := List.mem_map.1 hx
      exact h5 y hy
    · intro x hx
      rcases List.mem_cons.1 hx with rfl | hx
      · exact hb1
      · have := h5 x hx
        omega

/-- The clock stands still, and goes back. -/
example : (Preparer.new 255).prepareAll [(255, [1], []), (300, [2], []), (10, [3], [])] =
    [.ok [.generic [1, 0], .generic [1]], .ok [.generic [1, 44], .generic [2]],
     .ok [.generic [1, 45], .generic [3]]] := by decide +kernel

end PyNDN.Command
