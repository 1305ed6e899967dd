import Verif.Props.Producer
import Verif.Props.GroupManagerWitness
import Mathlib.Tactic.IntervalCases
/-! C77: a concrete producer that meets the hypotheses, and the cases in which the code does not do what one would expect. -/
namespace PyNDN.Producer
open Spec EncV1 Spec.Producer
open PSync (dictGet dictSet dictDel)
open _root_.PyNDN.Spec.Group (Sealed Stamp KeyOk)
open _root_.PyNDN.Spec.ExcludeRange (Ordered Plain le)

def exProducer : Params :=
  { pre := [.generic [80]]
    dataType := [.generic [100], .generic [101]]
    maxRepeat := 2
    rsa := Group.exRsa
    aes := ⟨fun key iv p => p, fun key iv p => some p⟩
    sign := fun d => .ok d }

theorem exProducer_sound : Sound exProducer where
  sign d := ⟨d, rfl, rfl, rfl, rfl⟩
  name := by unfold CanonicalName; decide

/-- 2015-08-27, 6:30. -/
def exSlot : ℚ := 1440657000000
/-- The time stamp 20150827T0h0000. -/
def exStamp (h : UInt8) : Component := .generic [50, 48, 49, 53, 48, 56, 50, 55, 84, 48, 48 + h, 48, 48, 48, 48]

theorem exStamp_ok (h : Nat) (hh : h < 10) : Stamp (exStamp (UInt8.ofNat h)) (1440633600000 + h * 3600000) ∧ IsoTime (1440633600000 + h * 3600000) := by
  refine ⟨⟨by omega, ?_⟩, by omega, by omega, by omega⟩
  interval_cases h <;> exact ⟨_, rfl, by decide +kernel⟩

/-- An E-KEY for the node `P/READ/d/E-KEY`, or `P/READ/d/e/E-KEY`. -/
def exEKey (deep : Bool) (b e : UInt8) (key : Bytes := [1]) : Data :=
  { name := [.generic [80], readC, .generic [100]] ++ (if deep then [.generic [101]] else []) ++ [eKeyC, exStamp b, exStamp e], content := some key }

theorem exSlot_ok : InYears exSlot := ⟨by decide +kernel, by decide +kernel⟩
theorem exEnv_ok : EnvOk {} := ⟨rfl, rfl, fun _ => ⟨rfl, rfl⟩⟩

theorem exEKey_ok (deep : Bool) (b e : Nat) (hb : b < 10) (he : e < 10) : EKey exProducer (exEKey deep (UInt8.ofNat b) (UInt8.ofNat e)) := by
  refine ⟨?_, Group.exKeyOk, [.generic [80], readC, .generic [100]] ++ (if deep then [.generic [101]] else []) ++ [eKeyC], exStamp (UInt8.ofNat b), exStamp (UInt8.ofNat e), _, _, ?_,
    (exStamp_ok b hb).1, (exStamp_ok e he).1, (exStamp_ok b hb).2, (exStamp_ok e he).2⟩
  · intro c hc
    unfold exEKey at hc
    dsimp only at hc
    cases deep
    · simp at hc
      rcases hc with rfl | rfl | rfl | rfl | rfl | rfl <;> exact Group.canonical_generic _
    · simp at hc
      rcases hc with rfl | rfl | rfl | rfl | rfl | rfl | rfl <;> exact Group.canonical_generic _
  · unfold exEKey
    cases deep <;> rfl

/-- A content key for 6:30.  The Interest for `P/READ/d/e` times out once; the first answer is too old; the Interest for `P/READ/d` gets a NACK. -/
def exOps : List Op :=
  [.create exSlot (some 7) {}, .timeout 0, .data 2 (exEKey true 3 5) {}, .nack 1, .data 3 (exEKey true 5 9) {}, .produce {} exSlot [1, 2, 3] {}]

theorem exOps_fine : ∀ op ∈ exOps, Fine op := by
  intro op h
  simp only [exOps, List.mem_cons, List.not_mem_nil, or_false] at h
  rcases h with rfl | rfl | rfl | rfl | rfl | rfl
  · exact ⟨exSlot_ok, exEnv_ok⟩
  · trivial
  · exact exEnv_ok
  · trivial
  · exact exEnv_ok
  · exact ⟨exSlot_ok, exEnv_ok⟩

theorem exOps_honest : ∀ op ∈ exOps, Honest exProducer op := by
  intro op h
  simp only [exOps, List.mem_cons, List.not_mem_nil, or_false] at h
  rcases h with rfl | rfl | rfl | rfl | rfl | rfl
  · trivial
  · trivial
  · exact exEKey_ok true 3 5 (by omega) (by omega)
  · trivial
  · exact exEKey_ok true 5 9 (by omega) (by omega)
  · trivial

/-- What happened, in short: what is sent, answered, the names given to onEncryptedKeys, errors. -/
inductive Short where
  | sent (id : Nat) (n : Name) (again : Bool)
  | answered (id : Nat)
  | keys (cb : Nat) (names : List Name)
  | error
  deriving DecidableEq

def short : Out → Short
  | .sent p a => .sent p.id p.name a
  | .answered p _ => .answered p.id
  | .keys cb l => .keys cb (l.map (·.name))
  | .error _ => .error

/-- `P/READ/d/E-KEY` and `P/READ/d/e/E-KEY`. -/
def exNode (deep : Bool) : Name := [.generic [80], readC, .generic [100]] ++ (if deep then [.generic [101]] else []) ++ [eKeyC]
def exCKey (h : UInt8) : Name := [.generic [80], sampleC, .generic [100], .generic [101], cKeyC, exStamp h]

example : (run exProducer (new exProducer []) exOps).2.out.map short =
    [.sent 0 (exNode true) false, .sent 1 (exNode false) false, .sent 2 (exNode true) true, .answered 2, .sent 3 (exNode true) false, .answered 3,
      .keys 7 [exCKey 6 ++ forC :: exNode true ++ [exStamp 5, exStamp 9]]] := by decide +kernel
example : (run exProducer (new exProducer []) exOps).2.pending.length = 0 := by decide +kernel
example : creations 7 (fun _ => none) exOps = 1 := by decide +kernel

/-- An E-KEY that was received and used (for C77_given_partial). -/
example : (run exProducer (new exProducer []) exOps).2.out.any (fun o => match o with
    | .answered p d => decide (p.cb = some 7) && (match lastTwo d.name with | .ok (_, c) => (match stampTime c with | .ok e => decide (p.timeSlot < e) | _ => false) | _ => false)
    | _ => false) = true := by decide +kernel

/-- The hour of the time slot of the examples. -/
example : hour (exSlot + 1234567) = hour exSlot := by decide +kernel

/-- The next hour: the E-KEY is kept in memory and used at once. -/
example : (run exProducer (new exProducer []) (exOps ++ [.create (exSlot + 3600000) (some 8) {}, .nack 4])).2.out.map short =
    (run exProducer (new exProducer []) exOps).2.out.map short ++
      [.sent 4 (exNode false) false, .keys 8 [exCKey 7 ++ forC :: exNode true ++ [exStamp 5, exStamp 9]]] := by decide +kernel

/-- The answers match (for C77_excluded and C77_next). -/
example : (run exProducer (new exProducer []) exOps).2.out.all (fun o => match o with
    | .answered p d => (p.exclude.matches (d.name.reverse.getD 1 eKeyC)) = .ok false
    | _ => true) = true := by decide +kernel

/-! ### Cases in which the code does not do what one would expect -/

/-- The signature of a received E-KEY is never looked at: whoever answers the Interest can read the content key. -/
theorem C77_unverified (P : Params) (p : Pending) (d : Data) (sig : Signature) (env : Env) :
    handleCoveringKey P p { d with signature := sig } env = handleCoveringKey P p d env := rfl

/-- Why C77_called_partial is partial: after an E-KEY that RSA cannot use, or a Data without a period in its name, onEncryptedKeys is never called, although
the other E-KEY was received; no call for this hour asks again. -/
theorem C77_lost : ∃ P, Sound P ∧ P.dataType ≠ [] ∧ ∀ d ∈ [exEKey false 5 9 [], { name := [.generic [80], readC, .generic [100], eKeyC] }],
    let ops := [Op.create exSlot (some 7) {}, .data 0 (exEKey true 5 9) {}, .data 1 d {}, .create exSlot (some 7) {}, .create exSlot (some 7) {}]
    (∀ op ∈ ops, Fine op) ∧ (run P (new P []) ops).2.pending.length = 0 ∧ calls 7 (run P (new P []) ops).2.out = 0 ∧ creations 7 (fun _ => none) ops = 1 := by
  refine ⟨exProducer, exProducer_sound, by decide, fun d hd => ⟨fun op h => ?_, ?_, ?_, ?_⟩⟩
  · simp only [List.mem_cons, List.not_mem_nil, or_false] at h
    rcases h with rfl | rfl | rfl | rfl | rfl
    · exact ⟨exSlot_ok, exEnv_ok⟩
    · exact exEnv_ok
    · exact exEnv_ok
    · exact ⟨exSlot_ok, exEnv_ok⟩
    · exact ⟨exSlot_ok, exEnv_ok⟩
  all_goals
    simp only [List.mem_cons, List.not_mem_nil, or_false] at hd
    rcases hd with rfl | rfl <;> decide +kernel

/-- With an empty data type, onEncryptedKeys is never called. -/
theorem C77_empty : (run { exProducer with dataType := [] } (new { exProducer with dataType := [] } []) [.create exSlot (some 7) {}]).2.out.map short = [] := by decide +kernel

/-- After a restart, the content key of the hour is used, but its E-KEYs are never asked for again: nobody can read. -/
theorem C77_restart : (run exProducer (new exProducer []) [.create exSlot (some 7) {}, .restart, .create exSlot (some 8) {}, .produce {} exSlot [1] {}]).2.out.map short =
    [.sent 0 (exNode true) false, .sent 1 (exNode false) false] := by decide +kernel

/-- If the Interests are not answered, onEncryptedKeys gets an empty list, and no later call for the hour tries again. -/
theorem C77_given_up : (run exProducer (new exProducer []) [.create exSlot (some 7) {}, .nack 0, .nack 1, .create exSlot (some 8) {}]).2.out.map short =
    [.sent 0 (exNode true) false, .sent 1 (exNode false) false, .keys 7 []] := by decide +kernel

/-- An E-KEY that begins exactly at the time slot is excluded by the Interests, although its period has the time slot in it. -/
theorem C77_exact : (run exProducer (new exProducer []) [.create 1440655200000 (some 7) {}]).2.pending.map (fun p => (p.timeSlot, p.exclude.matches (exStamp 6))) =
    [(1440655200000, .ok true), (1440655200000, .ok true)] := by decide +kernel

/-- An E-KEY whose period begins after the time slot is used. -/
theorem C77_early : (run exProducer (new exProducer []) [.create exSlot (some 7) {}, .nack 0, .data 1 (exEKey false 8 9) {}]).2.out.map short =
    [.sent 0 (exNode true) false, .sent 1 (exNode false) false, .answered 1, .keys 7 [exCKey 6 ++ forC :: exNode false ++ [exStamp 8, exStamp 9]]] := by decide +kernel

def packetName : Res → Option Name
  | .packet d => some d.name
  | _ => none

/-- The name of a data packet has the time rounded to the next second, but the hour of the content key is that of the time: 6:59:59.6 is named 7:00:00 and
encrypted with the key of 6 o'clock, so that packets with the same name can have different content keys. -/
theorem C77_rounded : (run exProducer (new exProducer []) [.produce {} 1440658799600 [1] {}, .produce {} 1440658800000 [1] {}]).1.map packetName =
    [some ([.generic [80], sampleC, .generic [100], .generic [101], exStamp 7, forC] ++ exCKey 6),
     some ([.generic [80], sampleC, .generic [100], .generic [101], exStamp 7, forC] ++ exCKey 7)] := by decide +kernel

end PyNDN.Producer
