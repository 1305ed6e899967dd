import Verif.Lemmas.NacEncryptor
import Verif.Props.Encrypted
import Verif.Props.Storage
import Verif.Props.Name
/-
C68: the encryptor of name-based access control.
-/
namespace PyNDN
namespace Nac
namespace Encryptor
open Spec.Nac
open Spec (tlv flat nonNeg opt)
open Fetch (Express)
open Storage (under)

/-! ### Retrieving the KEK -/

/-- C68: at most one Interest for the KEK is waiting for an answer. -/
theorem C68_one_interest (P : EncParams) (now bits env) (acts : List EAct) (hu : UntabledAll env acts) :
    (run P now bits env acts).outstanding.length ≤ 1 := by
  cases run_phase P now bits env acts hu with
  | idle _ _ h => rw [h]; decide
  | wait n _ _ h => rw [h]; exact Nat.le_refl _
  | nacked n a b _ _ h => rw [h]; decide
  | stopped _ _ h => rw [h]; decide

/-- What a step adds to the trace. -/
def Emitted (s : Encryptor) (a : EAct) (L : List EEv) : Prop :=
  (∀ e ∈ L, ¬ gaveUp e) ∨
  ∃ e, gaveUp e ∧ triesOf s.trace = 3 ∧ (L = [e, .callLater 60000] ∨ (L = [e] ∧ ∃ env, envOf a = some env ∧ env.errorRaises = true))

theorem fetchKek_trace (P : EncParams) (s : Encryptor) (n : Nat) (env : Env) :
    ∃ L, (s.fetchKek P n env).trace = s.trace ++ L ∧ ∀ e ∈ L, ¬ gaveUp e := by
  unfold fetchKek
  split
  · exact ⟨[.error .general], rfl, by intro e he; rw [List.mem_singleton.mp he]; rintro (h | h) <;> cases h⟩
  · dsimp only
    split
    · exact ⟨[.express _ _], rfl, by intro e he; rw [List.mem_singleton.mp he]; rintro (h | h) <;> cases h⟩
    · refine ⟨[.express s.nextId (kekInterest P), .error .general], ?_, ?_⟩
      · show (s.trace ++ [_]) ++ [_] = _
        rw [List.append_assoc]; rfl
      · intro e he
        simp only [List.mem_cons, List.not_mem_nil, or_false] at he
        rcases he with rfl | rfl <;> rintro (h | h) <;> cases h

theorem retry_trace (P : EncParams) (s : Encryptor) (env : Env) :
    ∃ L, (s.retryFetchingKek P env).trace = s.trace ++ L ∧ ∀ e ∈ L, ¬ gaveUp e := by
  unfold retryFetchingKek
  split
  · exact ⟨[], by simp, by simp⟩
  · obtain ⟨L, h1, h2⟩ := fetchKek_trace P { s with inProgress := true } 3 env
    exact ⟨L, h1, h2⟩

theorem quiet_cons {e : EEv} {L : List EEv} (h : ¬ gaveUp e) (hL : ∀ e ∈ L, ¬ gaveUp e) : ∀ x ∈ e :: L, ¬ gaveUp x := by
  intro x hx
  rcases List.mem_cons.mp hx with rfl | hx
  · exact h
  · exact hL x hx

theorem not_gaveUp {e : EEv} (h1 : e ≠ .error .kekRetrievalTimeout) (h2 : e ≠ .error .kekRetrievalFailure) : ¬ gaveUp e := by
  rintro (h | h)
  · exact h1 h
  · exact h2 h

theorem regenerate_trace (P : EncParams) (s : Encryptor) (now bits env) :
    ∃ L, (s.regenerateCk P now bits env).trace = s.trace ++ L ∧ ∀ e ∈ L, ¬ gaveUp e := by
  unfold regenerateCk
  split
  · exact ⟨[], by simp, by simp⟩
  · next v hv =>
    dsimp only
    split
    · obtain ⟨L, h1, h2⟩ := retry_trace P ({ s with ckName := P.ckPrefix ++ [ck, v], ckBits := bits }.emit (.ck (P.ckPrefix ++ [ck, v]) bits)) env
      refine ⟨.ck (P.ckPrefix ++ [ck, v]) bits :: L, ?_, quiet_cons (not_gaveUp (by simp) (by simp)) h2⟩
      rw [h1]
      show (s.trace ++ [_]) ++ L = _
      rw [List.append_assoc]; rfl
    · split
      · next full d hd =>
        refine ⟨[.ck (P.ckPrefix ++ [ck, v]) bits, .published d], ?_, quiet_cons (not_gaveUp (by simp) (by simp))
          (quiet_cons (not_gaveUp (by simp) (by simp)) (by simp))⟩
        show (s.trace ++ [_]) ++ [_] = _
        rw [List.append_assoc]; rfl
      · refine ⟨[.ck (P.ckPrefix ++ [ck, v]) bits, .error .encryptionFailure], ?_, quiet_cons (not_gaveUp (by simp) (by simp))
          (quiet_cons (not_gaveUp (by simp) (by simp)) (by simp))⟩
        show (s.trace ++ [_]) ++ [_] = _
        rw [List.append_assoc]; rfl

theorem step_trace (P : EncParams) {s : Encryptor} (h : Phase s) (a : EAct) : ∃ L, (s.step P a).trace = s.trace ++ L ∧ Emitted s a L := by
  have nil : ∃ L, s.trace = s.trace ++ L ∧ Emitted s a L := ⟨[], by simp, .inl (by simp)⟩
  cases a with
  | regenerateCk now bits env =>
    obtain ⟨L, h1, h2⟩ := regenerate_trace P s now bits env
    exact ⟨L, h1, .inl h2⟩
  | data id d env =>
    unfold step
    dsimp only
    split
    · unfold onData
      dsimp only
      split
      · next full d' hd =>
        refine ⟨[.kek d, .published d'], ?_, .inl (quiet_cons (not_gaveUp (by simp) (by simp)) (quiet_cons (not_gaveUp (by simp) (by simp)) (by simp)))⟩
        show (s.trace ++ [_]) ++ [_] = _
        rw [List.append_assoc]; rfl
      · refine ⟨[.kek d, .error .encryptionFailure], ?_, .inl (quiet_cons (not_gaveUp (by simp) (by simp)) (quiet_cons (not_gaveUp (by simp) (by simp)) (by simp)))⟩
        show (s.trace ++ [_]) ++ [_] = _
        rw [List.append_assoc]; rfl
    · exact nil
  | timeout id env =>
    unfold step
    dsimp only
    split
    · next n rest ht =>
      obtain ⟨rfl, a, b, c, e⟩ := h.take ht
      unfold onTimeout
      dsimp only
      split
      · obtain ⟨L, h1, h2⟩ := fetchKek_trace P { s with outstanding := [], pendingId := 0 } (n - 1) env
        exact ⟨L, h1, .inl h2⟩
      · split
        · next hr => exact ⟨[.error .kekRetrievalTimeout], rfl, .inr ⟨_, .inl rfl, by omega, .inr ⟨rfl, env, rfl, hr⟩⟩⟩
        · refine ⟨[.error .kekRetrievalTimeout, .callLater 60000], ?_, .inr ⟨_, .inl rfl, by omega, .inl rfl⟩⟩
          show (s.trace ++ [_]) ++ [_] = _
          rw [List.append_assoc]; rfl
    · exact nil
  | nack id env =>
    unfold step
    dsimp only
    split
    · next n rest ht =>
      obtain ⟨rfl, a, b, c, e⟩ := h.take ht
      unfold onNetworkNack
      dsimp only
      split
      · exact ⟨[.callLater 1000], rfl, .inl (quiet_cons (not_gaveUp (by simp) (by simp)) (by simp))⟩
      · split
        · next hr => exact ⟨[.error .kekRetrievalFailure], rfl, .inr ⟨_, .inr rfl, by omega, .inr ⟨rfl, env, rfl, hr⟩⟩⟩
        · refine ⟨[.error .kekRetrievalFailure, .callLater 60000], ?_, .inr ⟨_, .inr rfl, by omega, .inl rfl⟩⟩
          show (s.trace ++ [_]) ++ [_] = _
          rw [List.append_assoc]; rfl
    · exact nil
  | fire i env =>
    unfold step
    dsimp only
    split
    · next t ht =>
      unfold fire
      split
      · obtain ⟨L, h1, h2⟩ := retry_trace P { s with timers := s.timers.eraseIdx i } env
        exact ⟨L, h1, .inl h2⟩
      · next n =>
        obtain ⟨L, h1, h2⟩ := fetchKek_trace P { s with timers := s.timers.eraseIdx i } n env
        exact ⟨L, h1, .inl h2⟩
    · exact nil
  | interest name =>
    unfold step onInterest
    dsimp only
    split
    · exact ⟨[.putData _], rfl, .inl (quiet_cons (not_gaveUp (by simp) (by simp)) (by simp))⟩
    · exact nil
  | shutdown =>
    unfold step shutdown
    dsimp only
    split <;> exact nil

theorem split_append {α : Type} {t L a b : List α} {e : α} (h : t ++ L = a ++ e :: b) :
    (∃ b', t = a ++ e :: b' ∧ b = b' ++ L) ∨ ∃ a', a = t ++ a' ∧ L = a' ++ e :: b := by
  rcases List.append_eq_append_iff.mp h with ⟨a', h1, h2⟩ | ⟨c, h1, h2⟩
  · exact .inr ⟨a', h1, h2⟩
  · cases c with
    | nil => exact .inr ⟨[], by simpa using h1.symm, by simpa using h2.symm⟩
    | cons x c =>
      simp only [List.cons_append, List.cons.injEq] at h2
      obtain ⟨rfl, h2⟩ := h2
      exact .inl ⟨c, h1, h2⟩

theorem start_quiet (P : EncParams) (now bits env) : ∀ e ∈ (start P now bits env).trace, ¬ gaveUp e := by
  obtain ⟨L, h1, h2⟩ := regenerate_trace P {} now bits env
  unfold start
  rw [h1]
  exact h2

/-- C68: the encryptor asks for the KEK three times before it tells the application that there is none; and it never asks more than
three times without a KEK or a report. -/
theorem C68_three_tries (P : EncParams) (now bits env) (acts : List EAct) (hu : UntabledAll env acts) :
    triesOf (run P now bits env acts).trace ≤ 3 ∧
    ∀ a e b, (run P now bits env acts).trace = a ++ e :: b → e = .error .kekRetrievalTimeout ∨ e = .error .kekRetrievalFailure → triesOf a = 3 := by
  constructor
  · cases run_phase P now bits env acts hu with
    | idle _ _ _ _ h => omega
    | wait n _ _ _ _ h => omega
    | nacked n a b _ _ _ _ _ _ h => omega
    | stopped _ _ _ _ h => exact h
  · refine run_induction P now bits env (Q := fun acts s => UntabledAll env acts → ∀ a e b, s.trace = a ++ e :: b → gaveUp e → triesOf a = 3)
      ?_ ?_ acts hu
    · intro _ a e b he hg
      exact absurd hg (start_quiet P now bits env e (by rw [he]; simp))
    · intro acts x ih h a e b he hg
      have h' : UntabledAll env acts := ⟨h.1, fun x hx => h.2 x (List.mem_append_left _ hx)⟩
      obtain ⟨L, h1, h2⟩ := step_trace P (run_phase P now bits env acts h') x
      rw [h1] at he
      rcases split_append he with ⟨b', k1, _⟩ | ⟨a', k1, k2⟩
      · exact ih h' a e b' k1 hg
      · rcases h2 with h2 | ⟨e', g1, g2, g3 | ⟨g3, _⟩⟩
        · exact absurd hg (h2 e (by rw [k2]; simp))
        · rw [g3] at k2
          cases a' with
          | nil => rw [k1, List.append_nil]; exact g2
          | cons y a' =>
            simp only [List.cons_append, List.cons.injEq] at k2
            obtain ⟨_, k2⟩ := k2
            have : e ∈ [EEv.callLater 60000] := by rw [k2]; simp
            rw [List.mem_singleton.mp this] at hg
            rcases hg with hg | hg <;> cases hg
        · rw [g3] at k2
          cases a' with
          | nil => rw [k1, List.append_nil]; exact g2
          | cons y a' =>
            simp only [List.cons_append, List.cons.injEq] at k2
            exact absurd k2.2 (by simp)

theorem calm_untabled {env : Env} {acts : List EAct} (h : Calm env acts) : UntabledAll env acts := by
  refine ⟨by unfold Untabled; rw [h.1.1]; simp, fun a ha e he => ?_⟩
  have := (h.2 a ha).2 e he
  unfold Untabled
  rw [this.1]
  simp

/-- C68: each time that the encryptor gives up, it tells the application and schedules a new try in a minute. -/
theorem C68_retries (P : EncParams) (now bits env) (acts : List EAct) (hc : Calm env acts) (a b : List EEv) (e : EEv)
    (he : (run P now bits env acts).trace = a ++ e :: b) (hg : e = .error .kekRetrievalTimeout ∨ e = .error .kekRetrievalFailure) :
    ∃ b', b = .callLater 60000 :: b' := by
  refine run_induction P now bits env (Q := fun acts s => Calm env acts → ∀ a e b, s.trace = a ++ e :: b → gaveUp e → ∃ b', b = .callLater 60000 :: b')
      ?_ ?_ acts hc a e b he hg
  · intro _ a e b he hg
    exact absurd hg (start_quiet P now bits env e (by rw [he]; simp))
  · intro acts x ih h a e b he hg
    have h' : Calm env acts := ⟨h.1, fun x hx => h.2 x (List.mem_append_left _ hx)⟩
    obtain ⟨L, h1, h2⟩ := step_trace P (run_phase P now bits env acts (calm_untabled h')) x
    rw [h1] at he
    rcases split_append he with ⟨b', k1, k2⟩ | ⟨a', k1, k2⟩
    · obtain ⟨b'', rfl⟩ := ih h' a e b' k1 hg
      exact ⟨_, k2⟩
    · rcases h2 with h2 | ⟨e', g1, g2, g3 | ⟨g3, env', g4, g5⟩⟩
      · exact absurd hg (h2 e (by rw [k2]; simp))
      · rw [g3] at k2
        cases a' with
        | nil =>
          simp only [List.nil_append, List.cons.injEq] at k2
          exact ⟨[], k2.2.symm⟩
        | cons y a' =>
          simp only [List.cons_append, List.cons.injEq] at k2
          obtain ⟨_, k2⟩ := k2
          have : e ∈ [EEv.callLater 60000] := by rw [k2]; simp
          rw [List.mem_singleton.mp this] at hg
          rcases hg with hg | hg <;> cases hg
      · have := ((h.2 x (by simp)).2 env' g4).2
        rw [g5] at this
        cases this

/-- An Interest waits for its answer, or the next one is scheduled after a nack. -/
def Busy (s : Encryptor) : Prop := s.outstanding ≠ [] ∨ ∃ n, .fetch n ∈ s.timers

/-- A retrieval in progress is busy; and otherwise there is a KEK or a retry is scheduled. -/
def Going (s : Encryptor) : Prop := (s.inProgress = true → Busy s) ∧ (s.inProgress = false → s.kekData = none → s.timers ≠ [])

theorem fetchKek_going (P : EncParams) {s : Encryptor} {n env} (hp : s.pendingId = 0) (hi : s.inProgress = true) (he : env.express = .ok) :
    Going (s.fetchKek P n env) := by
  unfold fetchKek
  rw [if_neg (by omega)]
  dsimp only
  rw [he]
  exact ⟨fun _ => .inl (by simp), fun h => by
    have : s.inProgress = false := h
    rw [hi] at this; cases this⟩

theorem Phase.nextIdle {s : Encryptor} (h : Phase s) (hi : s.inProgress = false) : s.pendingId = 0 := by
  cases h with
  | idle _ b => exact b
  | wait n a => rw [hi] at a; cases a
  | nacked n x y a => rw [hi] at a; cases a
  | stopped a => rw [hi] at a; cases a

theorem retry_going (P : EncParams) {s : Encryptor} {env : Env} (hp : s.inProgress = false → s.pendingId = 0) (hg : s.inProgress = true → Busy s)
    (he : env.express = .ok) : Going (s.retryFetchingKek P env) := by
  unfold retryFetchingKek
  split
  · next hi => exact ⟨fun _ => hg hi, fun hf => by rw [hi] at hf; cases hf⟩
  · next hi => exact fetchKek_going P (s := { s with inProgress := true }) (n := 3) (hp (by simpa using hi)) rfl he

theorem regenerate_going (P : EncParams) {s : Encryptor} {now bits env} (hp : s.inProgress = false → s.pendingId = 0) (hg : s.inProgress = true → Busy s)
    (he : env.express = .ok) : Going (s.regenerateCk P now bits env) := by
  unfold regenerateCk
  rw [show Component.fromVersion now = .ok _ from fromNumberWithMarker_eq now 0xFD]
  dsimp only
  split
  · exact retry_going P hp hg he
  · next kd hk =>
    have hk : s.kekData = some kd := hk
    split
    · exact ⟨hg, fun _ hn => by
        have : s.kekData = none := hn
        rw [hk] at this; cases this⟩
    · exact ⟨hg, fun _ hn => by
        have : s.kekData = none := hn
        rw [hk] at this; cases this⟩

theorem mem_erase_other {l : List Timer} {i : Nat} {x y : Timer} (hi : l[i]? = some x) (hy : y ∈ l) (hne : x ≠ y) : y ∈ l.eraseIdx i := by
  rw [List.mem_eraseIdx_iff_getElem?]
  obtain ⟨j, hj⟩ := List.mem_iff_getElem?.mp hy
  refine ⟨j, ?_, hj⟩
  rintro rfl
  rw [hi] at hj
  cases hj
  exact hne rfl

/-- C68: as long as there is no KEK, the encryptor waits for an answer or has a new try scheduled. -/
theorem C68_never_stops (P : EncParams) (now bits env) (acts : List EAct) (hc : Calm env acts)
    (hk : (run P now bits env acts).kekData = none) : (run P now bits env acts).outstanding ≠ [] ∨ (run P now bits env acts).timers ≠ [] := by
  suffices Going (run P now bits env acts) by
    cases hi : (run P now bits env acts).inProgress with
    | true =>
      rcases this.1 hi with h | ⟨n, h⟩
      · exact .inl h
      · exact .inr (List.ne_nil_of_mem h)
    | false => exact .inr (this.2 hi hk)
  refine run_induction P now bits env (Q := fun acts s => Calm env acts → Going s) ?_ ?_ acts hc
  · intro h
    exact regenerate_going P (fun _ => rfl) (by intro h; cases h) h.1.1
  · intro acts x ih h
    have h' : Calm env acts := ⟨h.1, fun x hx => h.2 x (List.mem_append_left _ hx)⟩
    have hph := run_phase P now bits env acts (calm_untabled h')
    have hg := ih h'
    have hx := h.2 x (by simp)
    generalize run P now bits env acts = s at hph hg
    cases x with
    | regenerateCk now bits e => exact regenerate_going P hph.nextIdle hg.1 (hx.2 e rfl).1
    | data id d e =>
      unfold step
      dsimp only
      split
      · unfold onData
        dsimp only
        split
        · exact ⟨(fun h => by cases h), (fun _ h => by cases h)⟩
        · exact ⟨(fun h => by cases h), (fun _ h => by cases h)⟩
      · exact hg
    | timeout id e =>
      unfold step
      dsimp only
      split
      · next n rest ht =>
        obtain ⟨rfl, a, b, c, _⟩ := hph.take ht
        unfold onTimeout
        dsimp only
        split
        · exact fetchKek_going P (s := { s with outstanding := [], pendingId := 0 }) (n := n - 1) rfl a (hx.2 e rfl).1
        · rw [if_neg (by rw [(hx.2 e rfl).2]; simp)]
          exact ⟨(fun h => by cases h), fun _ _ => by simp [callLater, emit]⟩
      · exact hg
    | nack id e =>
      unfold step
      dsimp only
      split
      · next n rest ht =>
        unfold onNetworkNack
        dsimp only
        split
        · exact ⟨fun _ => .inr ⟨n - 1, by simp [callLater, emit]⟩, fun _ _ => by simp [callLater, emit]⟩
        · rw [if_neg (by rw [(hx.2 e rfl).2]; simp)]
          exact ⟨(fun h => by cases h), fun _ _ => by simp [callLater, emit]⟩
      · exact hg
    | fire i e =>
      unfold step
      dsimp only
      split
      · next t ht =>
        unfold fire
        split
        · refine retry_going P hph.nextIdle (fun hi => ?_) (hx.2 e rfl).1
          rcases hg.1 hi with h | ⟨n, h⟩
          · exact .inl h
          · exact .inr ⟨n, mem_erase_other ht h (by simp)⟩
        · next n =>
          have hmem := List.mem_of_getElem? ht
          cases hph with
          | idle a b c d e' => cases d _ hmem
          | wait n a b c d e' => cases d _ hmem
          | stopped a b c d e' => cases d _ hmem
          | nacked m x y a b => exact fetchKek_going P b a (hx.2 e rfl).1
      · exact hg
    | interest name =>
      unfold step onInterest
      dsimp only
      split
      · exact hg
      · exact hg
    | shutdown => exact absurd rfl hx.1

end Encryptor
end Nac
end PyNDN
