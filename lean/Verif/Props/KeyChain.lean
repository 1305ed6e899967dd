import Verif.Lemmas.KeyExample
/-
C63 and C64: the PIB of a KeyChain is consistent, and the KeyChain tells what is in it.
-/
namespace PyNDN
namespace KeyChain
open PSync (dictGet dictSet dictDel dictGet_none dictGet_some)
open Spec
open Spec.KeyChain

variable {P : Params} {strict : Bool} {s : KC}

/-- C63: after any calls, also with the objects of removed identities and keys, the PIB is consistent. -/
theorem C63_consistent (P : Params) (ops : List Op) : Consistent (run P ops).store := (always_run P ops).1

/-- Two identities, with two keys and one key. -/
example : (run exP exOps).store.identities = [exA, exB] ∧ (run exP exOps).store.keys.length = 3 ∧ (run exP exOps).store.certs.length = 3 ∧
    (run exP exOps).store.defaultIdentity = some exA ∧ dictGet exA (run exP exOps).store.defaultKeys = some exKey := by decide +kernel

theorem identityAnswer_spec (hs : Coh P strict s) {n : Name} {h : Nat} (hl : LiveId s n h) : identityAnswer h s = (.ok (.identity n), s) := by
  obtain ⟨i, hi, hin, _⟩ := hs.id n h hl
  unfold identityAnswer
  rw [idImpl_some hi, hin]
  rfl

theorem keyAnswer_spec (hs : Coh P strict s) {k : Name} {r : Nat} (hl : LiveKey s k r) {bits : Bytes} (hb : dictGet k s.store.keys = some bits) :
    keyAnswer r s = (.ok (.key k bits), s) := by
  obtain ⟨key, hk, hf⟩ := hs.live hl
  have : key.bits = bits := by rw [hf.bits] at hb; cases hb; rfl
  unfold keyAnswer
  rw [keyImpl_some hk, hf.name, this]
  rfl

theorem keyGet_invalid (hs : Coh P strict s) {n : Name} {h : Nat} (hl : LiveId s n h) {k : Name} (hk : ¬ (isValidKeyName k = true ∧ identityOfKey k = n)) :
    keyGet P h k s = (.error (.py .value), s) := by
  obtain ⟨i, hi, hin, _⟩ := hs.id n h hl
  unfold keyGet
  rw [idImpl_some hi, hin]
  rw [check_false]
  cases hc : (isValidKeyName k && n.equals (identityOfKey k)) with
  | false => rfl
  | true =>
    obtain ⟨h1, h2⟩ := Bool.and_eq_true _ _ ▸ hc
    exact absurd ⟨h1, (equals_iff.1 h2).symm⟩ hk

theorem certGet_invalid (hs : Coh P strict s) {k : Name} {r : Nat} (hl : LiveKey s k r) {c : Name} (hc : ¬ (isCertName c = true ∧ keyOfCert c = k)) :
    certGet r c s = (.error (.py .value), s) := by
  obtain ⟨key, hk, hf⟩ := hs.live hl
  unfold certGet
  rw [keyImpl_some hk]
  cases hd : dictGet c key.certs with
  | some d =>
    obtain ⟨h1, h2⟩ := hf.certs c d hd
    exact absurd ⟨(hs.cons.cert c d h1).1, h2⟩ hc
  | none =>
    dsimp only
    rw [check_false]
    cases hcc : (isCertName c && (keyOfCert c).equals key.name) with
    | false => rfl
    | true =>
      obtain ⟨h1, h2⟩ := Bool.and_eq_true _ _ ▸ hcc
      exact absurd ⟨h1, (equals_iff.1 h2).trans hf.name⟩ hc

/-- Looking for a key by the name of its identity and its name. -/
theorem findKey_by_name (S : Sound P) (hs : Coh P strict s) (n k : Name) :
    After (do keyGet P (← getIdentity n) k) s fun x s' => Coh P strict s' ∧ Quiet s s' ∧
    match x with
    | .ok r => ∃ bits, keyIn s.store n k = .ok bits ∧ LiveKey s' k r ∧ dictGet k s'.store.keys = some bits ∧ isValidKeyName k = true
    | .error e => keyIn s.store n k = .error e := by
  refine After.bind ((getIdentity_spec hs n).mono ?_)
  rintro x s1 ⟨g1, g2, g3⟩
  unfold keyIn
  cases x with
  | error e =>
    obtain ⟨rfl, g3⟩ := g3
    exact ⟨g1, g2, by rw [if_pos g3]⟩
  | ok h =>
    rw [if_neg (not_not_intro g3.2)]
    by_cases hk : isValidKeyName k = true ∧ identityOfKey k = n
    · rw [if_neg (not_not_intro hk)]
      refine (keyGet_spec S g1 g3.1 k).mono ?_
      rintro x s2 ⟨f1, f2, f3⟩
      rw [g2.store] at f3
      refine ⟨f1, g2.trans f2, ?_⟩
      cases x with
      | error e =>
        rcases f3 with ⟨f3, _⟩ | ⟨rfl, f3⟩
        · exact absurd hk f3
        · dsimp only; rw [f3]
      | ok r =>
        obtain ⟨q1, q2, q3, ⟨bits, hb⟩, _⟩ := f3
        dsimp only
        rw [hb]
        exact ⟨bits, rfl, q1, by rw [f2.store, g2.store]; exact hb, q2⟩
    · rw [if_pos hk]
      exact After.of_eq (keyGet_invalid g1 g3.1 hk) ⟨g1, g2, rfl⟩

theorem bind_assoc_run {σ α β γ : Type} (m : M σ α) (f : α → M σ β) (g : β → M σ γ) (s : σ) : (m >>= fun a => f a >>= g) s = ((m >>= f) >>= g) s := by
  rw [bind_run, bind_run, bind_run]
  cases m s with
  | mk r s' => cases r <;> rfl

/-- The answers, from what holds for the objects. -/
theorem ask_spec (S : Sound P) (hs : Coh P strict s) (q : Query) (hq : strict = true ∨ ¬ q.aboutDefault) :
    After (ask P q) s fun x s' => x = answer s.store q ∧ Coh P strict s' ∧ Quiet s s' := by
  cases q with
  | identity n =>
    refine After.bind ((getIdentity_spec hs n).mono ?_)
    rintro x s1 ⟨g1, g2, g3⟩
    unfold answer
    dsimp only
    cases x with
    | error e => obtain ⟨rfl, g3⟩ := g3; exact ⟨by rw [if_neg g3], g1, g2⟩
    | ok h => exact After.of_eq (identityAnswer_spec g1 g3.1) ⟨by rw [if_pos g3.2], g1, g2⟩
  | key n k =>
    refine After.of_run (bind_assoc_run _ _ _ _) (After.bind ((findKey_by_name S hs n k).mono ?_))
    rintro x s1 ⟨g1, g2, g3⟩
    unfold answer
    dsimp only
    cases x with
    | error e => exact ⟨by dsimp only at g3; rw [g3]; rfl, g1, g2⟩
    | ok r =>
      obtain ⟨bits, h1, h2, h3, _⟩ := g3
      exact After.of_eq (keyAnswer_spec g1 h2 h3) ⟨by rw [h1]; rfl, g1, g2⟩
  | cert n k c =>
    refine After.of_run (bind_assoc_run _ _ _ _) (After.bind ((findKey_by_name S hs n k).mono ?_))
    rintro x s1 ⟨g1, g2, g3⟩
    unfold answer
    dsimp only
    cases x with
    | error e => exact ⟨by dsimp only at g3; rw [g3]; rfl, g1, g2⟩
    | ok r =>
      obtain ⟨bits, h1, h2, h3, _⟩ := g3
      rw [h1]
      by_cases hc : isCertName c = true ∧ keyOfCert c = k
      · refine After.bind ((certGet_spec g1 h2 c).mono ?_)
        rintro x s2 ⟨f1, f2, f3⟩
        rw [g2.store] at f3
        cases x with
        | error e =>
          rcases f3 with ⟨f3, _⟩ | ⟨rfl, f3⟩
          · exact absurd hc f3
          · refine ⟨?_, f1, g2.trans f2⟩
            show _ = if ¬ (isCertName c = true ∧ keyOfCert c = k) then _ else _
            rw [if_neg (not_not_intro hc), f3]
        | ok d =>
          refine ⟨?_, f1, g2.trans f2⟩
          show _ = if ¬ (isCertName c = true ∧ keyOfCert c = k) then _ else _
          rw [if_neg (not_not_intro hc), f3.1]
          rfl
      · refine After.bind (After.of_eq (certGet_invalid g1 h2 hc) ⟨?_, g1, g2⟩)
        show _ = if ¬ (isCertName c = true ∧ keyOfCert c = k) then _ else _
        rw [if_pos hc]
  | defaultIdentity =>
    refine After.bind ((getDefaultIdentity_spec hs).mono ?_)
    rintro x s1 ⟨g1, g2, g3⟩
    unfold answer
    dsimp only
    cases x with
    | error e => obtain ⟨rfl, g3⟩ := g3; exact ⟨by rw [g3], g1, g2⟩
    | ok h =>
      obtain ⟨n, h1, h2⟩ := g3
      exact After.of_eq (identityAnswer_spec g1 h1) ⟨by rw [h2], g1, g2⟩
  | defaultKey n =>
    have hst : strict = true := hq.resolve_right fun h => h trivial
    refine After.bind ((getIdentity_spec hs n).mono ?_)
    rintro x s1 ⟨g1, g2, g3⟩
    unfold answer
    dsimp only
    cases x with
    | error e => obtain ⟨rfl, g3⟩ := g3; exact ⟨by rw [if_pos g3], g1, g2⟩
    | ok h =>
      rw [if_neg (not_not_intro g3.2)]
      refine After.bind ((idGetDefaultKey_spec S g1 g3.1).mono ?_)
      rintro x s2 ⟨f1, f2, f3⟩
      rw [g2.store] at f3
      cases x with
      | error e => obtain ⟨rfl, f3⟩ := f3; exact ⟨by rw [f3], f1, g2.trans f2⟩
      | ok r =>
        obtain ⟨k, q1, q2, q3⟩ := f3
        obtain ⟨key, _, hf, hv, _⟩ := f1.stored q1
        refine After.of_eq (keyAnswer_spec f1 q1 hf.bits) ⟨?_, f1, g2.trans f2⟩
        have hb := hf.bits
        rw [f2.store, g2.store] at hb
        rw [q3 hst]
        dsimp only
        unfold keyIn
        rw [if_neg (not_not_intro g3.2), if_neg (not_not_intro ⟨hv, q2⟩), hb]
        rfl
  | defaultCert n k =>
    have hst : strict = true := hq.resolve_right fun h => h trivial
    refine After.of_run (bind_assoc_run _ _ _ _) (After.bind ((findKey_by_name S hs n k).mono ?_))
    rintro x s1 ⟨g1, g2, g3⟩
    unfold answer
    dsimp only
    cases x with
    | error e => exact ⟨by dsimp only at g3; rw [g3]; rfl, g1, g2⟩
    | ok r =>
      obtain ⟨bits, h1, h2, h3, _⟩ := g3
      rw [h1]
      refine After.bind ((keyGetDefaultCertificate_spec g1 h2).mono ?_)
      rintro x s2 ⟨f1, f2, f3⟩
      rw [g2.store] at f3
      cases x with
      | error e =>
        obtain ⟨rfl, f3⟩ := f3
        exact ⟨by rw [f3]; rfl, f1, g2.trans f2⟩
      | ok d =>
        obtain ⟨q1, _, q3⟩ := f3
        refine ⟨?_, f1, g2.trans f2⟩
        rw [q1]
        show _ = match dictGet d.name s.store.certs with | none => _ | some d => _
        rw [q3 hst]
        rfl

/-- C64: what a KeyChain says about identities, keys and certificates, and about the default identity, is what is in the stored
PIB; and also what it says about default keys and default certificates, if no key is deleted while another one is the default key and
no certificate is replaced by another one with the same name.  Asking changes nothing in the PIB and in the TPM. -/
theorem C64_answers (P : Params) (S : Sound P) (ops : List Op) (q : Query) (strict : Bool) (h : Disciplined strict P ops)
    (hq : strict = true ∨ ¬ q.aboutDefault) :
    (ask P q (run P ops)).1 = answer (run P ops).store q ∧
    (ask P q (run P ops)).2.store = (run P ops).store ∧ (ask P q (run P ops)).2.tpm = (run P ops).tpm := by
  obtain ⟨h1, h2, h3⟩ := ask_spec S (coh_run S ops h) q hq
  exact ⟨h1, h3.store, h3.tpm⟩

/-- C64: so a new KeyChain with the same PIB and TPM gives the same answers. -/
theorem C64_restart (P : Params) (S : Sound P) (ops : List Op) (q : Query) (strict : Bool) (h : Disciplined strict P ops)
    (hq : strict = true ∨ ¬ q.aboutDefault) :
    (ask P q (run P (ops ++ [.restart]))).1 = (ask P q (run P ops)).1 := by
  have hs := coh_run S ops h
  rw [(ask_spec S hs q hq).1, run_snoc]
  exact (ask_spec S (coh_perform S hs .restart trivial) q hq).1

/-- The hypotheses hold for a history with two identities and three keys. -/
example (q : Query) : (ask exP q (run exP exOps)).1 = answer (run exP exOps).store q := (C64_answers exP exSound exOps q true exDisciplined (.inl rfl)).1

example : answer (run exP exOps).store (.defaultKey exA) = .ok (.key exKey [1, 1]) := by decide +kernel

end KeyChain
end PyNDN
