import Verif.Spec.CommandSigner
import Verif.Props.Command
import Verif.Props.KeySign
/-
C89: command Interests from the signer to the validator.
-/
namespace PyNDN.CommandSigner
open PyNDN PyNDN.Spec PyNDN.Command PyNDN.KeyChain PyNDN.Spec.KeyChain PyNDN.Spec.CommandSigner
open _root_.PyNDN.PSync (dictGet)

variable {P : Params} {t : Int}

/-! ### The two parts of the state -/

theorem run_snoc (steps : List Step) (x : Step) : run P t (steps ++ [x]) = step P (run P t steps) x := by
  unfold run
  rw [List.foldl_append]
  rfl

theorem foldl_kc (steps : List Step) : ∀ (y : State),
    (steps.foldl (step P) y).kc = (callsFrom y.preparer steps).foldl (fun s op => (perform P op s).2) y.kc := by
  induction steps with
  | nil => exact fun _ => rfl
  | cons x xs ih =>
    intro y
    rw [List.foldl_cons, ih]
    cases x with
    | key op => rfl
    | make c =>
      simp only [step, make, callsFrom]
      cases hp : y.preparer.prepare c.clock c.random c.name with
      | mk p r =>
        cases r with
        | error e => rfl
        | ok n =>
          dsimp only
          rw [List.foldl_cons]
          congr 1
          show (signInterest P (interestOf c.canBePrefix n) c.info c.signRandom c.nonce y.kc).2 =
            (K.out (signInterest P (interestOf c.canBePrefix n) c.info c.signRandom c.nonce) .interest y.kc).2
          unfold K.out
          rw [bind_run]
          split <;> rename_i h <;> rw [h] <;> rfl

/-- The KeyChain is as after the calls in the history. -/
theorem run_kc (steps : List Step) : (run P t steps).kc = KeyChain.run P (calls t steps) := foldl_kc steps _

theorem callsFrom_append (a b : List Step) : ∀ (y : State),
    callsFrom y.preparer (a ++ b) = callsFrom y.preparer a ++ callsFrom (a.foldl (step P) y).preparer b := by
  induction a with
  | nil => exact fun _ => rfl
  | cons x xs ih =>
    intro y
    cases x with
    | key op => exact congrArg (op :: ·) (ih { y with kc := (perform P op y.kc).2 })
    | make c =>
      have h := ih (step P y (.make c))
      rw [List.foldl_cons]
      simp only [List.cons_append, callsFrom]
      have hp : (step P y (.make c)).preparer = (y.preparer.prepare c.clock c.random c.name).1 := by
        simp only [step, make]
        cases y.preparer.prepare c.clock c.random c.name with
        | mk p r => cases r <;> rfl
      rw [hp] at h
      cases hp : y.preparer.prepare c.clock c.random c.name with
      | mk p r =>
        rw [hp] at h
        cases r with
        | error e => exact h
        | ok n => exact congrArg (_ :: ·) h

theorem calls_snoc (steps : List Step) (c : Call) {n : Name} (h : ((run P t steps).preparer.prepare c.clock c.random c.name).2 = .ok n) :
    calls t (steps ++ [.make c]) = calls t steps ++ [.signInterest (interestOf c.canBePrefix n) c.info c.signRandom c.nonce] := by
  unfold calls
  have h1 := callsFrom_append (P := P) steps [.make c] ⟨.new t, {}⟩
  rw [h1]
  congr 1
  have h2 : (steps.foldl (step P) ⟨.new t, {}⟩) = run P t steps := rfl
  rw [h2]
  simp only [callsFrom]
  cases hp : (run P t steps).preparer.prepare c.clock c.random c.name with
  | mk p r =>
    rw [hp] at h
    cases h
    rfl

theorem make_last (y : State) (c : Call) : (make P y c).2.preparer.last = bump c.clock y.preparer.last := by
  have h : (y.preparer.prepare c.clock c.random c.name).1.last = bump c.clock y.preparer.last := rfl
  unfold make
  cases hp : y.preparer.prepare c.clock c.random c.name with
  | mk p r =>
    rw [hp] at h
    cases r <;> exact h

theorem step_last (y : State) (x : Step) : y.preparer.last ≤ (step P y x).preparer.last := by
  cases x with
  | key op => exact le_refl _
  | make c =>
    have h := (bump_spec c.clock y.preparer.last).1
    show _ ≤ (make P y c).2.preparer.last
    rw [make_last]
    omega

theorem foldl_last (steps : List Step) : ∀ (y : State), y.preparer.last ≤ (steps.foldl (step P) y).preparer.last := by
  induction steps with
  | nil => exact fun _ => le_refl _
  | cons x xs ih => exact fun y => le_trans (step_last y x) (ih _)

/-- The last timestamp is not far after the clock. -/
theorem foldl_bound (bound : Int) (steps : List Step) : ∀ (y : State) (m : Int), ClockBelow bound steps → bound ≤ m → y.preparer.last < m →
    (steps.foldl (step P) y).preparer.last < m + steps.length := by
  induction steps with
  | nil => intro y m _ _ h; simpa using h
  | cons x xs ih =>
    intro y m hc hm hy
    have h1 : (step P y x).preparer.last < m + 1 := by
      cases x with
      | key op => show y.preparer.last < m + 1; omega
      | make c =>
        have h := (bump_spec c.clock y.preparer.last).2.2.2
        have h2 := hc c (by simp)
        show (make P y c).2.preparer.last < m + 1
        rw [make_last]
        omega
    have h2 := ih (step P y x) (m + 1) (fun c hcm => hc c (by simp [hcm])) (by omega) h1
    rw [List.foldl_cons, List.length_cons]
    push_cast
    omega

/-! ### One call -/

theorem bind_inv {α β : Type} {m : K α} {f : α → K β} {s : KC} {b : β} (h : ((m >>= f) s).1 = .ok b) :
    ∃ a s', m s = (.ok a, s') ∧ (f a s').1 = .ok b := by
  rw [bind_run] at h
  split at h
  · rename_i a s' hm
    exact ⟨a, s', hm, h⟩
  · cases h

/-- Signing appends two components. -/
theorem sign_name {i i' : Interest} {info : SigningInfo} {random : Nat} {nonce : Nat → UInt8} {s : KC}
    (h : (signInterest P i info random nonce s).1 = .ok i') : ∃ x y, i' = { i with name := i.name ++ [x] ++ [y], nonce := none } := by
  unfold signInterest at h
  obtain ⟨⟨k, si⟩, s1, _, h⟩ := bind_inv h
  obtain ⟨encoded, s2, _, h⟩ := bind_inv h
  obtain ⟨⟨w, b, e⟩, s3, _, h⟩ := bind_inv h
  obtain ⟨sig, s4, _, h⟩ := bind_inv h
  rw [pure_run] at h
  cases h
  exact ⟨_, _, rfl⟩

theorem run_last_lt {bound : Int} {steps : List Step} (hc : ClockBelow bound steps) (ht : t < bound) :
    (run P t steps).preparer.last < bound + steps.length := foldl_bound bound steps _ bound hc (le_refl _) ht

/-- What a call makes. -/
theorem make_ok {y : State} {c : Call} {i : Interest} (h0 : -1 ≤ y.preparer.last) (h1 : c.clock < 2 ^ 64) (h2 : y.preparer.last < 2 ^ 64 - 1)
    (h : (make P y c).1 = .ok i) : ∃ ts : Nat, (ts : Int) = bump c.clock y.preparer.last ∧ IsCommandFor c ts i := by
  obtain ⟨n, hn, comp, hcn, hts⟩ := prepare_spec y.preparer c.clock c.random c.name h0 h1 h2
  unfold make at h
  cases hp : y.preparer.prepare c.clock c.random c.name with
  | mk p r =>
    rw [hp] at hn h
    cases hn
    dsimp only at h
    obtain ⟨x, z, rfl⟩ := sign_name h
    refine ⟨comp.toNumber, hts, comp, x, z, ?_, rfl⟩
    show n ++ [x] ++ [z] = _
    rw [hcn]
    simp

/-- The Interests that one signer makes have timestamps that increase strictly, and that are not before the clock, whatever the clock and
the KeyChain do, also if a call in between raises. -/
theorem C89_increasing (ht : 0 ≤ t) (steps : List Step) (bound : Int) (hb : t < bound) (hc : ClockBelow bound steps) (hs : bound + steps.length < 2 ^ 64)
    (before between after : List Step) (c c' : Call) (h : steps = before ++ .make c :: between ++ .make c' :: after) (i i' : Interest)
    (hi : (make P (run P t before) c).1 = .ok i) (hi' : (make P (run P t (before ++ .make c :: between)) c').1 = .ok i') :
    ∃ ts ts' : Nat, IsCommandFor c ts i ∧ IsCommandFor c' ts' i' ∧ t < ts ∧ c.clock ≤ ts ∧ c'.clock ≤ ts' ∧ ts < ts' := by
  have hl1 : t ≤ (run P t before).preparer.last := foldl_last before _
  have hm1 : c.clock < bound := hc c (by rw [h]; simp)
  have hm2 : c'.clock < bound := hc c' (by rw [h]; simp)
  have hu1 : (run P t before).preparer.last < bound + before.length := run_last_lt (fun x hx => hc x (by rw [h]; simp [hx])) hb
  have hu2 : (run P t (before ++ .make c :: between)).preparer.last < bound + (before ++ .make c :: between).length :=
    run_last_lt (fun x hx => hc x (by rw [h]; exact List.mem_append_left _ hx)) hb
  have hlen : (steps.length : Int) = (before ++ .make c :: between).length + 1 + after.length := by rw [h]; simp; omega
  have hlen2 : ((before ++ Step.make c :: between).length : Int) = before.length + 1 + between.length := by simp; omega
  obtain ⟨ts, h1, h2⟩ := make_ok (by omega) (by omega) (by omega) hi
  have hrun : run P t (before ++ .make c :: between) = between.foldl (step P) (make P (run P t before) c).2 := by
    unfold run
    rw [List.foldl_append, List.foldl_cons]
    rfl
  have hl2 : bump c.clock (run P t before).preparer.last ≤ (run P t (before ++ .make c :: between)).preparer.last := by
    rw [hrun, ← make_last (P := P)]
    exact foldl_last between _
  have hb1 := bump_spec c.clock (run P t before).preparer.last
  obtain ⟨ts', h3, h4⟩ := make_ok (by omega) (by omega) (by omega) hi'
  have hb2 := bump_spec c'.clock (run P t (before ++ .make c :: between)).preparer.last
  exact ⟨ts, ts', h2, h4, by omega, by omega, by omega, by omega⟩

theorem command_unique {c : Call} {ts ts' : Nat} {i r : Interest} {sg : Except Err Bytes} {kl : Name} (h : IsCommandFor c ts i) (hn : r.name = i.name)
    (hc : Spec.Validator.CommandIs (.interest r sg) kl ts') : ts' = ts := by
  obtain ⟨a, x, y, h1, h2⟩ := h
  obtain ⟨_, pre, a', n', x', y', h3, h4⟩ := hc
  rw [hn, h1] at h3
  have h5 := (List.append_inj' h3 rfl).2
  injection h5 with h5 _
  rw [← h4, ← h5, h2]

theorem interestOf_ok {b : Bool} {n : Name} (h : CanonicalName n) : InterestOk (interestOf b n) where
  name := h
  minSuffix := by intro n hn; cases hn
  maxSuffix := by
    intro n hn
    unfold interestOf at hn
    cases b <;> simp at hn
    omega
  keyLocator := Or.inl rfl
  exclude := by intro c hc; cases hc
  childSelector := by intro n hn; cases hn
  lifetime := by intro n hn; cases hn
  forwardingHint := by intro d hd; cases hd
  link := by intro b hb; cases hb
  selectedDelegation := by intro n hn; cases hn
  exclusive := by intro _; rfl

/-- With what it needs in the PIB, a call makes the command Interest, and who receives its encoding gets a command Interest, as the
policy for command Interests understands it, with the key that was asked for and the timestamp; its signature verifies with each
certificate for this key. -/
theorem C89_command (S : Sound P) (strict : Bool) (ht : 0 ≤ t) (steps : List Step) (c : Call) (bound : Int) (hb : t < bound)
    (hclock : ClockBelow bound (steps ++ [.make c])) (hs : bound + steps.length + 1 < 2 ^ 64)
    (hd : Disciplined strict P (calls t (steps ++ [.make c]))) (hcan : CanSign strict (run P t steps).kc c.info) (hn : CanonicalName c.name) :
    ∃ i ts, (make P (run P t steps) c).1 = .ok i ∧ IsCommandFor c ts i ∧ c.clock ≤ ts ∧
      ∀ rnd, ∃ wire b e, encodeInterest i rnd = .ok (wire, b, e) ∧ (wire.length < 2 ^ 64 → ∀ old extra, ∃ r,
        decodeInterest old (wire ++ extra) = .ok (r, b, e) ∧ r.name = i.name ∧
        ((ByDigest (run P t steps).kc c.info.signer ∧ ∃ sig, Validator.interestSignature r.name = .ok sig ∧ sig.info = .digest ∧
            sig.signature = some (P.sha256 (slice wire b e))) ∨
          ∃ k bits, Chosen strict (run P t steps).kc c.info.signer k ∧ dictGet k (run P t steps).kc.store.keys = some bits ∧
            Spec.Validator.CommandIs (.interest r (.ok (slice wire b e))) k ts ∧
            ∀ (V : Validator.Cfg) (cert : Validator.SData), V.verify = P.verify → cert.data.content = some bits →
              Validator.verifyInterest V r (.ok (slice wire b e)) cert = .ok true)) := by
  have hl : t ≤ (run P t steps).preparer.last := foldl_last steps _
  have hu : (run P t steps).preparer.last < bound + steps.length := run_last_lt (fun x hx => hclock x (by simp [hx])) hb
  have hck : c.clock < bound := hclock c (by simp)
  obtain ⟨n, hp, comp, hcn, hts⟩ := prepare_spec (run P t steps).preparer c.clock c.random c.name (by omega) (by omega) (by omega)
  rw [calls_snoc (P := P) steps c hp] at hd
  have hcann : CanonicalName n := by
    obtain ⟨n', hp', _⟩ := prepare_spec (run P t steps).preparer c.clock c.random c.name (by omega) (by omega) (by omega)
    have hform : ∃ bytes, n = c.name ++ [Component.generic bytes, Component.generic c.random] := by
      unfold Preparer.prepare at hp
      dsimp only at hp
      cases hw : writeNonNegativeInteger (bump c.clock (run P t steps).preparer.last) [] with
      | error e => rw [hw] at hp; cases hp
      | ok bytes => rw [hw] at hp; cases hp; exact ⟨bytes, rfl⟩
    obtain ⟨bytes, rfl⟩ := hform
    intro x hx
    rcases List.mem_append.1 hx with hx | hx
    · exact hn x hx
    · simp only [List.mem_cons, List.not_mem_nil, or_false] at hx
      rcases hx with rfl | rfl <;> trivial
  have hok : InterestOk (interestOf c.canBePrefix n) := interestOf_ok hcann
  rw [run_kc] at hcan ⊢
  obtain ⟨i, hi⟩ := (C65_signs P S strict (calls t steps) c.info c.signRandom hcan).2 _ c.nonce hd hok
  have hmake : (make P (run P t steps) c).1 = .ok i := by
    obtain ⟨i0, h1, h2, _⟩ := out_data hi
    cases h2
    unfold make
    cases hpp : (run P t steps).preparer.prepare c.clock c.random c.name with
    | mk p r =>
      rw [hpp] at hp
      cases hp
      dsimp only
      rw [run_kc]
      cases hsg : signInterest P (interestOf c.canBePrefix n) c.info c.signRandom c.nonce (KeyChain.run P (calls t steps)) with
      | mk r' kc' =>
        rw [hsg] at h1
        exact h1
  obtain ⟨ts, h1, h2⟩ := make_ok (by omega) (by omega) (by omega) hmake
  refine ⟨i, ts, hmake, h2, ?_, fun rnd => ?_⟩
  · have := (bump_spec c.clock (run P t steps).preparer.last).2.1
    omega
  · obtain ⟨_, wire, b, e, g1, g2⟩ := C65_interest P S strict (calls t steps) (interestOf c.canBePrefix n) i c.info c.signRandom c.nonce rnd hd hi hok hcan.2.2.1 hcan.2.2.2
    refine ⟨wire, b, e, g1, fun hsize old extra => ?_⟩
    obtain ⟨r, g3, g4, sig, g5, g6⟩ := g2 hsize old extra
    refine ⟨r, g3, g4, ?_⟩
    rcases g6 with ⟨k1, k2, k3⟩ | ⟨k, bits, k1, k2, k3, k4⟩
    · exact Or.inl ⟨k1, sig, g5, k2, k3⟩
    · refine Or.inr ⟨k, bits, k1, k2, ⟨?_, ?_⟩, k4⟩
      · obtain ⟨locator, q1, q2, q3⟩ := k3
        refine ⟨sig, locator, g5, ?_, q1, q2⟩
        rcases q3 with ⟨_, q3⟩ | ⟨_, q3⟩ <;> rw [q3] <;> rfl
      · obtain ⟨a, x, y, q1, q2⟩ := h2
        exact ⟨c.name, a, _, x, y, by rw [g4, q1], q2⟩

/-- A validator with the policy for command Interests passes on a command Interest that a signer made, if it is within the grace period and the
commands with this key that were accepted so far are earlier ones of this signer. -/
theorem C89_accepted (ht : 0 ≤ t) (steps : List Step) (c : Call) (bound : Int) (hb : t < bound)
    (hclock : ClockBelow bound (steps ++ [.make c])) (hs : bound + steps.length + 1 < 2 ^ 64) (i : Interest) (hi : (make P (run P t steps) c).1 = .ok i)
    (V : Validator.Cfg) (o : Validator.CommandOptions) (hV : V.command = some o) (t' : Int) (es : List Validator.Event)
    (r : Interest) (sg : Except Err Bytes) (ok : Bool) (kl : Name) (ts : Nat) (hr : r.name = i.name) (hcmd : Spec.Validator.CommandIs (.interest r sg) kl ts)
    (hts : (Validator.run V (Validator.init t') es).now - max o.gracePeriod 0 ≤ ts ∧
      (ts : Int) ≤ (Validator.run V (Validator.init t') es).now + max o.gracePeriod 0)
    (hearlier : ∀ j q ts', Validator.Ev.called j q ∈ (Validator.run V (Validator.init t') es).trace →
      Validator.Ev.success j ∈ (Validator.run V (Validator.init t') es).trace → Spec.Validator.CommandIs q kl ts' →
      ∃ c' i' r' sg', Made P t steps c' i' ∧ q = .interest r' sg' ∧ r'.name = i'.name) :
    (Validator.step V (Validator.run V (Validator.init t') es) (.validate (.interest r sg) ok)).trace =
      (Validator.step { V with command := none } (Validator.run V (Validator.init t') es) (.validate (.interest r sg) ok)).trace := by
  refine Validator.C54_fresh V o hV t' es (.interest r sg) ok kl ts hcmd hts fun j q ts' h1 h2 h3 => ?_
  obtain ⟨c', i', r', sg', ⟨before, after, h4, h5⟩, h6, h7⟩ := hearlier j q ts' h1 h2 h3
  subst h6
  obtain ⟨ts1, ts2, g1, g2, _, _, _, g3⟩ := C89_increasing (P := P) ht (steps ++ [.make c]) bound hb hclock (by simp; omega) before after [] c' c
    (by rw [h4]) i' i h5 (by rw [← h4]; exact hi)
  rw [command_unique g1 h7 h3, command_unique g2 hr hcmd]
  exact g3

/-! ### Concrete histories -/

/-- A KeyChain with two identities, then a command and another call of the KeyChain. -/
def c89Call (x : UInt8) : Call := { name := [⟨.generic, [99]⟩], clock := 5000, random := [x, 2, 3, 4, 5, 6, 7, 8] }
def c89Steps : List Step := exOps.map .key ++ [.make (c89Call 1), .key .getDefaultIdentity]

theorem c89_calls : calls 5000 (c89Steps ++ [.make (c89Call 2)]) = exOps ++ [.signInterest (interestOf true ([⟨.generic, [99]⟩] ++
    [⟨.generic, [19, 137]⟩, ⟨.generic, [1, 2, 3, 4, 5, 6, 7, 8]⟩])) {} 0 (fun _ => 0), .getDefaultIdentity, .signInterest (interestOf true ([⟨.generic, [99]⟩] ++
    [⟨.generic, [19, 138]⟩, ⟨.generic, [2, 2, 3, 4, 5, 6, 7, 8]⟩])) {} 0 (fun _ => 0)] := by
  have h1 : (Preparer.new 5000).prepare 5000 [1, 2, 3, 4, 5, 6, 7, 8] [⟨.generic, [99]⟩] =
      (⟨5001⟩, .ok ([⟨.generic, [99]⟩] ++ [⟨.generic, [19, 137]⟩, ⟨.generic, [1, 2, 3, 4, 5, 6, 7, 8]⟩])) := by decide +kernel
  have h2 : (⟨5001⟩ : Preparer).prepare 5000 [2, 2, 3, 4, 5, 6, 7, 8] [⟨.generic, [99]⟩] =
      (⟨5002⟩, .ok ([⟨.generic, [99]⟩] ++ [⟨.generic, [19, 138]⟩, ⟨.generic, [2, 2, 3, 4, 5, 6, 7, 8]⟩])) := by decide +kernel
  unfold calls c89Steps exOps c89Call
  simp only [List.map_cons, List.map_nil, List.cons_append, List.nil_append, callsFrom, h1, h2]

/-- The hypotheses of `C89_command`, `C89_increasing` and `C89_accepted`. -/
example : ClockBelow 5001 (c89Steps ++ [.make (c89Call 2)]) ∧ Disciplined true exP (calls 5000 (c89Steps ++ [.make (c89Call 2)])) ∧
    CanSign true (run exP 5000 c89Steps).kc {} ∧ CanonicalName (c89Call 2).name ∧
    (∃ i, (make exP (run exP 5000 (exOps.map .key)) (c89Call 1)).1 = .ok i) ∧ ∃ i, (make exP (run exP 5000 c89Steps) (c89Call 2)).1 = .ok i := by
  have hk : ∀ (e : (run exP 5000 c89Steps).kc.store = (KeyChain.run exP exOps).store), CanSign true (run exP 5000 c89Steps).kc {} := by
    intro e
    obtain ⟨h1, h2, h3, h4⟩ := exCanSign
    refine ⟨?_, h2, h3, fun k hk => h4 k ?_⟩
    · intro n hn
      rw [e] at hn ⊢
      exact h1 n hn
    · obtain ⟨n, q1, q2⟩ := hk
      refine ⟨n, ?_, ?_⟩
      · rw [← e]; exact q1
      · unfold DefaultKeyIs at q2 ⊢
        rw [← e]
        exact q2
  refine ⟨fun c hc => ?_, ?_, hk (by decide +kernel), fun c hc => ?_, ?_, ?_⟩
  · simp only [c89Steps, exOps, List.map_cons, List.map_nil, List.cons_append, List.nil_append, List.mem_cons, List.not_mem_nil, or_false, reduceCtorEq,
      false_or, Step.make.injEq] at hc
    rcases hc with rfl | rfl <;> decide
  · rw [c89_calls]
    have g1 : ∀ i, Disciplined true exP (exOps ++ [.signInterest i {} 0 fun _ => 0]) := fun i => disciplined_add exDisciplined trivial
    have g2 : ∀ i, Disciplined true exP (exOps ++ [.signInterest i {} 0 fun _ => 0] ++ [.getDefaultIdentity]) := fun i => disciplined_add (g1 i) trivial
    have g3 : ∀ i j, Disciplined true exP (exOps ++ [.signInterest i {} 0 fun _ => 0] ++ [.getDefaultIdentity] ++ [.signInterest j {} 0 fun _ => 0]) :=
      fun i j => disciplined_add (g2 i) trivial
    have h := g3 (interestOf true ([⟨.generic, [99]⟩] ++ [⟨.generic, [19, 137]⟩, ⟨.generic, [1, 2, 3, 4, 5, 6, 7, 8]⟩]))
      (interestOf true ([⟨.generic, [99]⟩] ++ [⟨.generic, [19, 138]⟩, ⟨.generic, [2, 2, 3, 4, 5, 6, 7, 8]⟩]))
    rw [List.append_assoc, List.append_assoc] at h
    exact h
  · rw [List.mem_singleton.1 hc]; trivial
  · exact ⟨_, (by decide +kernel : (make exP (run exP 5000 (exOps.map .key)) (c89Call 1)).1 =
      .ok (match (make exP (run exP 5000 (exOps.map .key)) (c89Call 1)).1 with | .ok i => i | .error _ => {}))⟩
  · exact ⟨_, (by decide +kernel : (make exP (run exP 5000 c89Steps) (c89Call 2)).1 =
      .ok (match (make exP (run exP 5000 c89Steps) (c89Call 2)).1 with | .ok i => i | .error _ => {}))⟩

def c89Interest : Interest := match (make exP (run exP 5000 c89Steps) (c89Call 2)).1 with | .ok i => i | .error _ => {}
def c89Sig : Signature := match Validator.interestSignature c89Interest.name with | .ok s => s | .error _ => {}

theorem c89_commandIs : Spec.Validator.CommandIs (.interest c89Interest (.ok [])) exKey 5002 := by
  have h : c89Interest.name = [⟨.generic, [99]⟩] ++ [⟨.generic, [19, 138]⟩, ⟨.generic, [2, 2, 3, 4, 5, 6, 7, 8]⟩,
      c89Interest.name.getD 3 ⟨.generic, []⟩, c89Interest.name.getD 4 ⟨.generic, []⟩] := by decide +kernel
  refine ⟨⟨c89Sig, { type := some 1, keyName := exKey }, by unfold c89Sig; decide +kernel, by decide +kernel, rfl, rfl⟩, _, _, _, _, _, h, by decide +kernel⟩

/-- The hypotheses of `C89_accepted` for the second command; the first may have been accepted or not. -/
example (es : List Validator.Event) (ok : Bool) (hnow : (Validator.run (Validator.exCommandV) (Validator.init 0) es).now = 5100)
    (h : ∀ j q ts', Validator.Ev.called j q ∈ (Validator.run (Validator.exCommandV) (Validator.init 0) es).trace →
      Validator.Ev.success j ∈ (Validator.run (Validator.exCommandV) (Validator.init 0) es).trace → Spec.Validator.CommandIs q exKey ts' →
      ∃ c' i' r' sg', Made exP 5000 c89Steps c' i' ∧ q = .interest r' sg' ∧ r'.name = i'.name) :=
  C89_accepted (P := exP) (t := 5000) (by omega) c89Steps (c89Call 2) 5001 (by omega) (by
    intro c hc
    simp only [c89Steps, exOps, List.map_cons, List.map_nil, List.cons_append, List.nil_append, List.mem_cons, List.not_mem_nil, or_false, reduceCtorEq,
      false_or, Step.make.injEq] at hc
    rcases hc with rfl | rfl <;> decide) (by decide) c89Interest (by unfold c89Interest; decide +kernel) Validator.exCommandV {} rfl 0 es c89Interest (.ok []) ok exKey 5002
    rfl c89_commandIs (by rw [hnow]; decide) h

/-- Two signers for the same key do not know of each other: made at the same time, they use the same timestamps, so that the second command is
not accepted after the first. -/
theorem C89_two_signers (ht : 0 ≤ t) (hb : t < 2 ^ 64 - 1) (s s' : KC) (c c' : Call) (hc : c.clock ≤ t) (hc' : c'.clock ≤ t) (i i' : Interest)
    (hi : (make P ⟨.new t, s⟩ c).1 = .ok i) (hi' : (make P ⟨.new t, s'⟩ c').1 = .ok i') :
    ∃ ts, IsCommandFor c ts i ∧ IsCommandFor c' ts i' := by
  have hn : ∀ s, (⟨.new t, s⟩ : State).preparer.last = t := fun _ => rfl
  obtain ⟨ts, h1, h2⟩ := make_ok (by rw [hn]; omega) (by omega) (by rw [hn]; omega) hi
  obtain ⟨ts', h3, h4⟩ := make_ok (by rw [hn]; omega) (by omega) (by rw [hn]; omega) hi'
  rw [hn] at h1 h3
  have b1 := bump_spec c.clock t
  have b2 := bump_spec c'.clock t
  have : ts = ts' := by omega
  subst this
  exact ⟨ts, h2, h4⟩

end PyNDN.CommandSigner
