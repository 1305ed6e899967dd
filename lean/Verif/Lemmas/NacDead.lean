import Verif.Lemmas.NacProvenance
/-
What the answer to an Interest of a decryptor can change.
-/
namespace PyNDN
namespace Nac
namespace Decryptor
open Spec.Nac
open Fetch (Express)
open Encrypt (EncryptedContent)
open PSync (dictGet dictSet dictGet_none dictGet_some dictGet_mem)
open KeyChain (KC get_set)

variable {P : DecParams} {M : Name → Prop} {old : Nat → Prop} {s s' s'' : Decryptor}

/-- Only the ContentKeys in `M` and the calls in `old` are concerned. -/
structure Only (M : Name → Prop) (old : Nat → Prop) (s s' : Decryptor) : Prop where
  trace : ∃ L, s'.trace = s.trace ++ L ∧ (∀ c, 0 < answers L c → old c) ∧ (∀ n b, .retrieved n b ∈ L → M n) ∧ ∀ c x, .call c x ∉ L
  entries : ∀ n, ¬ M n → dictGet n s'.entries = dictGet n s.entries
  jobs : ∀ x ∈ s'.outstanding, ¬ M (Job.ckName x.2) → x ∈ s.outstanding

theorem Only.refl (s : Decryptor) : Only M old s s :=
  ⟨⟨[], (List.append_nil _).symm, fun _ h => absurd h (Nat.lt_irrefl 0), by nofun, by nofun⟩, fun _ _ => rfl, fun _ h _ => h⟩

theorem Only.trans (h : Only M old s s') (g : Only M old s' s'') : Only M old s s'' := by
  obtain ⟨L, h1, h2, h3, h4⟩ := h.trace
  obtain ⟨L', g1, g2, g3, g4⟩ := g.trace
  refine ⟨⟨L ++ L', by rw [g1, h1, List.append_assoc], fun c hc => ?_, fun n b hm => ?_, fun c x hm => ?_⟩, fun n hn => (g.entries n hn).trans (h.entries n hn),
    fun x hx hn => h.jobs x (g.jobs x hx hn) hn⟩
  · rw [answers_append] at hc
    by_cases h0 : 0 < answers L c
    · exact h2 c h0
    · exact g2 c (by omega)
  · rcases List.mem_append.mp hm with hm | hm
    · exact h3 n b hm
    · exact g3 n b hm
  · rcases List.mem_append.mp hm with hm | hm
    · exact h4 c x hm
    · exact g4 c x hm

theorem only_of {x : Decryptor × Bool} {s' : Decryptor} {b : Bool} (e : x = (s', b)) (h : Only M old s x.1) : Only M old s s' := by
  subst e; exact h

theorem only_emit (s : Decryptor) (e : DEv) (he : ∀ c, isAnswer c e = true → old c) (hr : ∀ n b, e = .retrieved n b → M n)
    (hx : ∀ c x, e ≠ .call c x := by nofun) : Only M old s (s.emit e) := by
  refine ⟨⟨[e], rfl, fun c hc => he c ?_, fun n b hm => hr n b (List.mem_singleton.mp hm).symm,
    fun c x hm => hx c x (List.mem_singleton.mp hm).symm⟩, fun _ _ => rfl, fun _ h _ => h⟩
  rw [answers_one] at hc
  by_contra hh
  rw [if_neg hh] at hc
  exact absurd hc (Nat.lt_irrefl 0)

theorem only_error (c : Nat) (hc : old c) (code : Code) (s : Decryptor) : Only M old s (error P c code s).1 :=
  only_emit _ _ (fun c' h => by cases (of_decide_eq_true h : c = c'); exact hc) (by nofun)

theorem only_kc (s : Decryptor) (kc : KC) : Only M old s { s with kc := kc } :=
  ⟨⟨[], (List.append_nil _).symm, fun _ h => absurd h (Nat.lt_irrefl 0), by nofun, by nofun⟩, fun _ _ => rfl, fun _ h _ => h⟩

theorem updateEntry_other {n m : Name} {f : Entry → Entry} (hm : m ≠ n) : dictGet m (updateEntry n f s).entries = dictGet m s.entries := by
  unfold updateEntry
  dsimp only
  split
  · rw [get_set, if_neg hm]
  · rfl

theorem only_update {n : Name} (hn : M n) (f : Entry → Entry) (s : Decryptor) : Only M old s (updateEntry n f s) :=
  ⟨⟨[], (List.append_nil _).symm, fun _ h => absurd h (Nat.lt_irrefl 0), by nofun, by nofun⟩,
    fun m hm => updateEntry_other fun e => hm (by rw [e]; exact hn), fun _ h _ => h⟩

theorem only_tryDo {m k : Do} (h : Only M old s (m s).1) (hk : ∀ s, Only M old s (k s).1) : Only M old s (tryDo m k s).1 := by
  unfold tryDo
  split
  · next s' e => exact (only_of e h).trans (hk _)
  · next s' e => exact only_of e h

theorem only_express {n : Name} (hn : M n) {o : Nat} (ho : old o) (i : Interest) (job : Job) (hj : Job.ckName job = n) (env : Env) (s : Decryptor) :
    Only M old s (expressFor P n o i job env s).1 := by
  have h0 : ∀ l : List (Nat × Job), (∀ x ∈ l, x.2 = job) →
      Only M old s { ({ s with nextId := s.nextId + 1 }.emit (.express s.nextId i)) with outstanding := s.outstanding ++ l } := by
    intro l hl
    have h1 := only_emit (M := M) (old := old) s (.express s.nextId i) (by nofun) (by nofun)
    refine ⟨h1.trace, h1.entries, fun x hx hm => ?_⟩
    rcases List.mem_append.mp hx with hx | hx
    · exact hx
    · rw [hl x hx, hj] at hm
      exact absurd hn hm
  unfold expressFor
  dsimp only
  split
  · exact (h0 [(s.nextId, job)] fun x hx => by rw [List.mem_singleton.mp hx]).trans (only_update hn _ _)
  · next tabled _ =>
    refine (h0 (if tabled then [(s.nextId, job)] else []) fun x hx => ?_).trans (only_error _ ho _ _)
    split at hx
    · rw [List.mem_singleton.mp hx]
    · nomatch hx

theorem only_doDecrypt {c : Nat} (hc : old c) (x : EncryptedContent) (bits : Bytes) (s : Decryptor) : Only M old s (doDecrypt P c x bits s).1 := by
  unfold doDecrypt
  split
  · exact only_error _ hc _ _
  · split
    · exact only_error _ hc _ _
    · exact only_emit _ _ (fun c' h => by cases (of_decide_eq_true h : c = c'); exact hc) (by nofun)

theorem only_processPending (bits : Bytes) : ∀ (l : List (Nat × EncryptedContent)), (∀ x ∈ l, old x.1) → ∀ s, Only M old s (processPending P bits l s).1
  | [], _, s => .refl s
  | (c, x) :: l, h, s => by
    unfold processPending
    have h1 := only_doDecrypt (P := P) (M := M) (h (c, x) List.mem_cons_self) x bits s
    split
    · next s' e => exact only_of e h1
    · next s' e => exact (only_of e h1).trans (only_processPending bits l (fun y hy => h y (List.mem_cons_of_mem _ hy)) s')

/-- All who wait for the ContentKey are in `old`. -/
def Waits (old : Nat → Prop) (n : Name) (s : Decryptor) : Prop := ∀ e, dictGet n s.entries = some e → ∀ x ∈ e.pending, old x.1

theorem waits_update {n : Name} {f : Entry → Entry} (hf : ∀ e, (f e).pending = e.pending) (h : Waits old n s) : Waits old n (updateEntry n f s) := by
  intro e he
  cases hs : dictGet n s.entries with
  | none =>
    unfold updateEntry at he
    rw [hs] at he
    dsimp only at he
    rw [hs] at he
    nomatch he
  | some e0 =>
    have := (updateEntry_get (f := f) hs n).trans (if_pos rfl)
    rw [this] at he
    cases he
    rw [hf]
    exact h e0 hs

theorem only_decryptCk {n : Name} (hn : M n) {o : Nat} (ho : old o) (ck : Data) (k : Name) {s : Decryptor} (hw : Waits old n s) :
    Only M old s (decryptCk P n ck k o s).1 := by
  unfold decryptCk
  split
  · exact only_error _ ho _ _
  · exact only_error _ ho _ _
  · split
    · exact (only_kc _ _).trans (only_error _ ho _ _)
    · exact (only_kc _ _).trans (only_error _ ho _ _)
    · next p kc _ =>
      dsimp only
      split
      · exact (only_kc _ _).trans (only_error _ ho _ _)
      · next bits _ =>
        have h1 : Only M old s ((updateEntry n (fun e => { e with bits := some bits }) { s with kc := kc }).emit (.retrieved n bits)) :=
          ((only_kc s kc).trans (only_update hn _ _)).trans (only_emit _ _ (by nofun) (fun m b e => by cases e; exact hn))
        have hw1 : Waits old n ((updateEntry n (fun e => { e with bits := some bits }) { s with kc := kc }).emit (.retrieved n bits)) :=
          waits_update (s := { s with kc := kc }) (fun _ => rfl) hw
        have h2 := fun l hl => only_processPending (P := P) (M := M) (old := old) bits l hl
          ((updateEntry n (fun e => { e with bits := some bits }) { s with kc := kc }).emit (.retrieved n bits))
        have hl : ∀ x ∈ (match dictGet n ((updateEntry n (fun e => { e with bits := some bits }) { s with kc := kc }).emit (.retrieved n bits)).entries with
            | some e => e.pending | none => []), old x.1 := by
          intro x hx
          split at hx
          · next e he => exact hw1 e he x hx
          · nomatch hx
        split
        · next s' e => exact h1.trans (only_of e (h2 _ hl))
        · next s' e => exact (h1.trans (only_of e (h2 _ hl))).trans (only_update hn _ _)

theorem only_onCkData {n : Name} (hn : M n) {o : Nat} (ho : old o) (d : Data) (env : Env) {s : Decryptor} (hw : Waits old n s) :
    Only M old s (onCkData P n o d env s).1 := by
  unfold onCkData
  refine only_tryDo ?_ fun s => only_error _ ho _ _
  dsimp only
  have h0 : Only M old s (setPending n 0 s) := only_update hn _ _
  have hw0 : Waits old n (setPending n 0 s) := waits_update (fun _ => rfl) hw
  refine h0.trans ?_
  generalize setPending n 0 s = s0 at hw0 ⊢
  split
  · exact only_error _ ho _ _
  · split
    · exact (only_kc _ _).trans (only_decryptCk hn ho _ _ hw0)
    · exact (only_kc _ _).trans (only_express hn ho _ (.kdk n _ d o 3) rfl _ _)
    · exact only_kc _ _

theorem only_onKdkData {n : Name} (hn : M n) {o : Nat} (ho : old o) (p : Name) (ck d : Data) (env : Env) {s : Decryptor} (hw : Waits old n s) :
    Only M old s (onKdkData P n p ck o d env s).1 := by
  unfold onKdkData
  refine only_tryDo ?_ fun s => only_error _ ho _ _
  dsimp only
  have h0 : Only M old s (setPending n 0 s) := only_update hn _ _
  have hw0 : Waits old n (setPending n 0 s) := waits_update (fun _ => rfl) hw
  refine h0.trans ?_
  generalize setPending n 0 s = s0 at hw0 ⊢
  split
  · exact (only_kc _ _).trans (only_decryptCk hn ho _ _ hw0)
  · exact (only_kc _ _).trans (only_tryDo (only_error _ ho _ _) fun s => only_error _ ho _ _)
  · exact (only_kc _ _).trans (only_error _ ho _ _)

theorem only_cancelPending : ∀ (l : List (Nat × EncryptedContent)), (∀ x ∈ l, old x.1) → ∀ s, Only M old s (cancelPending P l s).1
  | [], _, s => .refl s
  | (c, x) :: l, h, s => by
    unfold cancelPending
    have h1 := only_error (P := P) (M := M) c (h (c, x) List.mem_cons_self) .ckRetrievalFailure s
    split
    · next s' e => exact only_of e h1
    · next s' e => exact (only_of e h1).trans (only_cancelPending l (fun y hy => h y (List.mem_cons_of_mem _ hy)) s')

theorem only_shutdownLoop : ∀ (l : List (Name × Entry)), (∀ x ∈ l, 0 < x.2.pendingId → M x.1 ∧ ∀ y ∈ x.2.pending, old y.1) → ∀ s,
    Only M old s (shutdownLoop P l s).1
  | [], _, s => .refl s
  | (n, e) :: l, h, s => by
    unfold shutdownLoop
    have ht := fun y hy => h y (List.mem_cons_of_mem _ hy)
    split
    · next hp =>
      obtain ⟨hn, ho⟩ := h (n, e) List.mem_cons_self hp
      have h1 : Only M old s { s with outstanding := s.outstanding.filter fun x => x.1 ≠ e.pendingId } :=
        ⟨⟨[], (List.append_nil _).symm, fun _ h => absurd h (Nat.lt_irrefl 0), by nofun, by nofun⟩, fun _ _ => rfl, fun x hx _ => (List.mem_filter.mp hx).1⟩
      have h2 := (h1.trans (only_update hn (fun e => { e with pendingId := 0 }) _)).trans (only_cancelPending (P := P) e.pending ho (setPending n 0 _))
      dsimp only
      split
      · next s' e => exact only_of e h2
      · next s' e => exact ((only_of e h2).trans (only_update hn _ _)).trans (only_shutdownLoop l ht _)
    · exact only_shutdownLoop l ht s

/-- No Interest is outstanding for a ContentKey that was not retrieved. -/
def Dead (n : Name) (s : Decryptor) : Prop := ∃ e, dictGet n s.entries = some e ∧ e.bits = none ∧ e.pendingId = 0

/-- The call waits for the ContentKey. -/
def Pending (n : Name) (c : Nat) (s : Decryptor) : Prop := ∃ e, dictGet n s.entries = some e ∧ c ∈ e.pending.map (·.1)

theorem Only.dead {n : Name} (h : Only M old s s') (hn : ¬ M n) (hd : Dead n s) : Dead n s' := by
  obtain ⟨e, h1, h2⟩ := hd
  exact ⟨e, (h.entries n hn).trans h1, h2⟩

theorem Only.quiet {c : Nat} (h : Only M old s s') (hc : ¬ old c) : answers s'.trace c = answers s.trace c := by
  obtain ⟨L, h1, h2, _⟩ := h.trace
  rw [h1, answers_append]
  have : ¬ 0 < answers L c := fun hh => hc (h2 c hh)
  omega

theorem dead_job {n : Name} (h : Inv P none none s) (hd : Dead n s) {id : Nat} {job : Job} (hm : (id, job) ∈ s.outstanding) : Job.ckName job ≠ n := by
  intro hj
  obtain ⟨e, h1, _, h2⟩ := hd
  obtain ⟨e', g1, g2⟩ := h.link id job hm
  rw [hj, h1] at g1
  cases g1
  have := (h.idPos _ hm).1
  omega

theorem dead_of {n : Name} (h : Inv P none none s) (ha : ∃ c x, .call c x ∈ s.trace ∧ WellFormed x ∧ ckOf x = n) (hr : ∀ b, .retrieved n b ∉ s.trace)
    (hi : ∀ id job, (id, job) ∈ s.outstanding → Job.ckName job ≠ n) : Dead n s := by
  obtain ⟨c, x, h1, h2, rfl⟩ := ha
  obtain ⟨e, he⟩ := Option.isSome_iff_exists.mp (h.listed c x h1 h2 (by nofun))
  refine ⟨e, he, ?_, ?_⟩
  · cases hb : e.bits with
    | none => rfl
    | some b => exact absurd ((h.entry _ e he).ready b hb).2.2 (hr b)
  · by_contra h0
    obtain ⟨_, _, job, _, _, g1, g2, _⟩ := (h.entry _ e he).fetching (by omega)
    exact hi _ _ g1 g2

theorem only_rest {rest : List (Nat × Job)} (h : ∀ x ∈ rest, x ∈ s.outstanding) : Only M old s { s with outstanding := rest } :=
  ⟨⟨[], (List.append_nil _).symm, fun _ h => absurd h (Nat.lt_irrefl 0), by nofun, by nofun⟩, fun _ _ => rfl, fun x hx _ => h x hx⟩

theorem Only.calls (h : Only M old s s') {c : Nat} {x : EncryptedContent} (hx : .call c x ∈ s'.trace) : .call c x ∈ s.trace := by
  obtain ⟨L, h1, _, _, h4⟩ := h.trace
  rw [h1] at hx
  rcases List.mem_append.mp hx with hx | hx
  · exact hx
  · exact absurd hx (h4 c x)

theorem owner_pending (h : Inv P none none s) {id : Nat} {job : Job} (hm : (id, job) ∈ s.outstanding) : Pending (Job.ckName job) (Job.owner job) s := by
  obtain ⟨e, he, hid⟩ := h.link id job hm
  obtain ⟨_, _, job', x, rest, f3, _, f5⟩ := (h.entry _ e he).fetching (by rw [hid]; exact (h.idPos _ hm).1)
  have : job' = job := ids_unique h.ids (by rw [← hid]; exact f3) hm
  subst this
  exact ⟨e, he, by rw [f5]; exact List.mem_cons_self⟩

theorem only_answer {a : DAct} {id : Nat} {job : Job} {rest : List (Nat × Job)} (ht : Fetch.Fetcher.take id s.outstanding = some (job, rest))
    (ha : (∃ d env, a = .data id d env) ∨ (∃ env, a = .timeout id env) ∨ a = .nack id) (hn : M (Job.ckName job)) (ho : old (Job.owner job))
    (hw : Waits old (Job.ckName job) { s with outstanding := rest }) : Only M old s (s.step P a) := by
  refine (only_rest (Fetch.take_spec ht).2.2.subset).trans ?_
  unfold step
  rcases ha with ⟨d, env, rfl⟩ | ⟨env, rfl⟩ | rfl
  · dsimp only
    rw [ht]
    cases job with
    | ck n o i => exact only_onCkData (P := P) (o := o) hn ho _ _ hw
    | kdk n p ck o i => exact only_onKdkData (P := P) (o := o) hn ho _ _ _ _ hw
  · dsimp only
    rw [ht]
    unfold onTimeout
    cases job with
    | ck n o i =>
      dsimp only
      split
      · exact (only_update hn _ _).trans (only_express (P := P) (o := o) hn ho _ (.ck n o (i - 1)) rfl _ _)
      · exact (only_update hn _ _).trans (only_error o ho _ _)
    | kdk n p ck o i =>
      dsimp only
      split
      · exact (only_update hn _ _).trans (only_express (P := P) (o := o) hn ho _ (.kdk n p ck o (i - 1)) rfl _ _)
      · exact (only_update hn _ _).trans (only_error o ho _ _)
  · dsimp only
    rw [ht]
    unfold onNetworkNack
    cases job with
    | ck n o i => exact (only_update hn _ _).trans (only_error o ho _ _)
    | kdk n p ck o i => exact (only_update hn _ _).trans (only_error o ho _ _)

/-- The answer to an Interest concerns the ContentKey that it is for, and those who wait for it. -/
theorem only_step_answer (h : Inv P none none s) {a : DAct} {id : Nat} {job : Job} {rest : List (Nat × Job)}
    (ht : Fetch.Fetcher.take id s.outstanding = some (job, rest)) (ha : (∃ d env, a = .data id d env) ∨ (∃ env, a = .timeout id env) ∨ a = .nack id) :
    Only (· = Job.ckName job) (fun c => Pending (Job.ckName job) c s) s (s.step P a) :=
  only_answer ht ha rfl (owner_pending h (Fetch.take_spec ht).1) fun e he x hx => ⟨e, he, List.mem_map.mpr ⟨x, hx, rfl⟩⟩

/-- A call concerns its own ContentKey, and itself. -/
theorem only_decrypt (x : EncryptedContent) (env : Env) (s : Decryptor) :
    Only (fun n => n = ckOf x ∧ WellFormed x) (· = s.calls) ({ s with calls := s.calls + 1 }.emit (.call s.calls x)) (decrypt P x env s).1 := by
  unfold decrypt
  dsimp only
  split
  · exact only_error (old := (· = s.calls)) _ rfl _ _
  · next ht =>
    split
    · exact only_error (old := (· = s.calls)) _ rfl _ _
    · next hi =>
      have hw : WellFormed x := ⟨Decidable.not_not.mp ht, fun hn => hi (by rw [hn]; rfl)⟩
      split
      · split
        · exact only_doDecrypt (old := (· = s.calls)) rfl _ _ _
        · exact only_update ⟨rfl, hw⟩ _ _
      · refine Only.trans (s' := { ({ s with calls := s.calls + 1 }.emit (.call s.calls x)) with
            entries := dictSet x.keyLocator.keyName { pending := [(s.calls, x)] } s.entries }) ?_
          (only_express (M := fun n => n = ckOf x ∧ WellFormed x) (old := (· = s.calls)) ⟨rfl, hw⟩ rfl _ (.ck _ s.calls 3) rfl _ _)
        refine ⟨⟨[], (List.append_nil _).symm, fun _ h => absurd h (Nat.lt_irrefl 0), by nofun, by nofun⟩, fun m hm => ?_, fun _ h _ => h⟩
        have hne : m ≠ x.keyLocator.keyName := fun e => hm ⟨e, hw⟩
        exact (get_set ..).trans (if_neg hne)

theorem decrypt_dead {x : EncryptedContent} {env : Env} (hw : WellFormed x) {e : Entry} (he : dictGet (ckOf x) s.entries = some e) (hb : e.bits = none) :
    (decrypt P x env s).1 = updateEntry (ckOf x) (fun e => { e with pending := e.pending ++ [(s.calls, x)] })
      ({ s with calls := s.calls + 1 }.emit (.call s.calls x)) := by
  unfold decrypt
  dsimp only
  rw [if_neg (fun h => h hw.1), if_neg (fun h => hw.2 (Option.isNone_iff_eq_none.mp h))]
  have he' : dictGet x.keyLocator.keyName ({ s with calls := s.calls + 1 }.emit (.call s.calls x)).entries = some e := he
  rw [he']
  dsimp only
  rw [hb]
  rfl

/-- What a step does to a dead ContentKey. -/
theorem dead_step {n : Name} (h : Inv P none none s) (hd : Dead n s) (a : DAct) :
    Dead n (s.step P a) ∧ (∀ c, Pending n c s → answers (s.step P a).trace c = answers s.trace c) ∧
    (∀ c x, .call c x ∈ (s.step P a).trace → WellFormed x → ckOf x = n → .call c x ∈ s.trace ∨ answers (s.step P a).trace c = 0) := by
  -- a step that only concerns others
  have other : ∀ {M : Name → Prop} {old : Nat → Prop}, Only M old s (s.step P a) → ¬ M n → (∀ c, Pending n c s → ¬ old c) →
      Dead n (s.step P a) ∧ (∀ c, Pending n c s → answers (s.step P a).trace c = answers s.trace c) ∧
      (∀ c x, .call c x ∈ (s.step P a).trace → WellFormed x → ckOf x = n → .call c x ∈ s.trace ∨ answers (s.step P a).trace c = 0) :=
    fun ho hn hp => ⟨ho.dead hn hd, fun c hc => ho.quiet (hp c hc), fun c x h1 _ _ => .inl (ho.calls h1)⟩
  have nothing : s.step P a = s → Dead n (s.step P a) ∧ (∀ c, Pending n c s → answers (s.step P a).trace c = answers s.trace c) ∧
      (∀ c x, .call c x ∈ (s.step P a).trace → WellFormed x → ckOf x = n → .call c x ∈ s.trace ∨ answers (s.step P a).trace c = 0) :=
    fun e => other (M := fun _ => False) (old := fun _ => False) (by rw [e]; exact Only.refl s) id (fun _ _ => id)
  have separate : ∀ {m c}, m ≠ n → Pending n c s → ¬ Pending m c s := by
    rintro m c hm ⟨e, h1, h2⟩ ⟨e', g1, g2⟩
    exact hm (h.sep _ _ _ _ c g1 h1 g2 h2)
  have answered : ∀ {id job rest}, Fetch.Fetcher.take id s.outstanding = some (job, rest) →
      ((∃ d env, a = .data id d env) ∨ (∃ env, a = .timeout id env) ∨ a = .nack id) → _ :=
    fun ht ha => other (only_step_answer h ht ha) (fun e => dead_job h hd (Fetch.take_spec ht).1 e.symm) (fun c hc => separate (dead_job h hd (Fetch.take_spec ht).1) hc)
  cases a with
  | data id d env =>
    cases ht : Fetch.Fetcher.take id s.outstanding with
    | none => exact nothing (by unfold step; dsimp only; rw [ht])
    | some r => exact answered (job := r.1) (rest := r.2) ht (.inl ⟨d, env, rfl⟩)
  | timeout id env =>
    cases ht : Fetch.Fetcher.take id s.outstanding with
    | none => exact nothing (by unfold step; dsimp only; rw [ht])
    | some r => exact answered (job := r.1) (rest := r.2) ht (.inr (.inl ⟨env, rfl⟩))
  | nack id =>
    cases ht : Fetch.Fetcher.take id s.outstanding with
    | none => exact nothing (by unfold step; dsimp only; rw [ht])
    | some r => exact answered (job := r.1) (rest := r.2) ht (.inr (.inr rfl))
  | shutdown =>
    refine other (M := fun m => ∃ e, dictGet m s.entries = some e ∧ 0 < e.pendingId) (old := fun c => ∃ m e, dictGet m s.entries = some e ∧ 0 < e.pendingId ∧ c ∈ e.pending.map (·.1))
      (only_shutdownLoop s.entries (fun x hx hp => ?_) s) ?_ ?_
    · have := dictGet_mem h.keys hx
      exact ⟨⟨x.2, this, hp⟩, fun y hy => ⟨x.1, x.2, this, hp, List.mem_map.mpr ⟨y, hy, rfl⟩⟩⟩
    · rintro ⟨e, h1, h2⟩
      obtain ⟨e', g1, _, g2⟩ := hd
      rw [h1] at g1
      cases g1
      omega
    · rintro c ⟨e, h1, h2⟩ ⟨m, e', g1, g2, g3⟩
      have := h.sep _ _ _ _ c h1 g1 h2 g3
      subst this
      obtain ⟨e'', k1, _, k2⟩ := hd
      rw [g1] at k1
      cases k1
      omega
  | decrypt x env =>
    have late : ∀ c, Pending n c s → c ≠ s.calls := by
      rintro c ⟨e, h1, h2⟩ rfl
      obtain ⟨y, hy, hc⟩ := List.mem_map.mp h2
      have := (h.called y.1).mpr ⟨y.2, ((h.entry n e h1).calls y.1 y.2 hy).1⟩
      omega
    have fresh : answers ({ s with calls := s.calls + 1 }.emit (.call s.calls x)).trace s.calls = 0 := by
      show answers (s.trace ++ [_]) _ = 0
      rw [answers_append, h.early _ (Nat.le_refl _)]
      rfl
    have same : ∀ c, answers ({ s with calls := s.calls + 1 }.emit (.call s.calls x)).trace c = answers s.trace c := by
      intro c
      show answers (s.trace ++ [_]) _ = _
      rw [answers_append]
      rfl
    by_cases hn : WellFormed x ∧ ckOf x = n
    · obtain ⟨hw, rfl⟩ := hn
      obtain ⟨e, he, hb, hp⟩ := hd
      have e0 : s.step P (.decrypt x env) = _ := decrypt_dead (P := P) (env := env) hw he hb
      rw [e0]
      refine ⟨⟨{ e with pending := e.pending ++ [(s.calls, x)] },
        (updateEntry_get (s := { s with calls := s.calls + 1 }.emit (.call s.calls x)) he _).trans (if_pos rfl), hb, hp⟩, fun c _ => same c, ?_⟩
      intro c y hy _ _
      rcases List.mem_append.mp (show DEv.call c y ∈ s.trace ++ [_] from hy) with hy | hy
      · exact .inl hy
      · cases List.mem_singleton.mp hy
        exact .inr fresh
    · have ho := only_decrypt (P := P) x env s
      have hno : ¬ (n = ckOf x ∧ WellFormed x) := fun hh => hn ⟨hh.2, hh.1.symm⟩
      refine ⟨ho.dead (s := { s with calls := s.calls + 1 }.emit (.call s.calls x)) hno hd, fun c hc => (ho.quiet (late c hc)).trans (same c), ?_⟩
      intro c y hy h1 h2
      rcases List.mem_append.mp (show DEv.call c y ∈ s.trace ++ [_] from ho.calls hy) with hy | hy
      · exact .inl hy
      · cases List.mem_singleton.mp hy
        exact absurd ⟨h1, h2⟩ hn

/-- The trace only grows. -/
theorem step_trace (P : DecParams) (a : DAct) (s : Decryptor) : ∃ L, (s.step P a).trace = s.trace ++ L := by
  have grow : ∀ {s'}, Only (fun _ => True) (fun _ => True) s s' → ∃ L, s'.trace = s.trace ++ L := fun h => ⟨h.trace.choose, h.trace.choose_spec.1⟩
  have still : s.step P a = s → ∃ L, (s.step P a).trace = s.trace ++ L := fun e => ⟨[], by rw [e, List.append_nil]⟩
  cases a with
  | decrypt x env =>
    obtain ⟨L, hL, _⟩ := (only_decrypt (P := P) x env s).trace
    exact ⟨[.call s.calls x] ++ L, by rw [← List.append_assoc]; exact hL⟩
  | data id d env =>
    cases ht : Fetch.Fetcher.take id s.outstanding with
    | none => exact still (by unfold step; dsimp only; rw [ht])
    | some r => exact grow (only_answer (job := r.1) (rest := r.2) ht (.inl ⟨d, env, rfl⟩) trivial trivial fun _ _ _ _ => trivial)
  | timeout id env =>
    cases ht : Fetch.Fetcher.take id s.outstanding with
    | none => exact still (by unfold step; dsimp only; rw [ht])
    | some r => exact grow (only_answer (job := r.1) (rest := r.2) ht (.inr (.inl ⟨env, rfl⟩)) trivial trivial fun _ _ _ _ => trivial)
  | nack id =>
    cases ht : Fetch.Fetcher.take id s.outstanding with
    | none => exact still (by unfold step; dsimp only; rw [ht])
    | some r => exact grow (only_answer (job := r.1) (rest := r.2) ht (.inr (.inr rfl)) trivial trivial fun _ _ _ _ => trivial)
  | shutdown => exact grow (only_shutdownLoop s.entries (fun _ _ _ => ⟨trivial, fun _ _ => trivial⟩) s)

theorem run_trace (P : DecParams) (acts : List DAct) : ∀ more, ∃ L, (run P (acts ++ more)).trace = (run P acts).trace ++ L := by
  intro more
  suffices ∀ (l : List DAct) (s : Decryptor), ∃ L, (l.foldl (step P) s).trace = s.trace ++ L by
    unfold run
    rw [List.foldl_append]
    exact this more _
  intro l
  induction l with
  | nil => exact fun s => ⟨[], (List.append_nil _).symm⟩
  | cons a l ih =>
    intro s
    obtain ⟨L, hL⟩ := step_trace P a s
    obtain ⟨L', hL'⟩ := ih (s.step P a)
    exact ⟨L ++ L', by rw [List.foldl_cons, hL', hL, List.append_assoc]⟩

end Decryptor
end Nac
end PyNDN
