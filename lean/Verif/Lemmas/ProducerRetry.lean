import Verif.Lemmas.Producer
/-
How often the producer expresses an Interest again.
-/
namespace PyNDN.Producer
open EncV1 Spec.Producer
open Encrypt (pyRound)
open Group (isoComponent)
open PSync (dictGet dictSet dictDel)

structure R (P : Params) (s : St) : Prop where
  bound : ∀ tc n, sends true tc n s.out ≤ P.maxRepeat * sends false tc n s.out
  left : ∀ tc r n a, dictGet tc s.requests = some r → dictGet n r.attempts = some a →
    sends true tc n s.out + (P.maxRepeat - a) ≤ P.maxRepeat * sends false tc n s.out

variable {P : Params} {s : St}

theorem sends_snoc (again : Bool) (tc : Int) (n : Name) (tr : List Out) (o : Out) : sends again tc n (tr ++ [o]) =
    sends again tc n tr + (match o with | .sent p a => if a = again ∧ pyRound p.timeSlot = tc ∧ p.name = n then 1 else 0 | _ => 0) := by
  unfold sends
  rw [List.countP_append, List.countP_singleton]
  cases o <;> simp

theorem R.out (h : R P s) {o : Out} (ho : ∀ p a, o ≠ .sent p a) : R P { s with out := s.out ++ [o] } := by
  have : ∀ b tc n, sends b tc n (s.out ++ [o]) = sends b tc n s.out := by
    intro b tc n
    rw [sends_snoc]
    cases o with
    | sent p a => exact absurd rfl (ho p a)
    | _ => rfl
  constructor
  · intro tc n; simp only [this]; exact h.bound tc n
  · intro tc r n a h1 h2; simp only [this]; exact h.left tc r n a h1 h2

theorem R.requests (h : R P s) {rs : List (Int × KeyRequest)}
    (hr : ∀ tc r, dictGet tc rs = some r → ∃ r', dictGet tc s.requests = some r' ∧ ∀ n a, dictGet n r.attempts = some a → dictGet n r'.attempts = some a) :
    R P { s with requests := rs } := by
  refine ⟨h.bound, fun tc r n a h1 h2 => ?_⟩
  obtain ⟨r', h3, h4⟩ := hr tc r h1
  exact h.left tc r' n a h3 (h4 n a h2)

theorem R.update (h : R P s) {tc : Int} {cb : Option Nat} {r : KeyRequest} {r0 : KeyRequest} (h0 : dictGet tc s.requests = some r0) (hr : r.attempts = r0.attempts) :
    R P (updateS s tc cb r) := by
  have h1 : R P { s with requests := dictSet tc { r with count := r.count - 1 } s.requests } := by
    refine h.requests fun tc' r' hr' => ?_
    rw [Group.dictGet_set] at hr'
    by_cases e : tc' = tc
    · rw [if_pos e] at hr'; cases hr'; rw [e]; exact ⟨r0, h0, fun n a h => by rw [← hr]; exact h⟩
    · rw [if_neg e] at hr'; exact ⟨r', hr', fun _ _ h => h⟩
  unfold updateS
  cases cb with
  | none => exact h1
  | some cb =>
    dsimp only
    split
    · have := (h1.out (o := .keys cb r.keys) (fun _ _ h => by cases h)).requests (rs := dictDel tc (dictSet tc { r with count := r.count - 1 } s.requests)) ?_
      · exact this
      · intro tc' r' hr'
        rw [Group.dictGet_del] at hr'
        by_cases e : tc' = tc
        · rw [if_pos e] at hr'; nomatch hr'
        · rw [if_neg e] at hr'; exact ⟨r', hr', fun _ _ h => h⟩
    · exact h1

theorem R.first (h : R P s) {n : Name} {x : Exclude} {t : ℚ} {cb : Option Nat} {r : KeyRequest} (h0 : dictGet (pyRound t) s.requests = some r) :
    R P (sendS { s with requests := dictSet (pyRound t) { r with attempts := dictSet n 0 r.attempts } s.requests } n x t cb false) := by
  constructor
  · intro tc n'
    show sends true tc n' (s.out ++ [_]) ≤ _ * sends false tc n' (s.out ++ [_])
    rw [sends_snoc, sends_snoc]
    dsimp only
    rw [if_neg (fun h => by cases h.1), Nat.mul_add]
    exact le_trans (h.bound tc n') (Nat.le_add_right _ _)
  · intro tc r' n' a h1 h2
    show sends true tc n' (s.out ++ [_]) + _ ≤ _ * sends false tc n' (s.out ++ [_])
    rw [sends_snoc, sends_snoc]
    dsimp only
    rw [if_neg (fun h => by cases h.1), Nat.mul_add]
    by_cases e : pyRound t = tc ∧ n = n'
    · rw [if_pos ⟨rfl, e⟩]
      have := h.bound tc n'
      omega
    · rw [if_neg (fun h => e h.2)]
      have hkeep : ∃ r0, dictGet tc s.requests = some r0 ∧ dictGet n' r0.attempts = some a := by
        simp only [sendS, Group.dictGet_set] at h1
        by_cases e1 : tc = pyRound t
        · rw [if_pos e1] at h1
          cases h1
          rw [Group.dictGet_set, if_neg (fun e2 => e ⟨e1.symm, e2.symm⟩)] at h2
          exact ⟨r, by rw [e1]; exact h0, h2⟩
        · rw [if_neg e1] at h1
          exact ⟨r', h1, h2⟩
      obtain ⟨r0, k1, k2⟩ := hkeep
      have := h.left tc r0 n' a k1 k2
      omega

theorem R.again (h : R P s) {n : Name} {x : Exclude} {t : ℚ} {cb : Option Nat} {r : KeyRequest} {k : Nat} (h0 : dictGet (pyRound t) s.requests = some r)
    (hk : dictGet n r.attempts = some k) (hlt : k < P.maxRepeat) :
    R P (sendS { s with requests := dictSet (pyRound t) { r with attempts := dictSet n (k + 1) r.attempts } s.requests } n x t cb true) := by
  constructor
  · intro tc n'
    show sends true tc n' (s.out ++ [_]) ≤ _ * sends false tc n' (s.out ++ [_])
    rw [sends_snoc, sends_snoc]
    dsimp only
    rw [if_neg (c := (true = false ∧ _)) (fun h => by cases h.1), Nat.add_zero]
    by_cases e : pyRound t = tc ∧ n = n'
    · rw [if_pos ⟨rfl, e⟩]
      obtain ⟨rfl, rfl⟩ := e
      have := h.left _ r _ k h0 hk
      omega
    · rw [if_neg (fun h => e h.2)]
      exact h.bound tc n'
  · intro tc r' n' a h1 h2
    show sends true tc n' (s.out ++ [_]) + _ ≤ _ * sends false tc n' (s.out ++ [_])
    rw [sends_snoc, sends_snoc]
    dsimp only
    rw [if_neg (c := (true = false ∧ _)) (fun h => by cases h.1), Nat.add_zero]
    by_cases e : pyRound t = tc ∧ n = n'
    · rw [if_pos ⟨rfl, e⟩]
      obtain ⟨rfl, rfl⟩ := e
      simp only [sendS, Group.dictGet_set, if_true] at h1
      cases h1
      simp only [Group.dictGet_set, if_true] at h2
      cases h2
      have := h.left _ r _ k h0 hk
      omega
    · rw [if_neg (fun h => e h.2)]
      have hkeep : ∃ r0, dictGet tc s.requests = some r0 ∧ dictGet n' r0.attempts = some a := by
        simp only [sendS, Group.dictGet_set] at h1
        by_cases e1 : tc = pyRound t
        · rw [if_pos e1] at h1
          cases h1
          rw [Group.dictGet_set, if_neg (fun e2 => e ⟨e1.symm, e2.symm⟩)] at h2
          exact ⟨r, by rw [e1]; exact h0, h2⟩
        · rw [if_neg e1] at h1
          exact ⟨r', h1, h2⟩
      obtain ⟨r0, k1, k2⟩ := hkeep
      have := h.left tc r0 n' a k1 k2
      omega

theorem R.encrypt (h : R P s) {key : Bytes} {name : Name} {t : ℚ} {cb : Option Nat} {rnd : EncV1.Random} :
    Wp (encryptContentKey P key name t cb rnd) s (fun _ => R P) (R P) := by
  refine wp_encrypt (fun _ => h) (fun _ _ => h) (fun _ => h) (fun _ _ _ _ _ _ _ _ => h.out fun _ _ h => by cases h) (fun _ _ _ => h) ?_
  intro r stamp k d d' h1 _ _ _ _
  unfold packetS
  have h2 : R P { s with requests := dictSet (pyRound t) { r with keys := r.keys ++ [d'] } s.requests } := by
    refine h.requests fun tc' r' hr' => ?_
    rw [Group.dictGet_set] at hr'
    by_cases e : tc' = pyRound t
    · rw [if_pos e] at hr'; cases hr'; rw [e]; exact ⟨r, h1, fun _ _ h => h⟩
    · rw [if_neg e] at hr'; exact ⟨r', hr', fun _ _ h => h⟩
  exact h2.update (by rw [Group.dictGet_set, if_pos rfl]) rfl

theorem R.loop {t : ℚ} {cb : Option Nat} {x : Exclude} {rnd : Nat → EncV1.Random} : ∀ {ns : List Name} {i : Nat} {s : St}, R P s →
    Wp (requestKeys P t cb x rnd i ns) s (fun _ => R P) (R P) := by
  intro ns
  induction ns with
  | nil => intro i s h; exact h
  | cons n ns ih =>
    intro i s h
    unfold requestKeys
    rw [wp_bind, wp_get]
    cases hi : dictGet n s.info with
    | none => exact h
    | some info =>
      dsimp only
      by_cases hc : t < info.beginSlot ∨ t ≥ info.endSlot
      · rw [if_pos hc, wp_bind, wp_setAttempts]
        refine ⟨fun r h0 => ?_, fun _ => h⟩
        rw [wp_bind, wp_send]
        exact ih (h.first h0)
      · rw [if_neg hc, wp_bind, wp_lifted]
        refine ⟨fun b hb => ?_, fun _ _ => h⟩
        rw [wp_bind, wp_lifted]
        refine ⟨fun e he => ?_, fun _ _ => h⟩
        rw [wp_bind]
        exact h.encrypt.imp (fun _ s' h' => ih h') (fun _ x => x)

theorem R.create (h : R P s) {t : ℚ} {cb : Option Nat} {env : Env} : Wp (createContentKey P t cb env) s (fun _ => R P) (R P) := by
  unfold createContentKey
  rw [wp_bind, wp_lifted]
  refine ⟨fun st hst => ?_, fun _ _ => h⟩
  dsimp only
  rw [wp_bind, wp_hasContentKey]
  cases hK : dictGet (hour t) s.db with
  | some k => exact h
  | none =>
    rw [if_neg (by decide)]
    unfold addContentKey
    rw [wp_bind, wp_bind, wp_hasContentKey, hK, if_neg (by decide), wp_modify, wp_bind, wp_get, wp_bind, wp_setRequest, wp_bind, wp_lifted]
    have h' : R P { s with db := s.db ++ [(hour t, env.key)], requests := dictSet (pyRound t) { count := s.info.length } s.requests } := by
      refine ⟨h.bound, fun tc r n a h1 h2 => ?_⟩
      rw [Group.dictGet_set] at h1
      by_cases e : tc = pyRound t
      · rw [if_pos e] at h1; cases h1; nomatch h2
      · rw [if_neg e] at h1; exact h.left tc r n a h1 h2
    refine ⟨fun c' hc' => ?_, fun _ _ => h'⟩
    rw [wp_bind, wp_get, wp_bind]
    exact (R.loop h').imp (fun _ _ h => h) (fun _ h => h)

theorem R.produce (h : R P s) {data : Data} {t : ℚ} {content : Bytes} {env : Env} : Wp (produce P data t content env) s (fun _ => R P) (R P) := by
  unfold Producer.produce
  rw [wp_bind]
  refine h.create.imp (fun n s' h' => ?_) fun _ h => h
  rw [wp_bind, wp_getContentKey]
  refine ⟨fun key hkey => ?_, fun _ => h'⟩
  rw [wp_bind, wp_lifted]
  refine ⟨fun _ _ => ?_, fun _ _ => h'⟩
  rw [wp_bind, wp_lifted]
  refine ⟨fun _ _ => ?_, fun _ _ => h'⟩
  rw [wp_lifted]
  exact ⟨fun _ _ => h', fun _ _ => h'⟩

theorem R.nack (h : R P s) {t : ℚ} {cb : Option Nat} : Wp (handleNetworkNack t cb) s (fun _ => R P) (R P) := by
  unfold handleNetworkNack
  rw [wp_bind, wp_getRequest]
  refine ⟨fun r hr => ?_, fun _ => h⟩
  rw [wp_update]
  exact ⟨fun r' hr' => h.update hr' rfl, fun _ => h⟩

theorem R.timeout (h : R P s) {p : Pending} : Wp (handleTimeout P p) s (fun _ => R P) (R P) := by
  unfold handleTimeout
  rw [wp_bind, wp_getRequest]
  refine ⟨fun r hr => ?_, fun _ => h⟩
  cases ha : dictGet p.name r.attempts with
  | none => exact h
  | some n =>
    dsimp only
    by_cases hc : n < P.maxRepeat
    · rw [if_pos hc, wp_bind, wp_setAttempts]
      refine ⟨fun r' h0 => ?_, fun _ => h⟩
      rw [hr] at h0
      cases h0
      rw [wp_send]
      exact h.again hr ha hc
    · rw [if_neg hc]
      exact h.nack

theorem R.covering (h : R P s) {p : Pending} {d : Data} {env : Env} : Wp (handleCoveringKey P p d env) s (fun _ => R P) (R P) := by
  unfold handleCoveringKey
  rw [wp_bind, wp_getRequest]
  refine ⟨fun r hr => ?_, fun _ => h⟩
  rw [wp_bind, wp_lifted]
  refine ⟨?_, fun _ _ => h⟩
  rintro ⟨b, e⟩ h1
  dsimp only
  rw [wp_bind, wp_lifted]
  refine ⟨fun beginSlot h2 => ?_, fun _ _ => h⟩
  rw [wp_bind, wp_lifted]
  refine ⟨fun endSlot h3 => ?_, fun _ _ => h⟩
  by_cases hc : p.timeSlot ≥ endSlot
  · rw [if_pos hc, wp_bind, wp_lifted]
    refine ⟨fun x hx => ?_, fun _ _ => h⟩
    rw [wp_bind, wp_setAttempts]
    refine ⟨fun r' h0 => ?_, fun _ => h⟩
    rw [wp_send]
    exact h.first h0
  · rw [if_neg hc, wp_bind]
    refine h.encrypt.imp (fun ok s' h' => ?_) (fun _ x => x)
    cases ok with
    | false => exact h'
    | true =>
      rw [if_pos rfl, wp_bind, wp_get]
      cases hg : dictGet p.name s'.info with
      | none => exact h'
      | some i => exact ⟨h'.bound, h'.left⟩

theorem res_keeps {α : Type} {m : M α} {f : α → Res} {I : St → Prop} (h : Wp m s (fun _ => I) I) : I (m.res f s).2 := by
  unfold Wp at h
  unfold M.res
  revert h
  rcases m s with ⟨r | r, s'⟩ <;> exact fun h => h

theorem R.answer (h : R P s) (id : Nat) {f : Pending → M Unit} (hf : ∀ p s', R P s' → Wp (f p) s' (fun _ => R P) (R P)) : R P (answer id f s).2 := by
  unfold Producer.answer
  cases hp : s.pending.find? fun p => p.id = id with
  | none => exact h
  | some p => exact res_keeps (hf p _ ⟨h.bound, h.left⟩)

theorem R.step (h : R P s) (op : Op) : R P (step P s op).2 := by
  cases op with
  | create t cb env => exact res_keeps h.create
  | produce data t content env => exact res_keeps h.produce
  | data id d env =>
    refine h.answer id fun p s' h' => ?_
    rw [wp_bind, wp_modify]
    exact (h'.out fun _ _ h => by cases h).covering
  | timeout id => exact h.answer id fun p s' h' => h'.timeout
  | nack id => exact h.answer id fun p s' h' => h'.nack
  | restart => exact ⟨h.bound, fun _ _ _ _ h => nomatch h⟩

theorem R.run : ∀ {ops : List Op} {s : St}, R P s → R P (run P s ops).2
  | [], _, h => h
  | op :: ops, _, h => R.run (ops := ops) (h.step op)

end PyNDN.Producer
