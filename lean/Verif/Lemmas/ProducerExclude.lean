import Verif.Lemmas.ProducerFull
/-
What the Interests of the producer exclude.
-/
namespace PyNDN.Producer
open Spec EncV1 Spec.Producer
open Encrypt (pyRound)
open Group (isoComponent)
open PSync (dictGet dictSet dictDel)
open _root_.PyNDN.Spec.Group (Sealed Stamp KeyOk)
open _root_.PyNDN.Spec.ExcludeRange (Ordered Plain le)

/-- The exclude of an Interest. -/
def ExOk (trace : List Out) (p : Pending) : Prop := Ordered p.exclude ∧ ∀ c, Plain c → Excluded p.exclude c → MayExclude trace p c

structure X (s : St) : Prop where
  sent : ∀ p a, Out.sent p a ∈ s.out → ExOk s.out p
  pend : ∀ p ∈ s.pending, ExOk s.out p

/-- As long as the answers match. -/
def XM (s : St) : Prop := Matched s.out → X s

theorem ExOk.mono {tr tr' : List Out} {p : Pending} (h : ExOk tr p) (ht : ∀ o ∈ tr, o ∈ tr') : ExOk tr' p := by
  refine ⟨h.1, fun c hc he => ?_⟩
  rcases h.2 c hc he with h1 | ⟨q, d, rest, c1, c2, e, h1, h2⟩
  · exact .inl h1
  · exact .inr ⟨q, d, rest, c1, c2, e, ht _ h1, h2⟩

theorem _root_.PyNDN.Spec.Producer.Matched.sub {tr tr' : List Out} (h : Matched tr') (ht : ∀ o ∈ tr, o ∈ tr') : Matched tr := fun p d hp => h p d (ht _ hp)

variable {P : Params} {s : St}

theorem XM.congr (h : XM s) {s' : St} (ho : s'.out = s.out) (hp : s'.pending = s.pending) : XM s' := by
  intro hm
  rw [ho] at hm
  obtain ⟨h1, h2⟩ := h hm
  exact ⟨by rw [ho]; exact h1, by rw [ho, hp]; exact h2⟩

theorem XM.out (h : XM s) {o : Out} (ho : ∀ p a, o ≠ .sent p a) {s' : St} (hs : s'.out = s.out ++ [o]) (hp : s'.pending = s.pending) : XM s' := by
  intro hm
  have ht : ∀ x ∈ s.out, x ∈ s'.out := fun x hx => by rw [hs]; exact List.mem_append_left _ hx
  obtain ⟨h1, h2⟩ := h (hm.sub ht)
  refine ⟨fun p a hpa => ?_, fun p hpp => ?_⟩
  · rw [hs] at hpa
    rcases List.mem_append.mp hpa with hpa | hpa
    · exact (h1 p a hpa).mono ht
    · exact absurd (List.mem_singleton.mp hpa).symm (ho p a)
  · rw [hp] at hpp
    exact (h2 p hpp).mono ht

theorem XM.send (h : XM s) {rs : List (Int × KeyRequest)} {n : Name} {x : Exclude} {t : ℚ} {cb : Option Nat} {again : Bool} (hx : Matched s.out → ∀ k, ExOk s.out ⟨k, n, x, t, cb⟩) :
    XM (sendS { s with requests := rs } n x t cb again) := by
  intro hm
  have ht : ∀ o ∈ s.out, o ∈ (sendS { s with requests := rs } n x t cb again).out := fun o ho => List.mem_append_left _ ho
  obtain ⟨h1, h2⟩ := h (hm.sub ht)
  have hnew := (hx (hm.sub ht) s.next).mono ht
  refine ⟨fun p a hpa => ?_, fun p hpp => ?_⟩
  · rcases List.mem_append.mp hpa with hpa | hpa
    · exact (h1 p a hpa).mono ht
    · cases List.mem_singleton.mp hpa
      exact hnew
  · rcases List.mem_append.mp hpp with hpp | hpp
    · exact (h2 p hpp).mono ht
    · cases List.mem_singleton.mp hpp
      exact hnew

theorem XM.update (h : XM s) {tc : Int} {cb : Option Nat} {r : KeyRequest} : XM (updateS s tc cb r) := by
  unfold updateS
  cases cb with
  | none => exact h.congr rfl rfl
  | some cb =>
    dsimp only
    split
    · exact h.out (o := .keys cb r.keys) (fun _ _ h => by cases h) rfl rfl
    · exact h.congr rfl rfl

/-- `_encryptContentKey` keeps it, and the trace. -/
theorem XM.encrypt (h : XM s) {key : Bytes} {name : Name} {t : ℚ} {cb : Option Nat} {rnd : EncV1.Random} :
    Wp (encryptContentKey P key name t cb rnd) s (fun _ => XM) XM := by
  refine wp_encrypt (fun _ => h) (fun _ _ => h) (fun _ => h) (fun _ _ _ _ _ _ _ _ => h.out (o := .error _) (fun _ _ h => by cases h) rfl rfl) (fun _ _ _ => h) ?_
  intro r stamp k d d' h1 _ _ _ _
  rw [packetS_eq]
  exact h.update

theorem XM.loop {t : ℚ} {cb : Option Nat} {x : Exclude} {rnd : Nat → EncV1.Random} (hx : ∀ tr k n, ExOk tr ⟨k, n, x, t, cb⟩) : ∀ {ns : List Name} {i : Nat} {s : St}, XM s →
    Wp (requestKeys P t cb x rnd i ns) s (fun _ => XM) XM := by
  intro ns
  induction ns with
  | nil => intro i s h; exact h
  | cons n ns ih =>
    intro i s h
    unfold requestKeys
    rw [wp_bind, wp_get]
    cases hi : dictGet n s.info with
    | none => exact h
    | some info =>
      dsimp only
      by_cases hc : t < info.beginSlot ∨ t ≥ info.endSlot
      · rw [if_pos hc, wp_bind, wp_setAttempts]
        refine ⟨fun r h0 => ?_, fun _ => h⟩
        rw [wp_bind, wp_send]
        exact ih (h.send fun _ k => hx _ k n)
      · rw [if_neg hc, wp_bind, wp_lifted]
        refine ⟨fun b hb => ?_, fun _ _ => h⟩
        rw [wp_bind, wp_lifted]
        refine ⟨fun e he => ?_, fun _ _ => h⟩
        rw [wp_bind]
        exact h.encrypt.imp (fun _ s' h' => ih h') (fun _ x => x)

theorem stampOf_plain {t : ℚ} (h : InYears t) {c : Component} (hc : StampOf c t) : Plain c := by
  refine stamp_plain hc ?_
  obtain ⟨h1, h2⟩ := h
  have a : (-30610224000 : Int) ≤ pyRound (t / 1000) := le_pyRound (by push_cast; linarith)
  have b : pyRound (t / 1000) ≤ 253402300799 := pyRound_le (by push_cast; linarith)
  exact ⟨by omega, by omega, by omega⟩

theorem ordered_nil : Ordered [] := ⟨(fun _ h => nomatch h), List.Pairwise.nil⟩
theorem excluded_nil (c : Component) : ¬ Excluded [] c := by
  rintro (h | ⟨l, r, h, _⟩)
  · nomatch h
  · exact absurd (congrArg List.length h) (by simp)

theorem first_ok {t : ℚ} (h : InYears t) {c : Component} (hc : isoComponent t = .ok c) (tr : List Out) (k : Nat) (n : Name) (cb : Option Nat) :
    ExOk tr ⟨k, n, ExcludeRange.excludeAfter [] c, t, cb⟩ := by
  obtain ⟨c', h1, h2⟩ := stamp_slot h
  rw [hc] at h1
  cases h1
  obtain ⟨k1, k2⟩ := ExcludeRange.C75_after ordered_nil (stampOf_plain h h2)
  refine ⟨k1, fun x hx he => ?_⟩
  rcases (k2 x hx).mp he with h3 | h3
  · exact absurd h3 (excluded_nil x)
  · exact .inl ⟨c, h2, h3⟩

theorem XM.create (h : XM s) {t : ℚ} {cb : Option Nat} {env : Env} (ht : InYears t) : Wp (createContentKey P t cb env) s (fun _ => XM) XM := by
  unfold createContentKey
  rw [wp_bind, wp_lifted]
  refine ⟨fun st hst => ?_, fun _ _ => h⟩
  dsimp only
  rw [wp_bind, wp_hasContentKey]
  cases hK : dictGet (hour t) s.db with
  | some k => exact h
  | none =>
    rw [if_neg (by decide)]
    unfold addContentKey
    rw [wp_bind, wp_bind, wp_hasContentKey, hK, if_neg (by decide), wp_modify, wp_bind, wp_get, wp_bind, wp_setRequest, wp_bind, wp_lifted]
    refine ⟨fun c' hc' => ?_, fun _ _ => h.congr rfl rfl⟩
    rw [wp_bind, wp_get, wp_bind]
    refine (XM.loop (fun tr k n => first_ok ht hc' tr k n cb) ?_).imp (fun _ _ h => h) (fun _ h => h)
    exact h.congr rfl rfl

theorem XM.produce (h : XM s) {data : Data} {t : ℚ} {content : Bytes} {env : Env} (ht : InYears t) : Wp (produce P data t content env) s (fun _ => XM) XM := by
  unfold Producer.produce
  rw [wp_bind]
  refine (h.create ht).imp (fun n s' h' => ?_) fun _ h => h
  rw [wp_bind, wp_getContentKey]
  refine ⟨fun key hkey => ?_, fun _ => h'⟩
  rw [wp_bind, wp_lifted]
  refine ⟨fun _ _ => ?_, fun _ _ => h'⟩
  rw [wp_bind, wp_lifted]
  refine ⟨fun _ _ => ?_, fun _ _ => h'⟩
  rw [wp_lifted]
  exact ⟨fun _ _ => h', fun _ _ => h'⟩

theorem XM.nack (h : XM s) {t : ℚ} {cb : Option Nat} : Wp (handleNetworkNack t cb) s (fun _ => XM) XM := by
  unfold handleNetworkNack
  rw [wp_bind, wp_getRequest]
  refine ⟨fun r hr => ?_, fun _ => h⟩
  rw [wp_update]
  exact ⟨fun r' hr' => h.update, fun _ => h⟩

theorem XM.timeout (h : XM s) {p : Pending} (hp : Matched s.out → ExOk s.out p) : Wp (handleTimeout P p) s (fun _ => XM) XM := by
  unfold handleTimeout
  rw [wp_bind, wp_getRequest]
  refine ⟨fun r hr => ?_, fun _ => h⟩
  cases ha : dictGet p.name r.attempts with
  | none => exact h
  | some n =>
    dsimp only
    by_cases hc : n < P.maxRepeat
    · rw [if_pos hc, wp_bind, wp_setAttempts]
      refine ⟨fun r' h0 => ?_, fun _ => h⟩
      rw [wp_send]
      exact h.send fun hm k => hp hm
    · rw [if_neg hc]
      exact h.nack

theorem before_ok {tr : List Out} {p : Pending} (hp : ExOk tr p) {d : Data} (ha : Out.answered p d ∈ tr) {rest : Name} {c1 c2 : Component} (hd : d.name = rest ++ [c1, c2])
    (h1 : Plain c1) (h2 : ¬ Excluded p.exclude c1) {e : Int} (he : stampTime c2 = .ok e) (hle : (e : ℚ) ≤ p.timeSlot) :
    ∃ y, ExcludeRange.excludeBefore p.exclude c1 = .ok y ∧ (∀ c, Plain c → (Excluded y c ↔ Excluded p.exclude c ∨ le c c1)) ∧
      ∀ k, ExOk tr ⟨k, p.name, y, p.timeSlot, p.cb⟩ := by
  obtain ⟨y, k1, k2, k3⟩ := ExcludeRange.C75_before_partial hp.1 h1 ⟨c1, h1, .inl rfl, h2⟩
  refine ⟨y, k1, k3, fun k => ⟨k2, fun c hc hex => ?_⟩⟩
  rcases (k3 c hc).mp hex with h | h
  · exact hp.2 c hc h
  · exact .inr ⟨p, d, rest, c1, c2, e, ha, rfl, rfl, hd, he, hle, h⟩

theorem XM.covering (h : XM s) {p : Pending} {d : Data} {env : Env} (hp : Matched s.out → ExOk s.out p) (ha : Out.answered p d ∈ s.out) :
    Wp (handleCoveringKey P p d env) s (fun _ => XM) XM := by
  unfold handleCoveringKey
  rw [wp_bind, wp_getRequest]
  refine ⟨fun r hr => ?_, fun _ => h⟩
  rw [wp_bind, wp_lifted]
  refine ⟨?_, fun _ _ => h⟩
  rintro ⟨b, e⟩ h1
  dsimp only
  rw [wp_bind, wp_lifted]
  refine ⟨fun beginSlot h2 => ?_, fun _ _ => h⟩
  rw [wp_bind, wp_lifted]
  refine ⟨fun endSlot h3 => ?_, fun _ _ => h⟩
  by_cases hc : p.timeSlot ≥ endSlot
  · rw [if_pos hc, wp_bind, wp_lifted]
    refine ⟨fun x hx => ?_, fun _ _ => h⟩
    rw [wp_bind, wp_setAttempts]
    refine ⟨fun r' h0 => ?_, fun _ => h⟩
    rw [wp_send]
    refine h.send fun hm k => ?_
    obtain ⟨rest, hrest⟩ := period_of h1
    obtain ⟨m1, m2⟩ := hm p d ha rest b e hrest
    obtain ⟨y, n1, _, n2⟩ := before_ok (hp hm) ha hrest m1 m2 h3 hc
    rw [hx] at n1
    cases n1
    exact n2 k
  · rw [if_neg hc, wp_bind]
    refine h.encrypt.imp (fun ok s' h' => ?_) (fun _ x => x)
    cases ok with
    | false => exact h'
    | true =>
      rw [if_pos rfl, wp_bind, wp_get]
      cases hg : dictGet p.name s'.info with
      | none => exact h'
      | some i => exact h'.congr rfl rfl

theorem keeps {α : Type} {m : M α} {f : α → Res} {I : St → Prop} (h : Wp m s (fun _ => I) I) : I (m.res f s).2 := by
  rcases res_wp (f := f) h with ⟨_, _, h⟩ | ⟨_, h⟩ <;> exact h

theorem XM.answer (h : XM s) (id : Nat) {f : Pending → M Unit} (hf : ∀ p s', XM s' → (Matched s'.out → ExOk s'.out p) → Wp (f p) s' (fun _ => XM) XM) : XM (answer id f s).2 := by
  unfold Producer.answer
  cases hp : s.pending.find? fun p => p.id = id with
  | none => exact h
  | some p =>
    have hm := List.mem_of_find?_eq_some hp
    refine keeps (hf p _ ?_ fun hmat => (h hmat).pend p hm)
    exact fun hmat => ⟨(h hmat).sent, fun q hq => (h hmat).pend q (List.mem_of_mem_filter hq)⟩

theorem XM.step (h : XM s) {op : Op} (hf : Fine op) : XM (step P s op).2 := by
  cases op with
  | create t cb env => exact keeps (h.create hf.1)
  | produce data t content env => exact keeps (h.produce hf.1)
  | data id d env =>
    refine h.answer id fun p s' h' hp => ?_
    rw [wp_bind, wp_modify]
    refine XM.covering (s := { s' with out := s'.out ++ [.answered p d] }) (h'.out (o := .answered p d) (fun _ _ h => by cases h) rfl rfl) (fun hm => ?_) (List.mem_append_right _ (List.mem_singleton.mpr rfl))
    exact (hp (hm.sub fun o ho => List.mem_append_left _ ho)).mono fun o ho => List.mem_append_left _ ho
  | timeout id => exact h.answer id fun p s' h' hp => h'.timeout hp
  | nack id => exact h.answer id fun p s' h' _ => h'.nack
  | restart => exact fun hm => ⟨(h hm).sent, (fun _ h => nomatch h)⟩

theorem XM.run : ∀ {ops : List Op} {s : St}, XM s → (∀ op ∈ ops, Fine op) → XM (run P s ops).2
  | [], _, h, _ => h
  | op :: ops, _, h, hf => XM.run (ops := ops) (h.step (hf op (List.mem_cons_self ..))) fun o ho => hf o (List.mem_cons_of_mem _ ho)

end PyNDN.Producer
