import Verif.Lemmas.ProducerFull
/-
The packet for an E-KEY that was received is given to onEncryptedKeys.
-/
namespace PyNDN.Producer
open Spec EncV1 Spec.Producer
open Encrypt (pyRound)
open Group (isoComponent)
open PSync (dictGet dictSet dictDel)
open _root_.PyNDN.Spec.Group (Sealed Stamp KeyOk)
open _root_.PyNDN.Spec.PibSqlite (upd)

/-- The packet for the E-KEY waits in the request, or was given. -/
def Has (P : Params) (T : Int → ℚ × Option Nat) (s : St) (p : Pending) (d : Data) : Prop :=
  (∃ r c, dictGet (pyRound p.timeSlot) s.requests = some r ∧ (T (pyRound p.timeSlot)).2 = p.cb ∧ c ∈ r.keys ∧ MadeWith P p.timeSlot d c) ∨
  ∃ cb l c, p.cb = some cb ∧ Out.keys cb l ∈ s.out ∧ c ∈ l ∧ MadeWith P p.timeSlot d c

def Good (P : Params) (T : Int → ℚ × Option Nat) (s : St) (o : Out) : Prop := ∀ p d b e, o = .answered p d → Period d.name b e → p.timeSlot < e → Has P T s p d

/-- But for the answer `x`. -/
def G (P : Params) (T : Int → ℚ × Option Nat) (x : Option Out) (s : St) : Prop := ∀ o ∈ s.out, some o = x ∨ Good P T s o

variable {P : Params} {T : Int → ℚ × Option Nat} {s s' : St} {x : Option Out}

theorem G.mono (h : G P T x s) (hh : ∀ p d, Has P T s p d → Has P T s' p d) (ho : ∀ o ∈ s'.out, o ∈ s.out ∨ ∀ p d, o ≠ .answered p d) : G P T x s' := by
  intro o hm
  rcases ho o hm with h1 | h1
  · rcases h o h1 with h2 | h2
    · exact .inl h2
    · exact .inr fun p d b e k1 k2 k3 => hh p d (h2 p d b e k1 k2 k3)
  · exact .inr fun p d b e k1 => absurd k1 (h1 p d)

/-- Requests are replaced by ones with at least the same packets. -/
theorem Has.mono {p : Pending} {d : Data} (h : Has P T s p d) (hr : ∀ tc r, dictGet tc s.requests = some r → ∃ r', dictGet tc s'.requests = some r' ∧ ∀ c ∈ r.keys, c ∈ r'.keys)
    (ho : ∀ o ∈ s.out, o ∈ s'.out) : Has P T s' p d := by
  rcases h with ⟨r, c, h1, h2, h3, h4⟩ | ⟨cb, l, c, h1, h2, h3, h4⟩
  · obtain ⟨r', k1, k2⟩ := hr _ r h1
    exact .inl ⟨r', c, k1, h2, k2 c h3, h4⟩
  · exact .inr ⟨cb, l, c, h1, ho _ h2, h3, h4⟩

theorem Has.set {p : Pending} {d : Data} (h : Has P T s p d) {tc : Int} {r r0 : KeyRequest} (h0 : dictGet tc s.requests = some r0) (hk : ∀ c ∈ r0.keys, c ∈ r.keys)
    (hs : s'.requests = dictSet tc r s.requests) (ho : ∀ o ∈ s.out, o ∈ s'.out) : Has P T s' p d := by
  refine h.mono (fun tc' r' h' => ?_) ho
  rw [hs, Group.dictGet_set]
  by_cases e : tc' = tc
  · rw [e, h0] at h'
    cases h'
    exact ⟨r, by rw [if_pos e], hk⟩
  · exact ⟨r', by rw [if_neg e]; exact h', fun _ h => h⟩

theorem updateS_out (s : St) (tc : Int) (cb : Option Nat) (r : KeyRequest) : (∀ o ∈ s.out, o ∈ (updateS s tc cb r).out) ∧
    ∀ o ∈ (updateS s tc cb r).out, o ∈ s.out ∨ ∀ p d, o ≠ .answered p d := by
  unfold updateS
  cases cb with
  | none => exact ⟨fun _ h => h, fun _ h => .inl h⟩
  | some cb =>
    dsimp only
    split
    · refine ⟨fun o h => List.mem_append_left _ h, fun o h => ?_⟩
      rcases List.mem_append.mp h with h | h
      · exact .inl h
      · rw [List.mem_singleton.mp h]
        exact .inr fun _ _ h => by cases h
    · exact ⟨fun _ h => h, fun _ h => .inl h⟩

theorem Has.update {p : Pending} {d : Data} (h : Has P T s p d) {tc : Int} {cb : Option Nat} {r r0 : KeyRequest} (h0 : dictGet tc s.requests = some r0) (hk : ∀ c ∈ r0.keys, c ∈ r.keys)
    (hT : (T tc).2 = cb) : Has P T (updateS s tc cb r) p d := by
  have ho := (updateS_out s tc cb r).1
  unfold updateS at *
  cases cb with
  | none => exact h.set (r := { r with count := r.count - 1 }) h0 hk rfl ho
  | some cb =>
    dsimp only at *
    by_cases e : r.count - 1 = 0
    · rw [if_pos e] at *
      rcases h with ⟨r', c, h1, h2, h3, h4⟩ | ⟨cb', l, c, h1, h2, h3, h4⟩
      · by_cases e2 : pyRound p.timeSlot = tc
        · rw [e2] at h1 h2
          rw [h0] at h1
          cases h1
          exact .inr ⟨cb, r.keys, c, by rw [← h2, hT], List.mem_append_right _ (List.mem_singleton.mpr rfl), hk c h3, h4⟩
        · refine .inl ⟨r', c, ?_, h2, h3, h4⟩
          rw [Group.dictGet_del, if_neg e2, Group.dictGet_set, if_neg e2]
          exact h1
      · exact .inr ⟨cb', l, c, h1, ho _ h2, h3, h4⟩
    · rw [if_neg e] at *
      exact h.set (r := { r with count := r.count - 1 }) h0 hk rfl ho

/-- The packet that was just made. -/
theorem Has.new {tc : Int} {cb : Option Nat} {r r0 : KeyRequest} {c : Data} (hc : c ∈ r.keys) {p : Pending} {d : Data} (hp : pyRound p.timeSlot = tc)
    (hb : p.cb = cb) (hT : (T tc).2 = cb) (hm : MadeWith P p.timeSlot d c) (h0 : dictGet tc s.requests = some r0) : Has P T (updateS s tc cb r) p d := by
  unfold updateS
  cases cb with
  | none => exact .inl ⟨{ r with count := r.count - 1 }, c, by rw [hp]; dsimp only; rw [Group.dictGet_set, if_pos rfl], by rw [hp, hT, hb], hc, hm⟩
  | some cb =>
    dsimp only
    split
    · exact .inr ⟨cb, r.keys, c, hb, List.mem_append_right _ (List.mem_singleton.mpr rfl), hc, hm⟩
    · exact .inl ⟨{ r with count := r.count - 1 }, c, by rw [hp]; dsimp only; rw [Group.dictGet_set, if_pos rfl], by rw [hp, hT, hb], hc, hm⟩

theorem G.encrypt (hs : Sound P) (h : G P T x s) {key : Bytes} {name : Name} {t : ℚ} {cb : Option Nat} {rnd : EncV1.Random} (hr : rnd.nonce.length = 16 ∧ rnd.iv.length = 16)
    (hT : (T (pyRound t)).2 = cb) :
    Wp (encryptContentKey P key name t cb rnd) s
      (fun b s' => G P T x s' ∧ (b = true → ∀ p d, p.timeSlot = t → p.cb = cb → d.name = name → Has P T s' p d)) (fun _ => True) := by
  refine wp_encrypt (fun _ => trivial) (fun _ _ => trivial) (fun _ => trivial) ?_ (fun _ _ _ => trivial) ?_
  · intro _ _ _ _ _ _ _ _
    refine ⟨h.mono (fun p d h => h.mono (fun tc r h => ⟨r, h, fun _ h => h⟩) fun o ho => List.mem_append_left _ ho) (fun o ho => ?_), fun h => nomatch h⟩
    rcases List.mem_append.mp ho with ho | ho
    · exact .inl ho
    · rw [List.mem_singleton.mp ho]
      exact .inr fun _ _ h => by cases h
  · intro r stamp k d d' h1 h2 _ h4 h5
    rw [packetS_eq]
    refine ⟨h.mono (fun p d hh => hh.update h1 (fun c hc => List.mem_append_left _ hc) hT) (updateS_out ..).2, fun _ p d2 e1 e2 e3 => ?_⟩
    refine Has.new (c := d') (List.mem_append_right _ (List.mem_singleton.mpr rfl)) (by rw [e1]) e2 hT ?_ h1
    obtain ⟨d3, k1, k2, k3, k4⟩ := hs.sign d
    rw [h5] at k1
    cases k1
    obtain ⟨m1, m2, w, m3, m4⟩ := encryptDataRsa_sealed hr.1 hr.2 h4
    refine ⟨stamp, by rw [e1]; exact stamp_rounded h2, ?_⟩
    rw [k2, m1, e3]
    simp [Params.space]

theorem send_out {rs : List (Int × KeyRequest)} {n : Name} {e : Exclude} {t : ℚ} {cb : Option Nat} {again : Bool} :
    ∀ o ∈ (sendS { s with requests := rs } n e t cb again).out, o ∈ s.out ∨ ∀ p d, o ≠ .answered p d := by
  intro o ho
  rcases List.mem_append.mp ho with ho | ho
  · exact .inl ho
  · rw [List.mem_singleton.mp ho]
    exact .inr fun _ _ h => by cases h

theorem G.send (h : G P T x s) {n : Name} {e : Exclude} {t : ℚ} {cb : Option Nat} {again : Bool} {tc : Int} {r : KeyRequest} {k : Nat} (h0 : dictGet tc s.requests = some r) :
    G P T x (sendS { s with requests := dictSet tc { r with attempts := dictSet n k r.attempts } s.requests } n e t cb again) :=
  h.mono (fun p d hh => hh.set (r := { r with attempts := dictSet n k r.attempts }) h0 (fun _ h => h) rfl fun o ho => List.mem_append_left _ ho) send_out

theorem G.loop (hs : Sound P) {t : ℚ} {cb : Option Nat} {e : Exclude} {rnd : Nat → EncV1.Random} (hr : ∀ i, (rnd i).nonce.length = 16 ∧ (rnd i).iv.length = 16)
    (hT : (T (pyRound t)).2 = cb) : ∀ {ns : List Name} {i : Nat} {s : St}, G P T x s →
    Wp (requestKeys P t cb e rnd i ns) s (fun _ => G P T x) (fun _ => True) := by
  intro ns
  induction ns with
  | nil => intro i s h; exact h
  | cons n ns ih =>
    intro i s h
    unfold requestKeys
    rw [wp_bind, wp_get]
    cases hi : dictGet n s.info with
    | none => exact trivial
    | some info =>
      dsimp only
      by_cases hc : t < info.beginSlot ∨ t ≥ info.endSlot
      · rw [if_pos hc, wp_bind, wp_setAttempts]
        refine ⟨fun r h0 => ?_, fun _ => trivial⟩
        rw [wp_bind, wp_send]
        exact ih (h.send h0)
      · rw [if_neg hc, wp_bind, wp_lifted]
        refine ⟨fun b hb => ?_, fun _ _ => trivial⟩
        rw [wp_bind, wp_lifted]
        refine ⟨fun e he => ?_, fun _ _ => trivial⟩
        rw [wp_bind]
        exact (h.encrypt hs (hr i) hT).imp (fun _ s' h' => ih h'.1) (fun _ x => x)

variable {K : Keys} {C : ℚ → Nat → Prop} {N : Nat → Nat}

theorem G.create (hs : Sound P) (hj : J P K C T N s) (h : G P T none s) {t : ℚ} {cb : Option Nat} {env : Env} (he : EnvOk env) :
    Wp (createContentKey P t cb env) s (fun _ => G P (slots K T t cb) none) (fun _ => True) := by
  unfold createContentKey
  rw [wp_bind, wp_lifted]
  refine ⟨fun st hst => ?_, fun _ _ => trivial⟩
  dsimp only
  rw [wp_bind, wp_hasContentKey, hj.db]
  cases hK : K (hour t) with
  | some k =>
    rw [if_pos (show (some k).isSome = true from rfl), wp_pure]
    have h0 : slots K T t cb = T := by unfold slots; rw [hK]; rfl
    rw [h0]
    exact h
  | none =>
    have h0 : slots K T t cb = upd T (pyRound t) (t, cb) := by unfold slots; rw [hK]; rfl
    rw [h0, if_neg (by decide)]
    unfold addContentKey
    rw [wp_bind, wp_bind, wp_hasContentKey, hj.db, hK, if_neg (by decide), wp_modify, wp_bind, wp_get, wp_bind, wp_setRequest, wp_bind, wp_lifted]
    refine ⟨fun c' hc' => ?_, fun _ _ => trivial⟩
    rw [wp_bind, wp_get, wp_bind]
    have hnew : ∀ tc r, dictGet tc s.requests = some r → tc ≠ pyRound t := by
      rintro tc r hr rfl
      obtain ⟨h1, h2, _⟩ := hj.slot _ r hr
      rw [hour_congr h1, hK] at h2
      nomatch h2
    refine (G.loop hs (x := none) he.2.2 (by rw [upd_same]) ?_).imp (fun _ _ h => h) (fun _ h => h)
    intro o ho
    rcases h o ho with h1 | h1
    · exact .inl h1
    · refine .inr fun p d b e k1 k2 k3 => ?_
      rcases h1 p d b e k1 k2 k3 with ⟨r, c, m1, m2, m3, m4⟩ | m
      · refine .inl ⟨r, c, ?_, ?_, m3, m4⟩
        · show dictGet _ (dictSet (pyRound t) _ s.requests) = _
          rw [Group.dictGet_set, if_neg (hnew _ r m1)]
          exact m1
        · rw [upd_other _ _ (hnew _ r m1)]
          exact m2
      · exact .inr m

theorem G.produce (hs : Sound P) (hj : J P K C T N s) (h : G P T none s) {data : Data} {t : ℚ} {content : Bytes} {env : Env} (he : EnvOk env) :
    Wp (produce P data t content env) s (fun _ => G P (slots K T t none) none) (fun _ => True) := by
  unfold Producer.produce
  rw [wp_bind]
  refine (G.create hs hj h he).imp (fun n s' h' => ?_) fun _ h => h
  rw [wp_bind, wp_getContentKey]
  refine ⟨fun key hkey => ?_, fun _ => trivial⟩
  rw [wp_bind, wp_lifted]
  refine ⟨fun _ _ => ?_, fun _ _ => trivial⟩
  rw [wp_bind, wp_lifted]
  refine ⟨fun _ _ => ?_, fun _ _ => trivial⟩
  rw [wp_lifted]
  exact ⟨fun _ _ => h', fun _ _ => trivial⟩

theorem G.nack (h : G P T x s) {t : ℚ} {cb : Option Nat} (hT : (T (pyRound t)).2 = cb) : Wp (handleNetworkNack t cb) s (fun _ => G P T x) (fun _ => True) := by
  unfold handleNetworkNack
  rw [wp_bind, wp_getRequest]
  refine ⟨fun r hr => ?_, fun _ => trivial⟩
  rw [wp_update]
  exact ⟨fun r' hr' => h.mono (fun p d hh => hh.update hr' (fun _ h => h) hT) (updateS_out ..).2, fun _ => trivial⟩

theorem G.timeout (h : G P T x s) {p : Pending} (hT : (T (pyRound p.timeSlot)).2 = p.cb) : Wp (handleTimeout P p) s (fun _ => G P T x) (fun _ => True) := by
  unfold handleTimeout
  rw [wp_bind, wp_getRequest]
  refine ⟨fun r hr => ?_, fun _ => trivial⟩
  cases ha : dictGet p.name r.attempts with
  | none => exact trivial
  | some n =>
    dsimp only
    by_cases hc : n < P.maxRepeat
    · rw [if_pos hc, wp_bind, wp_setAttempts]
      refine ⟨fun r' h0 => ?_, fun _ => trivial⟩
      rw [wp_send]
      exact h.send h0
    · rw [if_neg hc]
      exact h.nack hT

theorem snoc_inj {a b : Name} {x y x' y' : Component} (h : a ++ [x, y] = b ++ [x', y']) : x = x' ∧ y = y' := by
  have := congrArg List.reverse h
  simp at this
  exact ⟨this.2.1, this.1⟩

theorem G.covering (hs : Sound P) {p : Pending} {d : Data} (h : G P T (some (.answered p d)) s) {env : Env} (he : EnvOk env) (hT : (T (pyRound p.timeSlot)).2 = p.cb)
    {m : Nat} {tc0 : Int} (hf : F P K T N tc0 (m + 1) s) (ht : pyRound p.timeSlot = tc0) (hd : EKey P d) (hy : InYears p.timeSlot) (hK : (K (hour p.timeSlot)).isSome) :
    Wp (handleCoveringKey P p d env) s (fun _ => G P T none) (fun _ => True) := by
  unfold handleCoveringKey
  rw [wp_bind, wp_getRequest]
  refine ⟨fun r hr => ?_, fun _ => trivial⟩
  rw [wp_bind, wp_lifted]
  refine ⟨?_, fun _ _ => trivial⟩
  rintro ⟨b, e⟩ h1
  dsimp only
  rw [wp_bind, wp_lifted]
  refine ⟨fun beginSlot h2 => ?_, fun _ _ => trivial⟩
  rw [wp_bind, wp_lifted]
  refine ⟨fun endSlot h3 => ?_, fun _ _ => trivial⟩
  obtain ⟨rest, hrest⟩ := period_of h1
  by_cases hc : p.timeSlot ≥ endSlot
  · rw [if_pos hc, wp_bind, wp_lifted]
    refine ⟨fun x hx => ?_, fun _ _ => trivial⟩
    rw [wp_bind, wp_setAttempts]
    refine ⟨fun r' h0 => ?_, fun _ => trivial⟩
    rw [wp_send]
    have := h.send (e := x) (t := p.timeSlot) (cb := p.cb) (again := false) (k := 0) (n := p.name) h0
    intro o ho
    rcases this o ho with k | k
    · cases k
      right
      intro p' d' b' e' k1 k2 k3
      cases k1
      obtain ⟨rest', c1, c2, q1, q2, q3⟩ := k2
      rw [hrest] at q1
      obtain ⟨rfl, rfl⟩ := snoc_inj q1
      rw [h3] at q3
      cases q3
      exact absurd k3 (not_lt.mpr hc)
    · exact .inr k
  · rw [if_neg hc, wp_bind]
    have hboth : Wp (encryptContentKey P (d.content.getD []) d.name p.timeSlot p.cb (env.rnd 0)) s (fun b s' => b = true ∧ G P T none s') (fun _ => True) := by
      have w1 := h.encrypt hs (key := d.content.getD []) (name := d.name) (he.2.2 0) hT
      have hT' : (T tc0).2 = p.cb := by rw [← ht]; exact hT
      have w2 := hf.encrypt (cb := p.cb) (key := d.content.getD []) (name := d.name) hs ht hy hT' hK (he.2.2 0) hd.1 hd.2.1
      unfold Wp at *
      revert w1 w2
      rcases encryptContentKey P (d.content.getD []) d.name p.timeSlot p.cb (env.rnd 0) s with ⟨r | r, s'⟩
      · exact fun h _ => h
      · rintro ⟨w1, w3⟩ ⟨w2, _⟩
        refine ⟨w2, fun o ho => ?_⟩
        rcases w1 o ho with k | k
        · cases k
          right
          intro p' d' b' e' k1 k2 k3
          cases k1
          exact w3 w2 p d rfl rfl rfl
        · exact .inr k
    refine hboth.imp (fun ok s' h' => ?_) (fun _ x => x)
    obtain ⟨rfl, h'⟩ := h'
    rw [if_pos rfl, wp_bind, wp_get]
    cases hg : dictGet p.name s'.info with
    | none => exact trivial
    | some i => exact h'

/-! ### Calls and events -/

theorem res_ok {α : Type} {m : M α} {f : α → Res} {Q : St → Prop} (h : Wp m s (fun _ => Q) (fun _ => True)) (hn : ¬ (m.res f s).1.Fails) : Q (m.res f s).2 := by
  rcases res_wp (f := f) h with ⟨_, _, h⟩ | ⟨⟨e, he⟩, _⟩
  · exact h
  · rw [he] at hn
    exact absurd trivial hn

theorem G.answer (hj : J P K C T N s) {N' : Nat → Nat} (hf : F P K T N' 0 0 s) (h : G P T none s) (id : Nat) {f : Pending → M Unit}
    (hq : ∀ p s', F P K T N' (pyRound p.timeSlot) 1 s' → (T (pyRound p.timeSlot)).2 = p.cb → (K (hour p.timeSlot)).isSome = true → InYears p.timeSlot → G P T none s' →
      Wp (f p) s' (fun _ => G P T none) (fun _ => True)) (hn : ¬ (answer id f s).1.Fails) : G P T none (answer id f s).2 := by
  unfold Producer.answer at *
  cases hp : s.pending.find? fun p => p.id = id with
  | none => exact h
  | some p =>
    rw [hp] at hn
    dsimp only at hn ⊢
    have hm := List.mem_of_find?_eq_some hp
    obtain ⟨h1, h2, h3⟩ := hj.pend p hm
    exact res_ok (hq p _ (hf.pop hp) (by rw [h2]) h3 (hf.years p hm) h) hn

theorem G.step (hs : Sound P) (hd : P.dataType ≠ []) (hj : J P K C T N s) {N' : Nat → Nat} (hF : F P K T N' 0 0 s) (h : G P T none s) {op : Op} (hf : Fine op) (hh : Honest P op) :
    G P (nextT K T op) none (step P s op).2 := by
  have hn := (hF.step hs hd hj hf hh).1
  cases op with
  | create t cb env => exact res_ok (G.create hs hj h hf.2) hn
  | produce data t content env => exact res_ok (G.produce hs hj h hf.2) hn
  | data id d env =>
    refine h.answer hj hF id (fun p s' h1 h3 h4 h5 h6 => ?_) hn
    rw [wp_bind, wp_modify]
    refine G.covering hs ?_ hf h3 (h1.out (o := .answered p d) fun _ _ h => by cases h) rfl hh h5 h4
    intro o ho
    rcases List.mem_append.mp ho with ho | ho
    · right
      rcases h6 o ho with k | k
      · nomatch k
      · intro p' d' b e k1 k2 k3
        exact (k p' d' b e k1 k2 k3).mono (fun tc r h => ⟨r, h, fun _ h => h⟩) fun o ho => List.mem_append_left _ ho
    · left
      rw [List.mem_singleton.mp ho]
  | timeout id => exact h.answer hj hF id (fun p s' h1 h3 h4 h5 h6 => h6.timeout h3) hn
  | nack id => exact h.answer hj hF id (fun p s' h1 h3 h4 h5 h6 => h6.nack h3) hn
  | restart => exact hh.elim

theorem G.run (hs : Sound P) (hd : P.dataType ≠ []) : ∀ {ops : List Op} {K : Keys} {T : Int → ℚ × Option Nat} {N N' : Nat → Nat} {s : St}, J P K C T N' s →
    F P K T N 0 0 s → G P T none s → (∀ op ∈ ops, Fine op) → (∀ op ∈ ops, Honest P op) → (∀ t c env, Op.create t (some c) env ∈ ops → C t c) →
    ∃ T' K' N'', F P K' T' N'' 0 0 (run P s ops).2 ∧ G P T' none (run P s ops).2
  | [], K, T, N, _, _, _, h, hg, _, _, _ => ⟨T, K, N, h, hg⟩
  | op :: ops, K, T, N, N', s, hj, h, hg, hf, hh, hC => by
    have h1 := hf op (List.mem_cons_self ..)
    have h2 := hh op (List.mem_cons_self ..)
    exact G.run hs hd (ops := ops) (hj.step hs h1 (fun t c env e => hC t c env (e ▸ List.mem_cons_self ..))).2 (h.step hs hd hj h1 h2).2 (hg.step hs hd hj h h1 h2)
      (fun o ho => hf o (List.mem_cons_of_mem _ ho)) (fun o ho => hh o (List.mem_cons_of_mem _ ho)) (fun t c env ho => hC t c env (List.mem_cons_of_mem _ ho))

end PyNDN.Producer
