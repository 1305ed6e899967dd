import Verif.Lemmas.Producer
/-
The invariant of the producer.
-/
namespace PyNDN.Producer
open EncV1 Spec.Producer
open Encrypt (pyRound)
open Group (isoComponent)
open PSync (dictGet dictSet dictDel)
open _root_.PyNDN.Spec.Group (Sealed Stamp KeyOk)
open _root_.PyNDN.Spec.PibSqlite (upd)

theorem set_set {κ ν : Type} [DecidableEq κ] {k : κ} {a b : ν} : ∀ {d : List (κ × ν)}, dictSet k a (dictSet k b d) = dictSet k a d
  | [] => by simp [dictSet]
  | (k', w) :: d => by
    by_cases e : k' = k
    · simp [dictSet, e]
    · simp [dictSet, e, set_set]

theorem packetS_eq (s : St) (tc : Int) (cb : Option Nat) (r : KeyRequest) (d : Data) : packetS s tc cb r d = updateS s tc cb { r with keys := r.keys ++ [d] } := by
  unfold packetS updateS
  simp only [set_set]

theorem mem_nodesFrom {P : Params} {n : Name} : ∀ {m : Nat}, n ∈ nodesFrom P m → ∃ k, 0 < k ∧ k ≤ m ∧ n = P.pre ++ [readC] ++ P.dataType.take k ++ [eKeyC]
  | 0, h => nomatch h
  | m + 1, h => by
    rcases List.mem_cons.mp h with rfl | h
    · exact ⟨m + 1, by omega, le_refl _, by simp⟩
    · obtain ⟨k, h1, h2, h3⟩ := mem_nodesFrom h
      exact ⟨k, h1, by omega, h3⟩

theorem node_of_mem {P : Params} {n : Name} (h : n ∈ nodes P) : Node P n := mem_nodesFrom h

theorem mem_nodesFrom_iff {P : Params} {k m : Nat} (h1 : 0 < k) (h2 : k ≤ m) : P.pre ++ [readC] ++ P.dataType.take k ++ [eKeyC] ∈ nodesFrom P m := by
  induction m with
  | zero => omega
  | succ m ih =>
    by_cases e : k = m + 1
    · subst e
      exact List.mem_cons.mpr (.inl (by simp))
    · exact List.mem_cons_of_mem _ (ih (by omega))

theorem nodes_length (P : Params) : (nodes P).length = P.dataType.length := by
  unfold nodes
  generalize P.dataType.length = m
  induction m with
  | zero => rfl
  | succ m ih => simp [nodesFrom, ih]

theorem stamp_mult {ms : Int} (h : ms % 1000 = 0) {c : Component} (hc : isoComponent (ms : ℚ) = .ok c) : Stamp c ms := by
  have : pyRound ((ms : ℚ) / 1000) * 1000 = ms := by
    have : ((ms : ℚ) / 1000) = ((ms / 1000 : Int) : ℚ) := by
      have h2 : ms = ms / 1000 * 1000 := by omega
      have h3 : (ms : ℚ) = ((ms / 1000 : Int) : ℚ) * 1000 := by exact_mod_cast h2
      rw [h3]; field_simp
    rw [this, Group.pyRound_int]
    omega
  unfold isoComponent at hc
  rw [this] at hc
  cases hs : toIsoString ms with
  | error e => rw [hs] at hc; nomatch hc
  | ok s => rw [hs] at hc; cases hc; exact ⟨h, s, hs, rfl⟩

theorem stamp_rounded {t : ℚ} {c : Component} (hc : isoComponent (rounded t) = .ok c) : Stamp c (hour t * 3600000) := stamp_mult (by omega) hc

/-- An E-KEY that was received. -/
def Evidence (P : Params) (trace : List Out) (t : ℚ) (eKeyName : Name) (eKey : Bytes) : Prop :=
  ∃ (p : Pending) (d : Data) (b e : Int), Out.answered p d ∈ trace ∧ Node P p.name ∧ Period d.name b e ∧ t < e ∧
    (eKeyName = d.name ∨ (b ≤ t ∧ ∃ c1 c2, PyNDN.Group.isoComponent b = .ok c1 ∧ PyNDN.Group.isoComponent e = .ok c2 ∧ eKeyName = p.name ++ [c1, c2])) ∧
    eKey = d.content.getD []

/-- The keys in memory. -/
def InfoOk (trace : List Out) (n : Name) (i : KeyInfo) : Prop :=
  i = {} ∨ ∃ p d, Out.answered p d ∈ trace ∧ p.name = n ∧ Period d.name i.beginSlot i.endSlot ∧ i.keyBits = d.content.getD []

/-- `K` the content keys, `C` the calls with a callback, `T` the time slot and the callback of a request, `N` how many calls made a content key. -/
structure J (P : Params) (K : Keys) (C : ℚ → Nat → Prop) (T : Int → ℚ × Option Nat) (N : Nat → Nat) (s : St) : Prop where
  db : ∀ h, dictGet h s.db = K h
  names : s.info.map (·.1) = nodes P
  info : ∀ n i, dictGet n s.info = some i → InfoOk s.out n i
  nodup : (s.requests.map (·.1)).Nodup
  slot : ∀ tc r, dictGet tc s.requests = some r → pyRound (T tc).1 = tc ∧ (K (hour (T tc).1)).isSome ∧ ∀ cb, (T tc).2 = some cb → C (T tc).1 cb
  made : ∀ tc r, dictGet tc s.requests = some r → (r.keys.length : Int) + r.count ≤ (nodes P).length ∧ ∀ c ∈ r.keys, Packet P K s.out (T tc).1 c
  pend : ∀ p ∈ s.pending, Node P p.name ∧ T (pyRound p.timeSlot) = (p.timeSlot, p.cb) ∧ (K (hour p.timeSlot)).isSome
  outs : ∀ cb l, Out.keys cb l ∈ s.out → ∃ t, C t cb ∧ l.length ≤ (nodes P).length ∧ ∀ c ∈ l, Packet P K s.out t c
  once : ∀ cb, calls cb s.out + (s.requests.map (·.1)).countP (fun tc => decide ((T tc).2 = some cb)) ≤ N cb

theorem _root_.PyNDN.Spec.Producer.Packet.mono {P : Params} {K K' : Keys} {tr tr' : List Out} {t : ℚ} {c : Data} (h : Packet P K tr t c) (hk : ∀ h k, K h = some k → K' h = some k)
    (ht : ∀ o ∈ tr, o ∈ tr') : Packet P K' tr' t c := by
  obtain ⟨key, stamp, p, d, b, e, n, w, h1, h2, h3, h4⟩ := h
  exact ⟨key, stamp, p, d, b, e, n, w, h1, hk _ _ h2, ht _ h3, h4⟩

theorem InfoOk.mono {tr tr' : List Out} {n : Name} {i : KeyInfo} (h : InfoOk tr n i) (ht : ∀ o ∈ tr, o ∈ tr') : InfoOk tr' n i := by
  rcases h with h | ⟨p, d, h1, h2⟩
  · exact .inl h
  · exact .inr ⟨p, d, ht _ h1, h2⟩

variable {P : Params} {K : Keys} {C : ℚ → Nat → Prop} {T : Int → ℚ × Option Nat} {N : Nat → Nat} {s : St}

theorem calls_snoc (cb : Nat) (tr : List Out) (o : Out) : calls cb (tr ++ [o]) = calls cb tr + (match o with | .keys c _ => if c = cb then 1 else 0 | _ => 0) := by
  unfold calls
  rw [List.countP_append, List.countP_singleton]
  cases o <;> simp

/-- Something happens that is not a call of onEncryptedKeys. -/
theorem J.out (h : J P K C T N s) {o : Out} (ho : ∀ cb l, o ≠ .keys cb l) : J P K C T N { s with out := s.out ++ [o] } := by
  have ht : ∀ x ∈ s.out, x ∈ s.out ++ [o] := fun x hx => List.mem_append_left _ hx
  refine ⟨h.db, h.names, fun n i k => (h.info n i k).mono ht, h.nodup, h.slot, fun tc r k => ⟨(h.made tc r k).1, fun c hc => ((h.made tc r k).2 c hc).mono (fun _ _ x => x) ht⟩,
    h.pend, ?_, ?_⟩
  · intro cb l hl
    rcases List.mem_append.mp hl with hl | hl
    · obtain ⟨t, h1, h2, h3⟩ := h.outs cb l hl
      exact ⟨t, h1, h2, fun c hc => (h3 c hc).mono (fun _ _ x => x) ht⟩
    · exact absurd (List.mem_singleton.mp hl).symm (ho cb l)
  · intro cb
    show calls cb (s.out ++ [o]) + _ ≤ _
    rw [calls_snoc]
    have := h.once cb
    cases o with
    | keys c l => exact absurd rfl (ho c l)
    | _ => exact this

/-- A request is replaced. -/
theorem J.set (h : J P K C T N s) {tc : Int} {r0 r : KeyRequest} (h0 : dictGet tc s.requests = some r0) (hl : (r.keys.length : Int) + r.count ≤ (nodes P).length)
    (hp : ∀ c ∈ r.keys, Packet P K s.out (T tc).1 c) : J P K C T N { s with requests := dictSet tc r s.requests } := by
  have hk : (dictSet tc r s.requests).map (·.1) = s.requests.map (·.1) := keys_set h0
  refine ⟨h.db, h.names, h.info, by rw [hk]; exact h.nodup, ?_, ?_, h.pend, h.outs, by rw [hk]; exact h.once⟩
  · intro tc' r' hr
    simp only [Group.dictGet_set] at hr
    by_cases e : tc' = tc
    · rw [e]; exact h.slot tc r0 h0
    · rw [if_neg e] at hr; exact h.slot tc' r' hr
  · intro tc' r' hr
    simp only [Group.dictGet_set] at hr
    by_cases e : tc' = tc
    · rw [if_pos e] at hr; cases hr; rw [e]; exact ⟨hl, hp⟩
    · rw [if_neg e] at hr; exact h.made tc' r' hr

theorem J.send (h : J P K C T N s) {n : Name} {x : Exclude} {t : ℚ} {cb : Option Nat} {again : Bool} (hn : Node P n) (hT : T (pyRound t) = (t, cb))
    (hK : (K (hour t)).isSome) : J P K C T N (sendS s n x t cb again) := by
  have := h.out (o := .sent ⟨s.next, n, x, t, cb⟩ again) (fun _ _ => nofun)
  refine ⟨this.db, this.names, this.info, this.nodup, this.slot, this.made, ?_, this.outs, this.once⟩
  intro p hp
  rcases List.mem_append.mp hp with hp | hp
  · exact h.pend p hp
  · rw [List.mem_singleton.mp hp]; exact ⟨hn, hT, hK⟩

/-- `_updateKeyRequest`. -/
theorem J.update (h : J P K C T N s) {tc : Int} {cb : Option Nat} {r0 r : KeyRequest} (h0 : dictGet tc s.requests = some r0) (hT : (T tc).2 = cb)
    (hl : (r.keys.length : Int) + (r.count - 1) ≤ (nodes P).length) (hp : ∀ c ∈ r.keys, Packet P K s.out (T tc).1 c) : J P K C T N (updateS s tc cb r) := by
  have h1 := h.set (tc := tc) (r := { r with count := r.count - 1 }) h0 hl hp
  unfold updateS
  cases cb with
  | none => exact h1
  | some cb =>
    dsimp only
    by_cases e : r.count - 1 = 0
    · rw [if_pos e]
      have ht : ∀ o, o ∈ s.out → o ∈ s.out ++ [Out.keys cb r.keys] := fun x hx => List.mem_append_left _ hx
      have hk := keys_del tc (dictSet tc { r with count := r.count - 1 } s.requests)
      have hg : ∀ tc' r', dictGet tc' (dictDel tc (dictSet tc { r with count := r.count - 1 } s.requests)) = some r' → dictGet tc' s.requests = some r' := by
        intro tc' r' hr
        rw [Group.dictGet_del] at hr
        by_cases e : tc' = tc
        · rw [if_pos e] at hr; nomatch hr
        · rw [if_neg e, Group.dictGet_set, if_neg e] at hr; exact hr
      refine ⟨h.db, h.names, fun n i k => (h.info n i k).mono ht, ?_, fun tc' r' hr => h.slot tc' r' (hg _ _ hr),
        fun tc' r' hr => ⟨(h.made tc' r' (hg _ _ hr)).1, fun c hc => ((h.made tc' r' (hg _ _ hr)).2 c hc).mono (fun _ _ x => x) ht⟩, h.pend, ?_, ?_⟩
      · rw [hk]; exact h1.nodup.filter _
      · intro cb' l hl'
        rcases List.mem_append.mp hl' with hl' | hl'
        · obtain ⟨t, k1, k2, k3⟩ := h.outs cb' l hl'
          exact ⟨t, k1, k2, fun c hc => (k3 c hc).mono (fun _ _ x => x) ht⟩
        · cases List.mem_singleton.mp hl'
          exact ⟨(T tc).1, (h.slot tc r0 h0).2.2 cb hT, by omega, fun c hc => (hp c hc).mono (fun _ _ x => x) ht⟩
      · intro cb'
        show calls cb' (s.out ++ [.keys cb r.keys]) + _ ≤ _
        rw [hk, calls_snoc]
        have h2 := h1.once cb'
        dsimp only at h2 ⊢
        rw [countP_del h1.nodup (mem_keys.mpr ⟨_, by rw [Group.dictGet_set, if_pos rfl]⟩)] at h2
        have : (if decide ((T tc).2 = some cb') = true then 1 else 0) = if cb = cb' then 1 else 0 := by
          rw [hT]; simp
        rw [this] at h2
        dsimp only at h2
        omega
    · rw [if_neg e]; exact h1

/-- `_encryptContentKey`. -/
theorem J.encrypt (hs : Sound P) (h : J P K C T N s) {key : Bytes} {name : Name} {t : ℚ} {cb : Option Nat} {rnd : Random} (hr : rnd.nonce.length = 16 ∧ rnd.iv.length = 16)
    (hT : T (pyRound t) = (t, cb)) (he : Evidence P s.out t name key) :
    Wp (encryptContentKey P key name t cb rnd) s (fun _ s' => J P K C T N s' ∧ s'.info = s.info ∧ ∀ o ∈ s.out, o ∈ s'.out) (J P K C T N) := by
  refine wp_encrypt (fun _ => h) (fun _ _ => h) (fun _ => h) ?_ ?_ ?_
  · intro r stamp k e _ _ _ _
    exact ⟨h.out (fun _ _ => nofun), rfl, fun x hx => List.mem_append_left _ hx⟩
  · intro d e h1
    obtain ⟨d', h2, _⟩ := hs.sign d
    rw [h1] at h2; nomatch h2
  · intro r stamp k d d' h1 h2 h3 h4 h5
    obtain ⟨d2, k1, k2, k3, k4⟩ := hs.sign d
    rw [h5] at k1
    cases k1
    obtain ⟨m1, m2, w, m3, m4⟩ := encryptDataRsa_sealed hr.1 hr.2 h4
    obtain ⟨p, dd, b, e, n1, n2, n3, n4, n5, n6⟩ := he
    have hm := h.made _ r h1
    refine ⟨?_, ?_⟩
    · rw [packetS_eq]
      refine h.update h1 (by rw [hT]) (by simp only [List.length_append, List.length_singleton]; push_cast; omega) ?_
      intro c hc
      rcases List.mem_append.mp hc with hc | hc
      · exact hm.2 c hc
      · rw [List.mem_singleton.mp hc, hT]
        refine ⟨k, stamp, p, dd, b, e, name, w, stamp_rounded h2, by rw [← h.db]; exact h3, n1, n2, n3, n4, n5, ?_, by rw [k4, m3], by rw [← n6]; exact m4⟩
        rw [k2, m1]
        simp [Params.space]
    · rw [packetS_eq]
      unfold updateS
      cases cb with
      | none => exact ⟨rfl, fun _ hx => hx⟩
      | some cb =>
        dsimp only
        split
        · exact ⟨rfl, fun x hx => List.mem_append_left _ hx⟩
        · exact ⟨rfl, fun _ hx => hx⟩

theorem J.node (h : J P K C T N s) {n : Name} {i : KeyInfo} (hi : dictGet n s.info = some i) : Node P n :=
  node_of_mem (by rw [← h.names]; exact mem_keys.mpr ⟨i, hi⟩)

/-- The loop of `createContentKey`. -/
theorem J.requests (hs : Sound P) {t : ℚ} {cb : Option Nat} {x : Exclude} {rnd : Nat → Random} (hr : ∀ i, (rnd i).nonce.length = 16 ∧ (rnd i).iv.length = 16)
    (hT : T (pyRound t) = (t, cb)) (hK : (K (hour t)).isSome) : ∀ {ns : List Name} {i : Nat} {s : St}, J P K C T N s →
    Wp (requestKeys P t cb x rnd i ns) s (fun _ => J P K C T N) (J P K C T N) := by
  intro ns
  induction ns with
  | nil => intro i s h; exact h
  | cons n ns ih =>
    intro i s h
    unfold requestKeys
    rw [wp_bind, wp_get]
    cases hi : dictGet n s.info with
    | none => exact h
    | some info =>
      dsimp only
      by_cases hc : t < info.beginSlot ∨ t ≥ info.endSlot
      · rw [if_pos hc, wp_bind, wp_setAttempts]
        refine ⟨fun r h0 => ?_, fun _ => h⟩
        rw [wp_bind, wp_send]
        have hm := h.made _ r h0
        exact ih ((h.set (r := { r with attempts := dictSet n 0 r.attempts }) h0 hm.1 hm.2).send (h.node hi) hT hK)
      · rw [if_neg hc, wp_bind, wp_lifted]
        push Not at hc
        refine ⟨fun b hb => ?_, fun _ _ => h⟩
        rw [wp_bind, wp_lifted]
        refine ⟨fun e he => ?_, fun _ _ => h⟩
        rw [wp_bind]
        refine (h.encrypt hs (hr i) hT ?_).imp (fun _ s' h' => ih h'.1) (fun _ x => x)
        rcases h.info n info hi with rfl | ⟨p, d, k1, k2, k3, k4⟩
        · exact absurd hc.1 (by simpa using hc.2)
        · exact ⟨p, d, _, _, k1, by rw [k2]; exact h.node hi, k3, hc.2, .inr ⟨hc.1, b, e, hb, he, by rw [k2]⟩, k4⟩

theorem upd_same {κ ν : Type} [DecidableEq κ] (f : κ → ν) (k : κ) (v : ν) : upd f k v k = v := by simp [upd]
theorem upd_other {κ ν : Type} [DecidableEq κ] (f : κ → ν) {k k' : κ} (v : ν) (h : k' ≠ k) : upd f k v k' = f k' := by simp [upd, h]

theorem get_append {κ ν : Type} [DecidableEq κ] (k : κ) (v : ν) (k' : κ) : ∀ d : List (κ × ν), dictGet k d = none →
    dictGet k' (d ++ [(k, v)]) = if k' = k then some v else dictGet k' d := by
  intro d h
  rw [PSync.dictGet_none] at h
  rw [← PSync.dictSet_new h, Group.dictGet_set]

/-- A request is made. -/
theorem J.create (h : J P K C T N s) {t : ℚ} {cb : Option Nat} {key : Bytes} (hC : ∀ c, cb = some c → C t c) (hK : K (hour t) = none) :
    J P (upd K (hour t) (some key)) C (upd T (pyRound t) (t, cb)) (fun c => N c + if cb = some c then 1 else 0)
      { s with db := s.db ++ [(hour t, key)], requests := dictSet (pyRound t) { count := s.info.length } s.requests } := by
  have hnew : dictGet (pyRound t) s.requests = none := by
    cases hr : dictGet (pyRound t) s.requests with
    | none => rfl
    | some r =>
      obtain ⟨h1, h2, _⟩ := h.slot _ r hr
      rw [hour_congr h1, hK] at h2
      nomatch h2
  have hne : ∀ tc r, dictGet tc s.requests = some r → tc ≠ pyRound t := by
    rintro tc r hr rfl
    rw [hnew] at hr; nomatch hr
  have hset : dictSet (pyRound t) { count := s.info.length } s.requests = s.requests ++ [(pyRound t, { count := s.info.length })] := PSync.dictSet_new (PSync.dictGet_none.mp hnew)
  have hKm : ∀ x k, K x = some k → upd K (hour t) (some key) x = some k := by
    intro x k hx
    rw [upd_other _ _ (by rintro rfl; rw [hK] at hx; nomatch hx)]
    exact hx
  have hKs : ∀ x, (K x).isSome = true → (upd K (hour t) (some key) x).isSome = true := by
    intro x hx
    obtain ⟨k, hk⟩ := Option.isSome_iff_exists.mp hx
    rw [hKm x k hk]; rfl
  have hlen : s.info.length = (nodes P).length := by rw [← h.names, List.length_map]
  refine ⟨?_, h.names, h.info, ?_, ?_, ?_, ?_, ?_, ?_⟩
  · intro x
    show dictGet x (s.db ++ [(hour t, key)]) = _
    rw [get_append _ _ _ _ (by rw [h.db]; exact hK)]
    by_cases e : x = hour t
    · rw [if_pos e, e, upd_same]
    · rw [if_neg e, upd_other _ _ e]; exact h.db x
  · show ((dictSet (pyRound t) { count := s.info.length } s.requests).map (·.1)).Nodup
    rw [hset, List.map_append, List.nodup_append]
    refine ⟨h.nodup, by simp, ?_⟩
    intro a ha b hb e
    simp only [List.map_cons, List.map_nil, List.mem_singleton] at hb
    obtain ⟨v, hv⟩ := mem_keys.mp ha
    exact hne a v hv (e.trans hb)
  · intro tc r hr
    simp only [Group.dictGet_set] at hr
    by_cases e : tc = pyRound t
    · rw [e, upd_same]
      exact ⟨rfl, by rw [upd_same]; rfl, hC⟩
    · rw [if_neg e] at hr
      rw [upd_other _ _ e]
      obtain ⟨h1, h2, h3⟩ := h.slot tc r hr
      exact ⟨h1, hKs _ h2, h3⟩
  · intro tc r hr
    simp only [Group.dictGet_set] at hr
    by_cases e : tc = pyRound t
    · rw [if_pos e] at hr
      cases hr
      refine ⟨?_, fun c hc => by nomatch hc⟩
      show ((0 : Nat) : Int) + (s.info.length : Int) ≤ _
      rw [hlen]; omega
    · rw [if_neg e] at hr
      rw [upd_other _ _ e]
      obtain ⟨h1, h2⟩ := h.made tc r hr
      exact ⟨h1, fun c hc => (h2 c hc).mono hKm fun _ x => x⟩
  · intro p hp
    obtain ⟨h1, h2, h3⟩ := h.pend p hp
    refine ⟨h1, ?_, hKs _ h3⟩
    rw [upd_other]
    · exact h2
    · intro e
      rw [hour_congr e, hK] at h3
      nomatch h3
  · intro c l hl
    obtain ⟨t', h1, h2, h3⟩ := h.outs c l hl
    exact ⟨t', h1, h2, fun x hx => (h3 x hx).mono hKm fun _ x => x⟩
  · intro c
    show calls c s.out + ((dictSet (pyRound t) { count := s.info.length } s.requests).map (·.1)).countP _ ≤ _
    rw [hset, List.map_append, List.countP_append]
    have h1 : (s.requests.map (·.1)).countP (fun tc => decide ((upd T (pyRound t) (t, cb) tc).2 = some c)) = (s.requests.map (·.1)).countP (fun tc => decide ((T tc).2 = some c)) := by
      refine List.countP_congr fun a ha => ?_
      obtain ⟨v, hv⟩ := mem_keys.mp ha
      rw [upd_other _ _ (hne a v hv)]
    rw [h1]
    have := h.once c
    simp only [List.map_cons, List.map_nil, List.countP_singleton, upd_same]
    simp only [decide_eq_true_eq]
    omega

end PyNDN.Producer
