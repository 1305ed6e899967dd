import Verif.Lemmas.ProducerInv
/-
The invariant of the producer is kept by each call and event.
-/
namespace PyNDN.Producer
open EncV1 Spec.Producer
open Encrypt (pyRound encodeEncryptedContent)
open Group (isoComponent)
open PSync (dictGet dictSet dictDel)
open _root_.PyNDN.Spec.Group (Sealed Stamp KeyOk)
open _root_.PyNDN.Spec.PibSqlite (upd)

variable {P : Params} {K : Keys} {C : ℚ → Nat → Prop} {T : Int → ℚ × Option Nat} {N : Nat → Nat} {s : St}

/-- How many requests with the callback a call makes. -/
def one (K : Keys) (t : ℚ) (cb : Option Nat) (c : Nat) : Nat := if (K (hour t)).isNone ∧ cb = some c then 1 else 0

/-- The time slots and callbacks after a call. -/
def slots (K : Keys) (T : Int → ℚ × Option Nat) (t : ℚ) (cb : Option Nat) : Int → ℚ × Option Nat := if (K (hour t)).isSome then T else upd T (pyRound t) (t, cb)
def nextT (K : Keys) (T : Int → ℚ × Option Nat) : Op → Int → ℚ × Option Nat
  | .create t cb _ => slots K T t cb
  | .produce _ t _ _ => slots K T t none
  | _ => T

theorem wp_create (hs : Sound P) (h : J P K C T N s) {t : ℚ} {cb : Option Nat} {env : Env} (ht : InYears t) (he : EnvOk env) (hC : ∀ c, cb = some c → C t c) :
    Wp (createContentKey P t cb env) s
      (fun n s' => (∃ stamp, Stamp stamp (hour t * 3600000) ∧ n = P.space ++ [cKeyC, stamp]) ∧ J P (made K t env.key) C (slots K T t cb) (fun c => N c + one K t cb c) s')
      (fun s' => J P (made K t env.key) C (slots K T t cb) (fun c => N c + one K t cb c) s') := by
  obtain ⟨stamp, k1, k2⟩ := stamp_hour ht
  obtain ⟨c, k3, _⟩ := stamp_slot ht
  unfold createContentKey
  rw [wp_bind, wp_lifted]
  refine ⟨fun st hst => ?_, fun e h => by rw [k1] at h; nomatch h⟩
  rw [k1] at hst
  cases hst
  dsimp only
  rw [wp_bind, wp_hasContentKey, h.db]
  cases hK : K (hour t) with
  | some k =>
    rw [if_pos (show (some k).isSome = true from rfl), wp_pure]
    refine ⟨⟨stamp, k2, rfl⟩, ?_⟩
    have h0 : slots K T t cb = T := by unfold slots; rw [hK]; rfl
    have h1 : made K t env.key = K := by unfold made; rw [hK]; rfl
    have h2 : (fun c => N c + one K t cb c) = N := by
      funext c
      unfold one
      rw [hK]
      simp
    rw [h0, h1, h2]
    exact h
  | none =>
    have h0 : slots K T t cb = upd T (pyRound t) (t, cb) := by unfold slots; rw [hK]; rfl
    have h1 : made K t env.key = upd K (hour t) (some env.key) := by unfold made; rw [hK]; rfl
    have h2 : (fun c => N c + one K t cb c) = fun c => N c + if cb = some c then 1 else 0 := by
      funext c
      unfold one
      rw [hK]
      simp
    rw [h0, h1, h2]
    have hJ := h.create (key := env.key) hC hK
    rw [if_neg (by decide)]
    unfold addContentKey
    rw [wp_bind, wp_bind, wp_hasContentKey, h.db, hK, if_neg (by decide), wp_modify, wp_bind, wp_get, wp_bind, wp_setRequest, wp_bind, wp_lifted]
    refine ⟨fun c' hc' => ?_, fun e h => by rw [k3] at h; nomatch h⟩
    rw [wp_bind, wp_get, wp_bind]
    refine (hJ.requests hs (x := ExcludeRange.excludeAfter [] c') (rnd := env.rnd) he.2.2 (upd_same ..) (by rw [upd_same]; rfl)).imp ?_ ?_
    · intro _ s' h'
      exact ⟨⟨stamp, k2, rfl⟩, h'⟩
    · exact fun s' h' => h'

theorem made_some (K : Keys) (t : ℚ) (key : Bytes) : ∃ k, made K t key (hour t) = some k := by
  unfold made
  cases h : K (hour t) with
  | some k => exact ⟨k, by rw [if_pos (show (some k).isSome = true from rfl)]; exact h⟩
  | none => exact ⟨key, by rw [if_neg (by decide), upd_same]⟩

theorem encryptDataAes_ok {A : Nac.Aes} {data d : Data} {content key iv : Bytes} {k : Name} (h : encryptDataAes A data content k key iv = .ok d) :
    d.name = data.name ++ forC :: k ∧ d.metaInfo = data.metaInfo ∧ ∃ w, d.content = some w ∧ encodeEncryptedContent
        { algorithmType := some 1
          keyLocator := { type := some 1, keyName := k }
          initialVector := some iv
          payload := some (A.encryptCbc key iv content) } = .ok w := by
  unfold encryptDataAes at h
  dsimp only at h
  obtain ⟨c, hc, h2⟩ := ok_of_bind h
  obtain ⟨w, hw, h3⟩ := ok_of_bind h2
  cases h3
  unfold encryptSymmetric at hc
  split at hc
  · nomatch hc
  · cases hc
    exact ⟨rfl, rfl, w, rfl, hw⟩

theorem wp_produce (hs : Sound P) (h : J P K C T N s) {data : Data} {t : ℚ} {content : Bytes} {env : Env} (ht : InYears t) (he : EnvOk env) :
    Wp (produce P data t content env) s
      (fun d s' => Gives P K (.produce data t content env) (.packet d) ∧ J P (made K t env.key) C (slots K T t none) N s')
      (fun s' => J P (made K t env.key) C (slots K T t none) N s') := by
  obtain ⟨c, k3, k4⟩ := stamp_slot ht
  have hN : (fun c => N c + one K t none c) = N := by
    funext c
    unfold one
    rw [if_neg (fun h => by cases h.2)]
    rfl
  unfold produce
  rw [wp_bind]
  refine (wp_create hs h ht he (fun c (h : (none : Option Nat) = some c) => nomatch h)).imp ?_ (by rw [hN]; exact fun _ h => h)
  rw [hN]
  rintro n s' ⟨⟨stamp, k1, k2⟩, hJ⟩
  rw [wp_bind, wp_getContentKey]
  obtain ⟨k, hk⟩ := made_some K t env.key
  refine ⟨fun key hkey => ?_, fun h => by rw [hJ.db, hk] at h; nomatch h⟩
  rw [hJ.db, hk] at hkey
  cases hkey
  rw [wp_bind, wp_lifted]
  refine ⟨fun c' hc' => ?_, fun e h => by rw [k3] at h; nomatch h⟩
  rw [k3] at hc'
  cases hc'
  rw [wp_bind, wp_lifted]
  refine ⟨fun d hd => ?_, fun _ _ => hJ⟩
  rw [wp_lifted]
  refine ⟨fun d' hd' => ⟨?_, hJ⟩, fun _ _ => hJ⟩
  rintro d2 e
  cases e
  obtain ⟨d3, m1, m2, m3, m4⟩ := hs.sign d
  rw [hd'] at m1
  cases m1
  obtain ⟨q1, q2, w, q3, q4⟩ := encryptDataAes_ok hd
  have hsp : n = P.pre ++ [sampleC] ++ P.dataType ++ [cKeyC, stamp] := by rw [k2]; simp [Params.space]
  refine ⟨c, stamp, k, w, k4, k1, hk, ?_, by rw [m3, q2], by rw [m4, q3], by rw [← hsp]; exact q4⟩
  rw [m2, q1, hsp]
  simp [Params.space]

theorem wp_nack (h : J P K C T N s) {t : ℚ} {cb : Option Nat} (hT : T (pyRound t) = (t, cb)) :
    Wp (handleNetworkNack t cb) s (fun _ => J P K C T N) (J P K C T N) := by
  unfold handleNetworkNack
  rw [wp_bind, wp_getRequest]
  refine ⟨fun r hr => ?_, fun _ => h⟩
  rw [wp_update]
  refine ⟨fun r' hr' => ?_, fun _ => h⟩
  have hm := h.made _ r' hr'
  exact h.update hr' (by rw [hT]) (by have := hm.1; omega) hm.2

theorem wp_timeout (h : J P K C T N s) {p : Pending} (hn : Node P p.name) (hT : T (pyRound p.timeSlot) = (p.timeSlot, p.cb)) (hK : (K (hour p.timeSlot)).isSome) :
    Wp (handleTimeout P p) s (fun _ => J P K C T N) (J P K C T N) := by
  unfold handleTimeout
  rw [wp_bind, wp_getRequest]
  refine ⟨fun r hr => ?_, fun _ => h⟩
  cases ha : dictGet p.name r.attempts with
  | none => exact h
  | some n =>
    dsimp only
    by_cases hc : n < P.maxRepeat
    · rw [if_pos hc, wp_bind, wp_setAttempts]
      refine ⟨fun r' h0 => ?_, fun _ => h⟩
      rw [wp_send]
      have hm := h.made _ r' h0
      exact (h.set (r := { r' with attempts := dictSet p.name (n + 1) r'.attempts }) h0 hm.1 hm.2).send hn hT hK
    · rw [if_neg hc]
      exact wp_nack h hT

theorem period_of {n : Name} {b e : Component} (h : lastTwo n = .ok (b, e)) : ∃ rest, n = rest ++ [b, e] := by
  unfold lastTwo at h
  cases hr : n.reverse with
  | nil => rw [hr] at h; nomatch h
  | cons x l =>
    cases l with
    | nil => rw [hr] at h; nomatch h
    | cons y l =>
      rw [hr] at h
      cases h
      refine ⟨l.reverse, ?_⟩
      rw [← List.reverse_reverse n, hr]
      simp

theorem wp_covering (hs : Sound P) (h : J P K C T N s) {p : Pending} {d : Data} {env : Env} (he : EnvOk env) (hn : Node P p.name)
    (hT : T (pyRound p.timeSlot) = (p.timeSlot, p.cb)) (hK : (K (hour p.timeSlot)).isSome) (ha : Out.answered p d ∈ s.out) :
    Wp (handleCoveringKey P p d env) s (fun _ => J P K C T N) (J P K C T N) := by
  unfold handleCoveringKey
  rw [wp_bind, wp_getRequest]
  refine ⟨fun r hr => ?_, fun _ => h⟩
  rw [wp_bind, wp_lifted]
  refine ⟨?_, fun _ _ => h⟩
  rintro ⟨b, e⟩ h1
  dsimp only
  rw [wp_bind, wp_lifted]
  refine ⟨fun beginSlot h2 => ?_, fun _ _ => h⟩
  rw [wp_bind, wp_lifted]
  refine ⟨fun endSlot h3 => ?_, fun _ _ => h⟩
  by_cases hc : p.timeSlot ≥ endSlot
  · rw [if_pos hc, wp_bind, wp_lifted]
    refine ⟨fun x hx => ?_, fun _ _ => h⟩
    rw [wp_bind, wp_setAttempts]
    refine ⟨fun r' h0 => ?_, fun _ => h⟩
    rw [wp_send]
    have hm := h.made _ r' h0
    exact (h.set (r := { r' with attempts := dictSet p.name 0 r'.attempts }) h0 hm.1 hm.2).send hn hT hK
  · rw [if_neg hc, wp_bind]
    obtain ⟨rest, hrest⟩ := period_of h1
    have hper : Period d.name beginSlot endSlot := ⟨rest, b, e, hrest, h2, h3⟩
    refine (h.encrypt hs (he.2.2 0) hT ⟨p, d, beginSlot, endSlot, ha, hn, hper, not_le.mp hc, .inl rfl, rfl⟩).imp ?_ (fun _ x => x)
    rintro ok s' ⟨hJ, hi, ho⟩
    cases ok with
    | false => exact hJ
    | true =>
      rw [if_pos rfl, wp_bind, wp_get]
      cases hg : dictGet p.name s'.info with
      | none => exact hJ
      | some i =>
        dsimp only
        rw [wp_modify]
        refine ⟨hJ.db, by rw [keys_set hg]; exact hJ.names, ?_, hJ.nodup, hJ.slot, hJ.made, hJ.pend, hJ.outs, hJ.once⟩
        intro n i' hi'
        simp only [Group.dictGet_set] at hi'
        by_cases e : n = p.name
        · rw [if_pos e] at hi'
          cases hi'
          exact .inr ⟨p, d, ho _ ha, e.symm, hper, rfl⟩
        · rw [if_neg e] at hi'
          exact hJ.info n i' hi'

theorem res_wp {α : Type} {m : M α} {f : α → Res} {Q : α → St → Prop} {E : St → Prop} (h : Wp m s Q E) :
    (∃ a, (m.res f s).1 = f a ∧ Q a (m.res f s).2) ∨ ((∃ e, (m.res f s).1 = .raised e) ∧ E (m.res f s).2) := by
  unfold Wp at h
  unfold M.res
  revert h
  rcases m s with ⟨r | r, s'⟩
  · exact fun h => .inr ⟨⟨r, rfl⟩, h⟩
  · exact fun h => .inl ⟨r, rfl, h⟩

theorem J.answer (h : J P K C T N s) (id : Nat) {f : Pending → M Unit}
    (hf : ∀ p s', Node P p.name → T (pyRound p.timeSlot) = (p.timeSlot, p.cb) → (K (hour p.timeSlot)).isSome = true → J P K C T N s' →
      Wp (f p) s' (fun _ => J P K C T N) (J P K C T N)) : J P K C T N (answer id f s).2 := by
  unfold Producer.answer
  cases hp : s.pending.find? fun p => p.id = id with
  | none => exact h
  | some p =>
    dsimp only
    obtain ⟨h1, h2, h3⟩ := h.pend p (List.mem_of_find?_eq_some hp)
    have h' : J P K C T N { s with pending := s.pending.filter fun q => q.id ≠ id } :=
      ⟨h.db, h.names, h.info, h.nodup, h.slot, h.made, fun q hq => h.pend q (List.mem_of_mem_filter hq), h.outs, h.once⟩
    rcases res_wp (f := fun _ => Res.none) (hf p _ h1 h2 h3 h') with ⟨_, _, h⟩ | ⟨_, h⟩ <;> exact h

theorem info_new {P : Params} {db : List (Int × Bytes)} {n : Name} {i : KeyInfo} (h : dictGet n (new P db).info = some i) : i = {} := by
  have := PSync.dictGet_some h
  obtain ⟨x, _, hx⟩ := List.mem_map.mp this
  cases hx
  rfl

theorem J.new (P : Params) (C : ℚ → Nat → Prop) (db : List (Int × Bytes)) (T : Int → ℚ × Option Nat) (k : Nat) (out : List Out) {N : Nat → Nat}
    (hdb : ∀ h, dictGet h db = K h)
    (ho : ∀ cb l, Out.keys cb l ∈ out → ∃ t, C t cb ∧ l.length ≤ (nodes P).length ∧ ∀ c ∈ l, Packet P K out t c) (hN : ∀ cb, calls cb out ≤ N cb) :
    J P K C T N { new P db with next := k, out := out } := by
  refine ⟨hdb, ?_, fun n i h => .inl (info_new (db := db) h), List.nodup_nil, (fun _ _ h => nomatch h), (fun _ _ h => nomatch h), (fun _ h => nomatch h), ho, fun cb => ?_⟩
  · show ((nodes P).map fun n => (n, ({} : KeyInfo))).map (·.1) = _
    rw [List.map_map]
    exact List.map_id _
  · exact hN cb

/-- How many requests with the callback the call makes. -/
def creates (cb : Nat) (K : Keys) (op : Op) : Nat := match op with | .create t c _ => if (K (hour t)).isNone ∧ c = some cb then 1 else 0 | _ => 0

theorem J.step (hs : Sound P) (h : J P K C T N s) {op : Op} (hf : Fine op) (hC : ∀ t c env, op = .create t (some c) env → C t c) :
    Gives P K op (step P s op).1 ∧ J P (next K op) C (nextT K T op) (fun c => N c + creates c K op) (step P s op).2 := by
  cases op with
  | create t cb env =>
    have := res_wp (f := Res.name) (wp_create hs h hf.1 hf.2 (fun c (e : cb = some c) => hC t c env (by rw [e])))
    rcases this with ⟨a, h1, ⟨stamp, h2, h3⟩, h4⟩ | ⟨⟨e, h1⟩, h2⟩
    · refine ⟨?_, h4⟩
      intro n hn
      have h5 : (Producer.step P s (.create t cb env)).1 = .name a := h1
      rw [h5] at hn
      cases hn
      exact ⟨stamp, h2, by rw [h3]; simp [Params.space]⟩
    · refine ⟨?_, h2⟩
      intro n hn
      have h5 : (Producer.step P s (.create t cb env)).1 = .raised e := h1
      rw [h5] at hn
      nomatch hn
  | produce data t content env =>
    have := res_wp (f := Res.packet) (wp_produce hs h hf.1 hf.2 (data := data) (content := content))
    rcases this with ⟨a, h1, h2, h4⟩ | ⟨⟨e, h1⟩, h2⟩
    · refine ⟨?_, h4⟩
      have h5 : (Producer.step P s (.produce data t content env)).1 = .packet a := h1
      rw [h5]
      exact h2
    · refine ⟨?_, h2⟩
      intro n hn
      have h5 : (Producer.step P s (.produce data t content env)).1 = .raised e := h1
      rw [h5] at hn
      nomatch hn
  | data id d env =>
    refine ⟨trivial, h.answer id fun p s' h1 h2 h3 h' => ?_⟩
    rw [wp_bind, wp_modify]
    exact wp_covering hs (h'.out fun _ _ h => by cases h) hf h1 h2 h3 (List.mem_append_right _ (List.mem_singleton.mpr rfl))
  | timeout id => exact ⟨trivial, h.answer id fun p s' h1 h2 h3 h' => wp_timeout h' h1 h2 h3⟩
  | nack id => exact ⟨trivial, h.answer id fun p s' h1 h2 h3 h' => wp_nack h' h2⟩
  | restart => exact ⟨trivial, J.new P C s.db T s.next s.out h.db h.outs fun cb => le_trans (Nat.le_add_right _ _) (h.once cb)⟩

theorem J.run (hs : Sound P) : ∀ {ops : List Op} {K : Keys} {T : Int → ℚ × Option Nat} {N : Nat → Nat} {s : St}, J P K C T N s → (∀ op ∈ ops, Fine op) →
    (∀ t c env, Op.create t (some c) env ∈ ops → C t c) →
    Agree P K ops (run P s ops).1 ∧ ∃ T', J P (keysAfter K ops) C T' (fun c => N c + creations c K ops) (run P s ops).2
  | [], _, T, _, _, h, _, _ => ⟨rfl, T, h⟩
  | op :: ops, K, T, N, s, h, hf, hC => by
    obtain ⟨h1, h2⟩ := h.step hs (hf op (List.mem_cons_self ..)) (fun t c env e => hC t c env (e ▸ List.mem_cons_self ..))
    obtain ⟨h3, T'', h4⟩ := J.run hs h2 (fun o ho => hf o (List.mem_cons_of_mem _ ho)) (fun t c env ho => hC t c env (List.mem_cons_of_mem _ ho))
    refine ⟨⟨_, _, rfl, h1, h3⟩, T'', ?_⟩
    have : (fun c => N c + creations c K (op :: ops)) = fun c => N c + creates c K op + creations c (next K op) ops := by
      funext c
      show N c + (creates c K op + _) = _
      omega
    rw [this]
    exact h4

end PyNDN.Producer
