import Verif.Lemmas.ProducerStep
/-
If all goes well the producer loses no answer.
-/
namespace PyNDN.Producer
open Spec EncV1 Spec.Producer
open Encrypt (pyRound)
open Group (isoComponent)
open PSync (dictGet dictSet dictDel)
open _root_.PyNDN.Spec.Group (Sealed Stamp KeyOk)
open _root_.PyNDN.Spec.PibSqlite (upd)

/-- How many Interests for the time slot are pending. -/
def open' (tc : Int) (l : List Pending) : Nat := l.countP fun p => pyRound p.timeSlot = tc

/-- `m` answers for the time slot `tc0` are being handled. -/
structure F (P : Params) (K : Keys) (T : Int → ℚ × Option Nat) (N : Nat → Nat) (tc0 : Int) (m : Nat) (s : St) : Prop where
  db : ∀ h, dictGet h s.db = K h
  names : s.info.map (·.1) = nodes P
  keys : ∀ n i, dictGet n s.info = some i → i = {} ∨ (IsoTime i.beginSlot ∧ IsoTime i.endSlot ∧ KeyOk P.rsa i.keyBits)
  nodup : (s.requests.map (·.1)).Nodup
  cnt : ∀ tc r, dictGet tc s.requests = some r → r.count = ((open' tc s.pending + if tc = tc0 then m else 0 : Nat) : Int)
  nz : ∀ tc r, dictGet tc s.requests = some r → (T tc).2.isSome = true → r.count ≠ 0
  live : ∀ p ∈ s.pending, ∃ r a, dictGet (pyRound p.timeSlot) s.requests = some r ∧ dictGet p.name r.attempts = some a
  rest : m ≠ 0 → ∃ r, dictGet tc0 s.requests = some r
  ids : (s.pending.map (·.id)).Nodup
  fresh : ∀ p ∈ s.pending, p.id < s.next
  years : ∀ p ∈ s.pending, InYears p.timeSlot
  all : ∀ cb, calls cb s.out + (s.requests.map (·.1)).countP (fun tc => decide ((T tc).2 = some cb)) = N cb

variable {P : Params} {K : Keys} {T : Int → ℚ × Option Nat} {N : Nat → Nat} {s : St} {tc0 : Int} {m : Nat}

theorem F.any (h : F P K T N tc0 0 s) (tc : Int) : F P K T N tc 0 s :=
  ⟨h.db, h.names, h.keys, h.nodup, fun tc' r hr => by have := h.cnt tc' r hr; simpa using this, h.nz, h.live, fun h => absurd rfl h, h.ids, h.fresh, h.years, h.all⟩

theorem F.out (h : F P K T N tc0 m s) {o : Out} (ho : ∀ cb l, o ≠ .keys cb l) : F P K T N tc0 m { s with out := s.out ++ [o] } := by
  refine ⟨h.db, h.names, h.keys, h.nodup, h.cnt, h.nz, h.live, h.rest, h.ids, h.fresh, h.years, ?_⟩
  intro cb
  show calls cb (s.out ++ [o]) + _ = _
  rw [calls_snoc]
  have := h.all cb
  cases o with
  | keys c l => exact absurd rfl (ho c l)
  | _ => exact this

theorem F.update (h : F P K T N tc0 (m + 1) s) {cb : Option Nat} {r0 r : KeyRequest} (h0 : dictGet tc0 s.requests = some r0) (hT : (T tc0).2 = cb)
    (hc : r.count = r0.count) (ha : r.attempts = r0.attempts) : F P K T N tc0 m (updateS s tc0 cb r) := by
  have hk : (dictSet tc0 { r with count := r.count - 1 } s.requests).map (·.1) = s.requests.map (·.1) := keys_set h0
  have hcnt := h.cnt tc0 r0 h0
  rw [if_pos rfl] at hcnt
  have hlive : ∀ p ∈ s.pending, ∃ r' a, dictGet (pyRound p.timeSlot) (dictSet tc0 { r with count := r.count - 1 } s.requests) = some r' ∧ dictGet p.name r'.attempts = some a := by
    intro p hp
    obtain ⟨r', a, k1, k2⟩ := h.live p hp
    rw [Group.dictGet_set]
    by_cases e : pyRound p.timeSlot = tc0
    · rw [e, h0] at k1
      cases k1
      rw [if_pos e]
      exact ⟨_, a, rfl, by show dictGet p.name r.attempts = _; rw [ha]; exact k2⟩
    · rw [if_neg e]; exact ⟨r', a, k1, k2⟩
  have hset : (cb.isSome = true → r.count - 1 ≠ 0) → F P K T N tc0 m { s with requests := dictSet tc0 { r with count := r.count - 1 } s.requests } := by
    intro hnz
    refine ⟨h.db, h.names, h.keys, by rw [hk]; exact h.nodup, ?_, ?_, hlive, fun _ => ⟨_, by rw [Group.dictGet_set, if_pos rfl]⟩, h.ids, h.fresh, h.years, by rw [hk]; exact h.all⟩
    · intro tc r' hr'
      rw [Group.dictGet_set] at hr'
      by_cases e : tc = tc0
      · rw [if_pos e] at hr'
        cases hr'
        rw [if_pos e, e]
        show r.count - 1 = _
        rw [hc, hcnt]
        push_cast
        omega
      · rw [if_neg e] at hr'
        have := h.cnt tc r' hr'
        rw [if_neg e] at this ⊢
        exact this
    · intro tc r' hr' hs
      rw [Group.dictGet_set] at hr'
      by_cases e : tc = tc0
      · rw [if_pos e] at hr'
        cases hr'
        rw [e, hT] at hs
        exact hnz hs
      · rw [if_neg e] at hr'
        exact h.nz tc r' hr' hs
  unfold updateS
  cases cb with
  | none => exact hset (fun h => nomatch h)
  | some cb =>
    dsimp only
    by_cases e0 : r.count - 1 = 0
    · rw [if_pos e0]
      have h1 : open' tc0 s.pending = 0 ∧ m = 0 := by
        rw [hc, hcnt] at e0
        push_cast at e0
        omega
      have hnone : ∀ p ∈ s.pending, pyRound p.timeSlot ≠ tc0 := by
        intro p hp e
        have h3 := h1.1
        unfold open' at h3
        rw [List.countP_eq_zero] at h3
        exact h3 p hp (by simpa using e)
      have hkd := keys_del tc0 (dictSet tc0 { r with count := r.count - 1 } s.requests)
      have hg : ∀ tc' r', dictGet tc' (dictDel tc0 (dictSet tc0 { r with count := r.count - 1 } s.requests)) = some r' → tc' ≠ tc0 ∧ dictGet tc' s.requests = some r' := by
        intro tc' r' hr
        rw [Group.dictGet_del] at hr
        by_cases e : tc' = tc0
        · rw [if_pos e] at hr; nomatch hr
        · rw [if_neg e, Group.dictGet_set, if_neg e] at hr; exact ⟨e, hr⟩
      refine ⟨h.db, h.names, h.keys, ?_, ?_, fun tc r' hr => h.nz tc r' (hg tc r' hr).2, ?_, fun hm => absurd h1.2 hm, h.ids, h.fresh, h.years, ?_⟩
      · rw [hkd, hk]; exact h.nodup.filter _
      · intro tc r' hr
        obtain ⟨k1, k2⟩ := hg tc r' hr
        have := h.cnt tc r' k2
        rw [if_neg k1] at this ⊢
        exact this
      · intro p hp
        have e := hnone p hp
        obtain ⟨r', a, k1, k2⟩ := h.live p hp
        refine ⟨r', a, ?_, k2⟩
        rw [Group.dictGet_del, if_neg e, Group.dictGet_set, if_neg e]
        exact k1
      · intro cb'
        show calls cb' (s.out ++ [.keys cb r.keys]) + _ = _
        rw [hkd, hk, calls_snoc]
        have h2 := h.all cb'
        rw [countP_del h.nodup (mem_keys.mpr ⟨_, h0⟩)] at h2
        have : (if decide ((T tc0).2 = some cb') = true then 1 else 0) = if cb = cb' then 1 else 0 := by
          rw [hT]; simp
        rw [this] at h2
        dsimp only
        omega
    · rw [if_neg e0]
      exact hset fun _ => e0

theorem open_snoc (tc : Int) (l : List Pending) (p : Pending) : open' tc (l ++ [p]) = open' tc l + if pyRound p.timeSlot = tc then 1 else 0 := by
  unfold open'
  rw [List.countP_append, List.countP_singleton]
  simp

/-- An Interest takes the place of an answer. -/
theorem F.send (h : F P K T N tc0 (m + 1) s) {n : Name} {x : Exclude} {t : ℚ} {cb : Option Nat} {again : Bool} {k : Nat} {r : KeyRequest} (ht : pyRound t = tc0)
    (hy : InYears t) (h0 : dictGet tc0 s.requests = some r) :
    F P K T N tc0 m (sendS { s with requests := dictSet tc0 { r with attempts := dictSet n k r.attempts } s.requests } n x t cb again) := by
  have hk : (dictSet tc0 { r with attempts := dictSet n k r.attempts } s.requests).map (·.1) = s.requests.map (·.1) := keys_set h0
  refine ⟨h.db, h.names, h.keys, by show ((dictSet tc0 _ s.requests).map (·.1)).Nodup; rw [hk]; exact h.nodup, ?_, ?_, ?_, fun _ => ⟨_, by show dictGet tc0 (dictSet tc0 _ s.requests) = _; rw [Group.dictGet_set, if_pos rfl]⟩, ?_, ?_, ?_, ?_⟩
  · intro tc r' hr'
    change dictGet tc (dictSet tc0 _ s.requests) = _ at hr'
    show r'.count = ((open' tc (s.pending ++ [_]) + _ : Nat) : Int)
    rw [Group.dictGet_set] at hr'
    rw [open_snoc]
    dsimp only
    rw [ht]
    by_cases e : tc = tc0
    · rw [if_pos e] at hr'
      cases hr'
      have := h.cnt tc0 r h0
      rw [if_pos rfl] at this
      rw [if_pos e, e, if_pos rfl]
      show r.count = _
      rw [this]
      push_cast
      omega
    · rw [if_neg e] at hr'
      have := h.cnt tc r' hr'
      rw [if_neg e] at this ⊢
      rw [if_neg (fun h => e h.symm)]
      exact this
  · intro tc r' hr'
    change dictGet tc (dictSet tc0 _ s.requests) = _ at hr'
    rw [Group.dictGet_set] at hr'
    by_cases e : tc = tc0
    · rw [if_pos e] at hr'
      cases hr'
      rw [e]
      exact h.nz tc0 r h0
    · rw [if_neg e] at hr'
      exact h.nz tc r' hr'
  · intro p hp
    show ∃ r' a, dictGet _ (dictSet tc0 _ s.requests) = some r' ∧ _
    rw [Group.dictGet_set]
    rcases List.mem_append.mp hp with hp | hp
    · obtain ⟨r', a, k1, k2⟩ := h.live p hp
      by_cases e : pyRound p.timeSlot = tc0
      · rw [e, h0] at k1
        cases k1
        rw [if_pos e]
        by_cases e2 : p.name = n
        · exact ⟨_, k, rfl, by show dictGet p.name (dictSet n k r.attempts) = _; rw [Group.dictGet_set, if_pos e2]⟩
        · exact ⟨_, a, rfl, by show dictGet p.name (dictSet n k r.attempts) = _; rw [Group.dictGet_set, if_neg e2]; exact k2⟩
      · rw [if_neg e]; exact ⟨r', a, k1, k2⟩
    · rw [List.mem_singleton.mp hp, if_pos ht]
      exact ⟨_, k, rfl, by show dictGet n (dictSet n k r.attempts) = _; rw [Group.dictGet_set, if_pos rfl]⟩
  · show ((s.pending ++ [_]).map (fun p : Pending => p.id)).Nodup
    rw [List.map_append, List.nodup_append]
    refine ⟨h.ids, by simp, ?_⟩
    intro a ha b hb e
    simp only [List.map_cons, List.map_nil, List.mem_singleton] at hb
    obtain ⟨p, hp, hpa⟩ := List.mem_map.mp ha
    have := h.fresh p hp
    omega
  · intro p hp
    show p.id < s.next + 1
    rcases List.mem_append.mp hp with hp | hp
    · have := h.fresh p hp; omega
    · rw [List.mem_singleton.mp hp]; exact Nat.lt_succ_self _
  · intro p hp
    rcases List.mem_append.mp hp with hp | hp
    · exact h.years p hp
    · rw [List.mem_singleton.mp hp]; exact hy
  · intro c
    show calls c (s.out ++ [_]) + ((dictSet tc0 _ s.requests).map (·.1)).countP _ = _
    rw [hk, calls_snoc]
    exact h.all c

/-- The face takes a pending Interest. -/
theorem F.pop (h : F P K T N tc0 0 s) {p : Pending} {id : Nat} (hp : s.pending.find? (fun p => p.id = id) = some p) :
    F P K T N (pyRound p.timeSlot) 1 { s with pending := s.pending.filter fun q => q.id ≠ id } := by
  have hm := List.mem_of_find?_eq_some hp
  have hid : p.id = id := by simpa using List.find?_some hp
  have hsub : ∀ q ∈ s.pending.filter (fun q => q.id ≠ id), q ∈ s.pending := fun q hq => List.mem_of_mem_filter hq
  have hcount : ∀ tc, open' tc s.pending = open' tc (s.pending.filter fun q => q.id ≠ id) + if tc = pyRound p.timeSlot then 1 else 0 := by
    intro tc
    have hids := h.ids
    clear hp hsub h
    unfold open'
    revert hm hids
    generalize s.pending = L
    intro hm hids
    induction L with
    | nil => nomatch hm
    | cons q l ih =>
      rw [List.map_cons, List.nodup_cons] at hids
      by_cases e : q.id = id
      · have hq : q = p := by
          rcases List.mem_cons.mp hm with h | h
          · exact h.symm
          · exact absurd (List.mem_map.mpr ⟨p, h, by rw [hid, e]⟩) hids.1
        rw [List.filter_cons_of_neg (by simpa using e), List.filter_eq_self.mpr, List.countP_cons, hq]
        · by_cases e2 : tc = pyRound p.timeSlot
          · rw [if_pos e2, if_pos (by simpa using e2.symm)]
          · rw [if_neg e2, if_neg (by simpa using fun h => e2 h.symm)]
        · intro x hx
          have : x.id ≠ id := by
            intro e3
            exact hids.1 (List.mem_map.mpr ⟨x, hx, by rw [e3, e]⟩)
          simpa using this
      · have hml : p ∈ l := by
          rcases List.mem_cons.mp hm with h | h
          · exact absurd (by rw [← h]; exact hid) e
          · exact h
        rw [List.filter_cons_of_pos (by simpa using e), List.countP_cons, List.countP_cons, ih hml hids.2]
        omega
  refine ⟨h.db, h.names, h.keys, h.nodup, ?_, h.nz, fun q hq => h.live q (hsub q hq), fun _ => ?_, h.ids.sublist (List.Sublist.map _ List.filter_sublist), fun q hq => h.fresh q (hsub q hq),
    fun q hq => h.years q (hsub q hq), h.all⟩
  · intro tc r hr
    have := h.cnt tc r hr
    rw [hcount tc] at this
    rw [this]
    show _ = ((open' tc (s.pending.filter fun q => q.id ≠ id) + _ : Nat) : Int)
    congr 1
    by_cases e : tc = tc0 <;> simp [e]
  · obtain ⟨r, a, k1, _⟩ := h.live p hm
    exact ⟨r, k1⟩

theorem F.create (h : F P K T N tc0 0 s) {t : ℚ} {cb : Option Nat} {key : Bytes} (hd : P.dataType ≠ []) (hK : K (hour t) = none)
    (hr : dictGet (pyRound t) s.requests = none) (hp : ∀ p ∈ s.pending, pyRound p.timeSlot ≠ pyRound t) :
    F P (upd K (hour t) (some key)) (upd T (pyRound t) (t, cb)) (fun c => N c + if cb = some c then 1 else 0) (pyRound t) (nodes P).length
      { s with db := s.db ++ [(hour t, key)], requests := dictSet (pyRound t) { count := s.info.length } s.requests } := by
  have hlen : s.info.length = (nodes P).length := by rw [← h.names, List.length_map]
  have hpos : 0 < (nodes P).length := by rw [nodes_length]; exact List.length_pos_iff.mpr hd
  have hne : ∀ tc r, dictGet tc s.requests = some r → tc ≠ pyRound t := by
    rintro tc r hr' rfl
    rw [hr] at hr'; nomatch hr'
  have hset : dictSet (pyRound t) { count := s.info.length } s.requests = s.requests ++ [(pyRound t, { count := s.info.length })] := PSync.dictSet_new (PSync.dictGet_none.mp hr)
  refine ⟨?_, h.names, h.keys, ?_, ?_, ?_, ?_, fun _ => ⟨_, by rw [Group.dictGet_set, if_pos rfl]⟩, h.ids, h.fresh, h.years, ?_⟩
  · intro x
    show dictGet x (s.db ++ [(hour t, key)]) = _
    rw [get_append _ _ _ _ (by rw [h.db]; exact hK)]
    by_cases e : x = hour t
    · rw [if_pos e, e, upd_same]
    · rw [if_neg e, upd_other _ _ e]; exact h.db x
  · show ((dictSet (pyRound t) { count := s.info.length } s.requests).map (·.1)).Nodup
    rw [hset, List.map_append, List.nodup_append]
    refine ⟨h.nodup, by simp, ?_⟩
    intro a ha b hb e
    simp only [List.map_cons, List.map_nil, List.mem_singleton] at hb
    obtain ⟨v, hv⟩ := mem_keys.mp ha
    exact hne a v hv (e.trans hb)
  · intro tc r hr'
    rw [Group.dictGet_set] at hr'
    by_cases e : tc = pyRound t
    · rw [if_pos e] at hr'
      cases hr'
      rw [if_pos e, e]
      have : open' (pyRound t) s.pending = 0 := by
        unfold open'
        rw [List.countP_eq_zero]
        intro p hp'
        simpa using hp p hp'
      show (s.info.length : Int) = ((open' (pyRound t) s.pending + _ : Nat) : Int)
      rw [this, hlen]
      simp
    · rw [if_neg e] at hr'
      rw [if_neg e]
      have := h.cnt tc r hr'
      simpa using this
  · intro tc r hr' hs
    rw [Group.dictGet_set] at hr'
    by_cases e : tc = pyRound t
    · rw [if_pos e] at hr'
      cases hr'
      show (s.info.length : Int) ≠ 0
      omega
    · rw [if_neg e] at hr'
      rw [upd_other _ _ e] at hs
      exact h.nz tc r hr' hs
  · intro p hp'
    obtain ⟨r, a, k1, k2⟩ := h.live p hp'
    refine ⟨r, a, ?_, k2⟩
    rw [Group.dictGet_set, if_neg (hp p hp')]
    exact k1
  · intro c
    show calls c s.out + ((dictSet (pyRound t) { count := s.info.length } s.requests).map (·.1)).countP _ = _
    rw [hset, List.map_append, List.countP_append]
    have h1 : (s.requests.map (·.1)).countP (fun tc => decide ((upd T (pyRound t) (t, cb) tc).2 = some c)) = (s.requests.map (·.1)).countP (fun tc => decide ((T tc).2 = some c)) := by
      refine List.countP_congr fun a ha => ?_
      obtain ⟨v, hv⟩ := mem_keys.mp ha
      rw [upd_other _ _ (hne a v hv)]
    rw [h1]
    have := h.all c
    simp only [List.map_cons, List.map_nil, List.countP_singleton, upd_same]
    simp only [decide_eq_true_eq]
    omega

/-! ### Encryption succeeds -/

theorem stampTime_of {c : Component} {ms : Int} (h : Stamp c ms) (hi : IsoTime ms) : stampTime c = .ok ms := by
  obtain ⟨s, h1, h2, h3⟩ := iso_roundtrip ms hi
  obtain ⟨_, s', k1, rfl⟩ := h
  rw [h1] at k1
  cases k1
  show (utf8Decode (asciiBytes s) >>= fun v => fromIsoString v) = _
  rw [h2]; exact h3

theorem node_canonical (hs : Sound P) {n : Name} (h : Node P n) : CanonicalName n := by
  obtain ⟨k, _, _, rfl⟩ := h
  intro c hc
  simp only [List.mem_append, List.mem_singleton] at hc
  rcases hc with ((hc | hc) | hc) | hc
  · exact hs.name c (by simp [hc])
  · rw [hc]; exact Group.canonical_generic _
  · exact hs.name c (by simp [List.mem_of_mem_take hc])
  · rw [hc]; exact Group.canonical_generic _

theorem F.encrypt (hs : Sound P) (h : F P K T N tc0 (m + 1) s) {key : Bytes} {name : Name} {t : ℚ} {cb : Option Nat} {rnd : Random} (ht : pyRound t = tc0) (hy : InYears t)
    (hT : (T tc0).2 = cb) (hK : (K (hour t)).isSome) (hr : rnd.nonce.length = 16 ∧ rnd.iv.length = 16) (hn : CanonicalName name) (hkey : KeyOk P.rsa key) :
    Wp (encryptContentKey P key name t cb rnd) s (fun b s' => b = true ∧ F P K T N tc0 m s' ∧ s'.info = s.info) (fun _ => False) := by
  obtain ⟨stamp, k1, _⟩ := stamp_hour hy
  obtain ⟨r0, k2⟩ := h.rest (Nat.succ_ne_zero m)
  refine wp_encrypt ?_ ?_ ?_ ?_ ?_ ?_
  · intro h; rw [ht, k2] at h; nomatch h
  · intro e h; rw [k1] at h; nomatch h
  · intro h3; rw [h.db] at h3; rw [h3] at hK; nomatch hK
  · intro r st k e _ _ _ h4
    obtain ⟨c, h5, _⟩ := Group.encryptDataRsa_ok (A := P.aes) hn hkey { name := P.space ++ [cKeyC, st] } k hr.1 hr.2
    rw [h4] at h5; nomatch h5
  · intro d e h3
    obtain ⟨d', h4, _⟩ := hs.sign d
    rw [h3] at h4; nomatch h4
  · intro r st k d d' h1 _ _ _ _
    rw [packetS_eq]
    rw [ht] at h1 ⊢
    refine ⟨rfl, h.update h1 hT rfl rfl, ?_⟩
    unfold updateS
    cases cb with
    | none => rfl
    | some cb =>
      dsimp only
      split <;> rfl

theorem info_get (h : F P K T N tc0 m s) {n : Name} (hn : n ∈ nodes P) : ∃ i, dictGet n s.info = some i := by
  rw [← h.names] at hn
  exact mem_keys.mp hn

theorem canonical_append {a b : Name} (ha : CanonicalName a) (hb : CanonicalName b) : CanonicalName (a ++ b) := by
  intro c hc
  rcases List.mem_append.mp hc with h | h
  · exact ha c h
  · exact hb c h

theorem stamp_canonical {c : Component} {ms : Int} (h : Stamp c ms) : Canonical c := by
  obtain ⟨_, s, _, rfl⟩ := h
  exact Group.canonical_generic _

theorem F.loop (hs : Sound P) {t : ℚ} {cb : Option Nat} {x : Exclude} {rnd : Nat → Random} (hr : ∀ i, (rnd i).nonce.length = 16 ∧ (rnd i).iv.length = 16)
    (ht : pyRound t = tc0) (hy : InYears t) (hT : (T tc0).2 = cb) (hK : (K (hour t)).isSome) : ∀ {ns : List Name} {i : Nat} {s : St}, (∀ n ∈ ns, n ∈ nodes P) →
    F P K T N tc0 ns.length s → Wp (requestKeys P t cb x rnd i ns) s (fun _ => F P K T N tc0 0) (fun _ => False) := by
  intro ns
  induction ns with
  | nil => intro i s _ h; exact h
  | cons n ns ih =>
    intro i s hns h
    rw [List.length_cons] at h
    have hns' : ∀ n ∈ ns, n ∈ nodes P := fun n hn => hns n (List.mem_cons_of_mem _ hn)
    obtain ⟨r0, k2⟩ := h.rest (Nat.succ_ne_zero _)
    unfold requestKeys
    rw [wp_bind, wp_get]
    obtain ⟨info, hi⟩ := info_get h (hns n (List.mem_cons_self ..))
    rw [hi]
    dsimp only
    by_cases hc : t < info.beginSlot ∨ t ≥ info.endSlot
    · rw [if_pos hc, wp_bind, wp_setAttempts]
      refine ⟨fun r h0 => ?_, fun h => by rw [ht, k2] at h; nomatch h⟩
      rw [wp_bind, wp_send]
      rw [ht] at h0 ⊢
      exact ih hns' (h.send ht hy h0)
    · rw [if_neg hc]
      push Not at hc
      rcases h.keys n info hi with rfl | ⟨i1, i2, i3⟩
      · exact absurd hc.1 (by simpa using hc.2)
      obtain ⟨b, hb, hb2, _⟩ := stamp_int i1
      obtain ⟨e, he, he2, _⟩ := stamp_int i2
      rw [wp_bind, wp_lifted]
      refine ⟨fun b' hb' => ?_, fun _ h => by rw [hb] at h; nomatch h⟩
      rw [hb] at hb'
      cases hb'
      rw [wp_bind, wp_lifted]
      refine ⟨fun e' he' => ?_, fun _ h => by rw [he] at h; nomatch h⟩
      rw [he] at he'
      cases he'
      rw [wp_bind]
      refine (h.encrypt hs ht hy hT hK (hr i) (canonical_append (node_canonical hs (node_of_mem (hns n (List.mem_cons_self ..)))) ?_) i3).imp (fun _ s' h' => ih hns' h'.2.1) (fun _ x => x)
      intro c hc
      simp only [List.mem_cons, List.not_mem_nil, or_false] at hc
      rcases hc with rfl | rfl
      · exact stamp_canonical hb2
      · exact stamp_canonical he2

theorem F.createKey (hs : Sound P) (hd : P.dataType ≠ []) {C : ℚ → Nat → Prop} {N' : Nat → Nat} (hj : J P K C T N' s) (h : F P K T N tc0 0 s) {t : ℚ} {cb : Option Nat} {env : Env}
    (ht : InYears t) (he : EnvOk env) : Wp (createContentKey P t cb env) s
      (fun _ s' => ∀ tc, F P (made K t env.key) (slots K T t cb) (fun c => N c + one K t cb c) tc 0 s') (fun _ => False) := by
  obtain ⟨stamp, k1, k2⟩ := stamp_hour ht
  obtain ⟨c, k3, _⟩ := stamp_slot ht
  unfold createContentKey
  rw [wp_bind, wp_lifted]
  refine ⟨fun st hst => ?_, fun e h => by rw [k1] at h; nomatch h⟩
  dsimp only
  rw [wp_bind, wp_hasContentKey, h.db]
  cases hK : K (hour t) with
  | some k =>
    rw [if_pos (show (some k).isSome = true from rfl), wp_pure]
    have h0 : slots K T t cb = T := by unfold slots; rw [hK]; rfl
    have h1 : made K t env.key = K := by unfold made; rw [hK]; rfl
    have h2 : (fun c => N c + one K t cb c) = N := by
      funext c
      unfold one
      rw [hK]
      simp
    rw [h0, h1, h2]
    exact h.any
  | none =>
    have h0 : slots K T t cb = upd T (pyRound t) (t, cb) := by unfold slots; rw [hK]; rfl
    have h1 : made K t env.key = upd K (hour t) (some env.key) := by unfold made; rw [hK]; rfl
    have h2 : (fun c => N c + one K t cb c) = fun c => N c + if cb = some c then 1 else 0 := by
      funext c
      unfold one
      rw [hK]
      simp
    rw [h0, h1, h2]
    have hnew : dictGet (pyRound t) s.requests = none := by
      cases hr : dictGet (pyRound t) s.requests with
      | none => rfl
      | some r =>
        obtain ⟨h1, h2, _⟩ := hj.slot _ r hr
        rw [hour_congr h1, hK] at h2
        nomatch h2
    have hpn : ∀ p ∈ s.pending, pyRound p.timeSlot ≠ pyRound t := by
      intro p hp e
      have h3 := (hj.pend p hp).2.2
      rw [hour_congr e, hK] at h3
      nomatch h3
    have hF := h.create (cb := cb) (key := env.key) hd hK hnew hpn
    rw [if_neg (by decide)]
    unfold addContentKey
    rw [wp_bind, wp_bind, wp_hasContentKey, h.db, hK, if_neg (by decide), wp_modify, wp_bind, wp_get, wp_bind, wp_setRequest, wp_bind, wp_lifted]
    refine ⟨fun c' hc' => ?_, fun e h => by rw [k3] at h; nomatch h⟩
    rw [wp_bind, wp_get, wp_bind]
    refine (F.loop (K := upd K (hour t) (some env.key)) (T := upd T (pyRound t) (t, cb)) (tc0 := pyRound t) (cb := cb) hs (x := ExcludeRange.excludeAfter [] c') (rnd := env.rnd) (ns := s.info.map (·.1)) he.2.2 rfl ht (by rw [upd_same]) (by rw [upd_same]; rfl)
      (fun n hn => by rw [← h.names]; exact hn) (by rw [h.names]; exact hF)).imp ?_ ?_
    · intro _ s' h'
      exact h'.any
    · exact fun s' h' => h'

theorem F.nack (h : F P K T N tc0 1 s) {t : ℚ} {cb : Option Nat} (ht : pyRound t = tc0) (hT : (T tc0).2 = cb) :
    Wp (handleNetworkNack t cb) s (fun _ => F P K T N tc0 0) (fun _ => False) := by
  obtain ⟨r0, k2⟩ := h.rest (Nat.succ_ne_zero 0)
  unfold handleNetworkNack
  rw [wp_bind, wp_getRequest]
  refine ⟨fun r hr => ?_, fun h => by rw [ht, k2] at h; nomatch h⟩
  rw [wp_update]
  refine ⟨fun r' hr' => ?_, fun h => by rw [ht, k2] at h; nomatch h⟩
  rw [ht] at hr' ⊢
  exact h.update hr' hT rfl rfl

theorem F.timeout (h : F P K T N tc0 1 s) {p : Pending} (ht : pyRound p.timeSlot = tc0) (hT : (T tc0).2 = p.cb) (hy : InYears p.timeSlot)
    (hl : ∃ r a, dictGet tc0 s.requests = some r ∧ dictGet p.name r.attempts = some a) :
    Wp (handleTimeout P p) s (fun _ => F P K T N tc0 0) (fun _ => False) := by
  obtain ⟨r0, a, k2, k3⟩ := hl
  unfold handleTimeout
  rw [wp_bind, wp_getRequest]
  refine ⟨fun r hr => ?_, fun h => by rw [ht, k2] at h; nomatch h⟩
  rw [ht, k2] at hr
  cases hr
  rw [k3]
  dsimp only
  by_cases hc : a < P.maxRepeat
  · rw [if_pos hc, wp_bind, wp_setAttempts]
    refine ⟨fun r' h0 => ?_, fun h => by rw [ht, k2] at h; nomatch h⟩
    rw [wp_send]
    rw [ht] at h0 ⊢
    exact h.send ht hy h0
  · rw [if_neg hc]
    exact h.nack ht hT

/-! ### excludeBefore does not raise -/

theorem findFrom_lt (es : List ExcludeRange.Entry) (c : Component) : ∀ n, ExcludeRange.findFrom es c n < n ∨ ExcludeRange.findFrom es c n = -1
  | 0 => .inr rfl
  | n + 1 => by
    unfold ExcludeRange.findFrom
    split
    · rename_i h
      split
      · left; omega
      · rcases findFrom_lt es c n with h | h
        · left; omega
        · right; exact h
    · rcases findFrom_lt es c n with h | h
      · left; omega
      · right; exact h

theorem excludeBefore_ok (x : Exclude) {c : Component} (h : ExcludeRange.emptyComponent.compare c < 0) : ∃ y, ExcludeRange.excludeBefore x c = .ok y := by
  unfold ExcludeRange.excludeBefore ExcludeRange.excludeRange
  rw [if_neg (by omega)]
  have hne : (ExcludeRange.openRange (ExcludeRange.getEntries x) ExcludeRange.emptyComponent).1 ≠ [] := by
    unfold ExcludeRange.openRange
    dsimp only
    split
    · simp
    · rename_i h1
      have hne : ExcludeRange.getEntries x ≠ [] := by
        intro e
        rw [e] at h1
        exact h1 (by decide)
      split
      · exact hne
      · split
        · split
          · simpa using hne
          · intro e
            have := congrArg List.length e
            rw [List.length_insertIdx] at this
            split at this
            · simp at this
            · exact hne (List.length_eq_zero_iff.mp this)
        · exact hne
  generalize hE : ExcludeRange.openRange (ExcludeRange.getEntries x) ExcludeRange.emptyComponent = E at hne
  obtain ⟨entries, i⟩ := E
  dsimp only at hne ⊢
  split
  · exact ⟨_, rfl⟩
  · have hlt : (ExcludeRange.findBeforeOrAt entries c).toNat < entries.length := by
      have hpos := List.length_pos_iff.mpr hne
      unfold ExcludeRange.findBeforeOrAt
      rcases findFrom_lt entries c entries.length with h | h <;> omega
    rw [List.getElem?_eq_getElem hlt]
    dsimp only
    split
    · split <;> exact ⟨_, rfl⟩
    · exact ⟨_, rfl⟩

theorem stamp_plain {c : Component} {ms : Int} (h : Stamp c ms) (hi : IsoTime ms) : Spec.ExcludeRange.Plain c := by
  have h1 := stampTime_of h hi
  obtain ⟨_, s, _, rfl⟩ := h
  refine ⟨rfl, fun e => ?_⟩
  have : (Component.generic (asciiBytes s)).value = [] := e
  unfold stampTime at h1
  rw [this] at h1
  have h2 : (utf8Decode [] >>= fun v => fromIsoString v).toBool = false := by decide +kernel
  have h3 : (utf8Decode [] >>= fun v => fromIsoString v) = .ok ms := h1
  rw [h3] at h2
  nomatch h2

theorem F.covering (hs : Sound P) (h : F P K T N tc0 1 s) {p : Pending} {d : Data} {env : Env} (he : EnvOk env) (hd : EKey P d) (ht : pyRound p.timeSlot = tc0)
    (hT : (T tc0).2 = p.cb) (hy : InYears p.timeSlot) (hK : (K (hour p.timeSlot)).isSome) (hn : p.name ∈ nodes P) :
    Wp (handleCoveringKey P p d env) s (fun _ => F P K T N tc0 0) (fun _ => False) := by
  obtain ⟨r0, k2⟩ := h.rest (Nat.succ_ne_zero 0)
  obtain ⟨d1, d2, rest, c1, c2, b, e, d3, d4, d5, d6, d7⟩ := hd
  have hl2 : lastTwo d.name = .ok (c1, c2) := by
    unfold lastTwo
    rw [d3]
    simp
  unfold handleCoveringKey
  rw [wp_bind, wp_getRequest]
  refine ⟨fun r hr => ?_, fun h => by rw [ht, k2] at h; nomatch h⟩
  rw [hl2, wp_bind, wp_lifted]
  refine ⟨?_, fun _ h => nomatch h⟩
  rintro ⟨_, _⟩ h1
  cases h1
  dsimp only
  rw [stampTime_of d4 d6, stampTime_of d5 d7, wp_bind, wp_lifted]
  refine ⟨fun beginSlot h2 => ?_, fun _ h => nomatch h⟩
  cases h2
  rw [wp_bind, wp_lifted]
  refine ⟨fun endSlot h3 => ?_, fun _ h => nomatch h⟩
  cases h3
  by_cases hc : p.timeSlot ≥ e
  · rw [if_pos hc, wp_bind, wp_lifted]
    obtain ⟨y, hy'⟩ := excludeBefore_ok p.exclude (c := c1) (by
      rw [(C10_compare_lt _ _).mpr (ExcludeRange.empty_lt (stamp_plain d4 d6))]; decide)
    refine ⟨fun x hx => ?_, fun _ h => by rw [hy'] at h; nomatch h⟩
    rw [wp_bind, wp_setAttempts]
    refine ⟨fun r' h0 => ?_, fun h => by rw [ht, k2] at h; nomatch h⟩
    rw [wp_send]
    rw [ht] at h0 ⊢
    exact h.send ht hy h0
  · rw [if_neg hc, wp_bind]
    refine (h.encrypt hs ht hy hT hK (he.2.2 0) d1 d2).imp ?_ (fun _ x => x)
    rintro ok s' ⟨rfl, hF, hi⟩
    rw [if_pos rfl, wp_bind, wp_get]
    obtain ⟨i, hg⟩ := info_get hF hn
    rw [hg]
    dsimp only
    rw [wp_modify]
    refine ⟨hF.db, by rw [keys_set hg]; exact hF.names, ?_, hF.nodup, hF.cnt, hF.nz, hF.live, hF.rest, hF.ids, hF.fresh, hF.years, hF.all⟩
    intro n i' hi'
    simp only [Group.dictGet_set] at hi'
    by_cases e' : n = p.name
    · rw [if_pos e'] at hi'
      cases hi'
      exact .inr ⟨d6, d7, d2⟩
    · rw [if_neg e'] at hi'
      exact hF.keys n i' hi'

/-! ### Calls and events -/

def Res.Fails : Res → Prop
  | .raised _ => True
  | _ => False

theorem mem_nodes_of {n : Name} (h : Node P n) : n ∈ nodes P := by
  obtain ⟨k, h1, h2, rfl⟩ := h
  exact mem_nodesFrom_iff h1 h2

theorem space_canonical (hs : Sound P) : CanonicalName P.space := by
  have : P.space = P.pre ++ [sampleC] ++ P.dataType := by simp [Params.space]
  rw [this]
  exact hs.name

theorem F.produceData (hs : Sound P) (hd : P.dataType ≠ []) {C : ℚ → Nat → Prop} {N' : Nat → Nat} (hj : J P K C T N' s) (h : F P K T N tc0 0 s) {data : Data} {t : ℚ} {content : Bytes}
    {env : Env} (ht : InYears t) (he : EnvOk env) : Wp (produce P data t content env) s
      (fun _ s' => ∀ tc, F P (made K t env.key) (slots K T t none) N tc 0 s') (fun _ => False) := by
  obtain ⟨c, k3, k4⟩ := stamp_slot ht
  have hN : (fun c => N c + one K t none c) = N := by
    funext c
    unfold one
    rw [if_neg (fun h => by cases h.2)]
    rfl
  unfold produce
  rw [wp_bind]
  have hboth : Wp (createContentKey P t none env) s
      (fun n s' => (∃ stamp, Stamp stamp (hour t * 3600000) ∧ n = P.space ++ [cKeyC, stamp]) ∧ ∀ tc, F P (made K t env.key) (slots K T t none) N tc 0 s') (fun _ => False) := by
    have h1 := wp_create hs hj ht he (fun c (h : (none : Option Nat) = some c) => nomatch h)
    have h2 := F.createKey hs hd hj h (cb := none) ht he
    rw [hN] at h2
    unfold Wp at *
    revert h1 h2
    rcases createContentKey P t none env s with ⟨r | r, s'⟩
    · exact fun _ h => h
    · exact fun h1 h2 => ⟨h1.1, h2⟩
  refine hboth.imp ?_ (fun _ h => h)
  rintro n s' ⟨⟨stamp, k1, k2⟩, hF⟩
  rw [wp_bind, wp_getContentKey]
  obtain ⟨k, hk⟩ := made_some K t env.key
  refine ⟨fun key hkey => ?_, fun h => by rw [(hF 0).db, hk] at h; nomatch h⟩
  rw [wp_bind, wp_lifted]
  refine ⟨fun c' hc' => ?_, fun e h => by rw [k3] at h; nomatch h⟩
  rw [wp_bind, wp_lifted]
  have hcan : CanonicalName n := by
    rw [k2]
    refine canonical_append (space_canonical hs) ?_
    intro c hc
    simp only [List.mem_cons, List.not_mem_nil, or_false] at hc
    rcases hc with rfl | rfl
    · exact Group.canonical_generic _
    · exact stamp_canonical k1
  refine ⟨fun d hd => ?_, fun e h => ?_⟩
  · rw [wp_lifted]
    refine ⟨fun d' hd' => hF, fun e h => ?_⟩
    obtain ⟨d', h4, _⟩ := hs.sign d
    rw [h] at h4; nomatch h4
  · unfold encryptDataAes encryptSymmetric at h
    dsimp only at h
    rw [if_neg (by rw [he.2.1]; simp)] at h
    obtain ⟨w, hw⟩ := Group.encrypted_ok { algorithmType := some 1, keyLocator := locator n, payload := some (P.aes.encryptCbc key env.iv content), initialVector := some env.iv } rfl rfl hcan
    have h5 : (Encrypt.encodeEncryptedContent { algorithmType := some 1, keyLocator := locator n, payload := some (P.aes.encryptCbc key env.iv content), initialVector := some env.iv } >>=
      fun wire => (pure { data with name := P.space ++ [c'] ++ forC :: n, content := some wire } : Except Err Data)) = .error e := h
    rw [hw] at h5
    nomatch h5

theorem F.answer {C : ℚ → Nat → Prop} {N' : Nat → Nat} (hj : J P K C T N' s) (h : F P K T N tc0 0 s) (id : Nat) {f : Pending → M Unit}
    (hf : ∀ p s', F P K T N (pyRound p.timeSlot) 1 s' → p.name ∈ nodes P → (T (pyRound p.timeSlot)).2 = p.cb → (K (hour p.timeSlot)).isSome = true → InYears p.timeSlot →
      (∃ r a, dictGet (pyRound p.timeSlot) s'.requests = some r ∧ dictGet p.name r.attempts = some a) →
      Wp (f p) s' (fun _ => F P K T N (pyRound p.timeSlot) 0) (fun _ => False)) :
    ¬ (answer id f s).1.Fails ∧ F P K T N 0 0 (answer id f s).2 := by
  unfold Producer.answer
  cases hp : s.pending.find? fun p => p.id = id with
  | none => exact ⟨fun h => h, h.any 0⟩
  | some p =>
    dsimp only
    have hm := List.mem_of_find?_eq_some hp
    obtain ⟨h1, h2, h3⟩ := hj.pend p hm
    rcases res_wp (f := fun _ => Res.none) (hf p _ (h.pop hp) (mem_nodes_of h1) (by rw [h2]) h3 (h.years p hm) (h.live p hm)) with ⟨_, h5, h6⟩ | ⟨_, h7⟩
    · rw [h5]; exact ⟨fun h => h, h6.any 0⟩
    · exact h7.elim

theorem F.step (hs : Sound P) (hd : P.dataType ≠ []) {C : ℚ → Nat → Prop} {N' : Nat → Nat} (hj : J P K C T N' s) (h : F P K T N 0 0 s) {op : Op} (hf : Fine op) (hh : Honest P op) :
    ¬ (step P s op).1.Fails ∧ F P (next K op) (nextT K T op) (fun c => N c + creates c K op) 0 0 (step P s op).2 := by
  cases op with
  | create t cb env =>
    rcases res_wp (f := Res.name) (F.createKey hs hd hj h hf.1 hf.2) with ⟨a, h1, h2⟩ | ⟨_, h2⟩
    · refine ⟨?_, h2 0⟩
      have h5 : (Producer.step P s (.create t cb env)).1 = .name a := h1
      rw [h5]
      exact fun h => h
    · exact h2.elim
  | produce data t content env =>
    rcases res_wp (f := Res.packet) (F.produceData hs hd hj h (data := data) (content := content) hf.1 hf.2) with ⟨a, h1, h2⟩ | ⟨_, h2⟩
    · refine ⟨?_, h2 0⟩
      have h5 : (Producer.step P s (.produce data t content env)).1 = .packet a := h1
      rw [h5]
      exact fun h => h
    · exact h2.elim
  | data id d env =>
    refine h.answer hj id fun p s' h1 h2 h3 h4 h5 _ => ?_
    rw [wp_bind, wp_modify]
    exact (h1.out fun _ _ h => by cases h).covering hs hf hh rfl h3 h5 h4 h2
  | timeout id => exact h.answer hj id fun p s' h1 h2 h3 h4 h5 h6 => h1.timeout rfl h3 h5 h6
  | nack id => exact h.answer hj id fun p s' h1 h2 h3 h4 h5 _ => h1.nack rfl h3
  | restart => exact hh.elim

theorem F.run (hs : Sound P) (hd : P.dataType ≠ []) {C : ℚ → Nat → Prop} : ∀ {ops : List Op} {K : Keys} {T : Int → ℚ × Option Nat} {N N' : Nat → Nat} {s : St}, J P K C T N' s →
    F P K T N 0 0 s → (∀ op ∈ ops, Fine op) → (∀ op ∈ ops, Honest P op) → (∀ t c env, Op.create t (some c) env ∈ ops → C t c) →
    (∀ r ∈ (run P s ops).1, ¬ r.Fails) ∧ ∃ T', F P (keysAfter K ops) T' (fun c => N c + creations c K ops) 0 0 (run P s ops).2
  | [], _, T, _, _, _, _, h, _, _, _ => ⟨(fun _ h => nomatch h), T, h⟩
  | op :: ops, K, T, N, N', s, hj, h, hf, hh, hC => by
    have hj' := (hj.step hs (hf op (List.mem_cons_self ..)) (fun t c env e => hC t c env (e ▸ List.mem_cons_self ..))).2
    obtain ⟨h1, h2⟩ := h.step hs hd hj (hf op (List.mem_cons_self ..)) (hh op (List.mem_cons_self ..))
    obtain ⟨h3, T'', h4⟩ := F.run hs hd hj' h2 (fun o ho => hf o (List.mem_cons_of_mem _ ho)) (fun o ho => hh o (List.mem_cons_of_mem _ ho)) (fun t c env ho => hC t c env (List.mem_cons_of_mem _ ho))
    refine ⟨?_, T'', ?_⟩
    · intro r hr
      rcases List.mem_cons.mp hr with rfl | hr
      · exact h1
      · exact h3 r hr
    · have : (fun c => N c + creations c K (op :: ops)) = fun c => N c + creates c K op + creations c (next K op) ops := by
        funext c
        show N c + (creates c K op + _) = _
        omega
      rw [this]
      exact h4

theorem F.new (P : Params) (db : List (Int × Bytes)) (T : Int → ℚ × Option Nat) : F P (fun h => dictGet h db) T (fun _ => 0) 0 0 (new P db) := by
  refine ⟨fun _ => rfl, ?_, fun n i h => .inl (info_new h), List.nodup_nil, (fun _ _ h => nomatch h), (fun _ _ h => nomatch h), (fun _ h => nomatch h), fun h => absurd rfl h, List.nodup_nil,
    (fun _ h => nomatch h), (fun _ h => nomatch h), fun _ => rfl⟩
  show ((nodes P).map fun n => (n, ({} : KeyInfo))).map (·.1) = _
  rw [List.map_map]
  exact List.map_id _

/-- Without pending Interests all callbacks were called. -/
theorem F.done (h : F P K T N tc0 0 s) (hp : s.pending = []) (cb : Nat) : calls cb s.out = N cb := by
  have h1 := h.all cb
  have h2 : (s.requests.map (·.1)).countP (fun tc => decide ((T tc).2 = some cb)) = 0 := by
    rw [List.countP_eq_zero]
    intro tc htc
    obtain ⟨r, hr⟩ := mem_keys.mp htc
    simp only [decide_eq_true_eq]
    intro e
    refine h.nz tc r hr (by rw [e]; rfl) ?_
    rw [h.cnt tc r hr, hp]
    simp [open']
  omega

end PyNDN.Producer
