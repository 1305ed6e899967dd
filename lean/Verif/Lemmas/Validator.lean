import Verif.Spec.Validator
import Verif.Props.Name
/-
Lemmas about the validator model.
-/
namespace PyNDN.Validator
open PyNDN PyNDN.Spec.Validator

/-! ### Names and signatures -/

theorem getPrefix_neg (n : Name) (k : Nat) (hk : 0 < k) :
    getPrefix n (-(k : Int)) = .ok (n.take (n.length - k)) := by
  rw [C16_prefix]
  unfold Spec.pySlice
  have h1 : (-(k : Int)) < 0 := by omega
  have h2 : ((max ((n.length : Int) + -(k : Int)) 0).toNat) = n.length - k := by omega
  have h3 : (min (0 : Int) (n.length : Int)).toNat = 0 := by omega
  simp only [h1, if_true, h2, Int.lt_irrefl, if_false, h3, List.drop_zero]

theorem blobSize_getD {b : Option Bytes} (h : ¬ blobSize b = 0) : b = some (b.getD []) ∧ b.getD [] ≠ [] := by
  cases b with
  | none => simp [blobSize] at h
  | some x => 
    refine ⟨rfl, ?_⟩
    intro hx
    simp at hx
    subst hx
    simp [blobSize] at h

theorem verifyData_true {V : Cfg} {d c : SData} (h : verifyData V d c = .ok true) :
    SignedBy V.verify (.data d) c := by
  unfold verifyData at h
  split at h
  · cases h
  · rename_i hs
    obtain ⟨h1, h2⟩ := blobSize_getD hs
    cases hd : d.signed with
    | error e => rw [hd] at h; cases h
    | ok b =>
      rw [hd] at h
      exact ⟨b, _, _, by simp [signatureOf, hd], h1, h2, h⟩

theorem verifyPacket_true {V : Cfg} {p : Packet} {c : SData} (h : verifyPacket V p c = .ok true) :
    SignedBy V.verify p c := by
  cases p with
  | data d => exact verifyData_true h
  | interest i signed =>
    simp only [verifyPacket, verifyInterest] at h
    split at h
    · cases h
    · rename_i hs
      split at h
      · cases h
      · obtain ⟨h1, h2⟩ := blobSize_getD hs
        split at h
        · cases h
        · rename_i sig hsig
          cases hd : signed with
          | error e => rw [hd] at h; cases h
          | ok b =>
            rw [hd] at h
            exact ⟨b, _, _, by simp [signatureOf, hsig], h1, h2, h⟩

theorem isValid_true {c : SData} {t : Int} (h : isValid c t = .ok true) : InPeriod c t := by
  unfold isValid at h
  have key : ∀ vp, periodIsValid vp t = true → ∃ nb na, vp = some (nb, na) ∧
      ∃ s, nb ≤ s ∧ s ≤ na ∧ t ≤ s ∧ s < t + 1000 ∧ 1000 ∣ s := by
    intro vp hv
    unfold periodIsValid at hv
    split at hv
    · cases hv
    · rename_i nb na
      simp at hv
      exact ⟨nb, na, rfl, -((-t) / 1000) * 1000, hv.1, hv.2, by omega, by omega, by omega⟩
  cases hi : c.data.signature.info with
  | rsa kl vp =>
    simp [getValidityPeriod, hi, bind, Except.bind, pure, Except.pure] at h
    obtain ⟨nb, na, rfl, hs⟩ := key vp h
    exact ⟨nb, na, ⟨kl, .inl hi⟩, hs⟩
  | ecdsa kl vp =>
    simp [getValidityPeriod, hi, bind, Except.bind, pure, Except.pure] at h
    obtain ⟨nb, na, rfl, hs⟩ := key vp h
    exact ⟨nb, na, ⟨kl, .inr hi⟩, hs⟩
  | hmac kl => simp [getValidityPeriod, hi, bind, Except.bind] at h
  | digest => simp [getValidityPeriod, hi, bind, Except.bind] at h
  | generic a b => simp [getValidityPeriod, hi, bind, Except.bind] at h

theorem inPeriod_period {c : SData} {t : Int} (h : InPeriod c t) :
    ∃ nb na, getValidityPeriod c = .ok (some (nb, na)) := by
  obtain ⟨nb, na, ⟨kl, hk⟩, _⟩ := h
  refine ⟨nb, na, ?_⟩
  rcases hk with hk | hk <;> simp [getValidityPeriod, hk]

/-! ### Stores -/

theorem findLoop_some {i : Interest} {l : List SData} {c : SData} (h : findLoop i l = .ok (some c)) :
    c ∈ l ∧ i.name.matches c.name = true ∧
      i.matchesData c.name c.full c.data.signature.info = .ok true := by
  induction l with
  | nil => cases h
  | cons x xs ih =>
    unfold findLoop at h
    split at h
    · cases h
    · rename_i hm
      cases hd : i.matchesData x.name x.full x.data.signature.info with
      | error e => rw [hd] at h; cases h
      | ok b =>
        rw [hd] at h
        cases b with
        | true =>
          simp [bind, Except.bind, pure, Except.pure] at h
          subst h
          exact ⟨List.mem_cons_self .., by simpa using hm, hd⟩
        | false =>
          obtain ⟨h1, h2⟩ := ih h
          exact ⟨List.mem_cons_of_mem _ h1, h2⟩

theorem findSorted_some {i : Interest} {l : List SData} {c : SData} (h : findSorted i l = .ok (some c)) :
    c ∈ l ∧ i.name.matches c.name = true ∧
      i.matchesData c.name c.full c.data.signature.info = .ok true := by
  obtain ⟨h1, h2⟩ := findLoop_some h
  exact ⟨(List.dropWhile_suffix _).subset h1, h2⟩

theorem refresh_subset (c : Cache) (now : Int) : ∀ e ∈ (c.refresh now).entries, e ∈ c.entries := by
  unfold Cache.refresh
  split
  · exact fun e h => h
  · split
    · exact fun e h => h
    · intro e h
      exact (List.mem_filter.1 h).1

theorem cache_find_some {c : Cache} {now : Int} {i : Interest} {d : SData}
    (h : (c.find now i).2 = .ok (some d)) :
    (∃ e ∈ (c.refresh now).entries, e.cert = d) ∧ i.name.matches d.name = true := by
  unfold Cache.find at h
  obtain ⟨h1, h2, _⟩ := findSorted_some h
  obtain ⟨e, he, hc⟩ := List.mem_map.1 h1
  exact ⟨⟨e, he, hc⟩, h2⟩

theorem mem_insertEntry {e x : Entry} {l : List Entry} : x ∈ insertEntry e l ↔ x = e ∨ x ∈ l := by
  induction l with
  | nil => simp [insertEntry]
  | cons y ys ih =>
    unfold insertEntry
    split
    · simp
    · rw [List.mem_cons, ih, List.mem_cons, or_left_comm]

theorem mem_insertAnchor {c x : SData} {l : List SData} : x ∈ insertAnchor c l ↔ x = c ∨ x ∈ l := by
  induction l with
  | nil => simp [insertAnchor]
  | cons y ys ih =>
    unfold insertAnchor
    split
    · simp
    · rw [List.mem_cons, ih, List.mem_cons, or_left_comm]

theorem mem_addAnchor {c x : SData} {l : List SData} (h : x ∈ addAnchor c l) : x = c ∨ x ∈ l := by
  unfold addAnchor at h
  split at h
  · obtain ⟨y, hy, hx⟩ := List.mem_map.1 h
    split at hx
    · exact .inl hx.symm
    · exact .inr (hx ▸ hy)
  · exact mem_insertAnchor.1 h

/-- What `insert` does, when it does something. -/
theorem insert_ok {c c' : Cache} {now : Int} {cert : SData} (h : c.insert now cert = .ok c') :
    c' = c ∨ ∃ nb na, getValidityPeriod cert = .ok (some (nb, na)) ∧ now ≤ na ∧
      checkFormat cert = .ok () ∧ c'.maxLifetime = c.maxLifetime ∧
      (∀ e ∈ c'.entries, e = ⟨cert, min na (now + c.maxLifetime)⟩ ∨
        (e ∈ c.entries ∧ e.cert.name ≠ cert.name)) ∧
      c'.entries = (if c.entries.any (fun e => e.cert.name.equals cert.name) then
          c.entries.map fun e => if e.cert.name.equals cert.name then
            ⟨cert, min na (now + c.maxLifetime)⟩ else e
        else insertEntry ⟨cert, min na (now + c.maxLifetime)⟩ c.entries) ∧
      (∃ t, c'.nextRefresh = some t ∧ t ≤ min na (now + c.maxLifetime) ∧
        ∀ u, c.nextRefresh = some u → t ≤ u) := by
  unfold Cache.insert at h
  cases hv : getValidityPeriod cert with
  | error e => rw [hv] at h; cases h
  | ok vp =>
    rw [hv] at h
    simp only [bind, Except.bind, pure, Except.pure] at h
    cases vp with
    | none => simp at h; exact .inl h.symm
    | some q =>
      obtain ⟨nb, na⟩ := q
      simp only at h
      split at h
      · simp at h; exact .inl h.symm
      · rename_i hn
        cases hf : checkFormat cert with
        | error e => rw [hf] at h; cases h
        | ok u =>
          rw [hf] at h
          simp only [Except.ok.injEq] at h
          subst h
          refine .inr ⟨nb, na, rfl, by omega, rfl, rfl, ?_, rfl, ?_⟩
          · dsimp only
            split
            · intro e he
              obtain ⟨y, hy, hx⟩ := List.mem_map.1 he
              split at hx
              · exact .inl hx.symm
              · rename_i hne
                refine .inr ⟨hx ▸ hy, ?_⟩
                subst hx
                intro heq
                exact hne ((name_equals_iff _ _).2 heq)
            · rename_i hany
              intro e he
              rcases mem_insertEntry.1 he with he | he
              · exact .inl he
              · refine .inr ⟨he, ?_⟩
                intro heq
                apply hany
                rw [List.any_eq_true]
                exact ⟨e, he, (name_equals_iff _ _).2 heq⟩
          · dsimp only
            cases hr : c.nextRefresh with
            | none => exact ⟨_, rfl, Int.le_refl _, fun u hu => by cases hu⟩
            | some t =>
              dsimp only
              split
              · exact ⟨_, rfl, Int.le_refl _, fun u hu => by cases hu; omega⟩
              · exact ⟨t, rfl, by omega, fun u hu => by cases hu; exact Int.le_refl _⟩

theorem insert_ok_of_period {c : Cache} {now : Int} {cert : SData} {vp}
    (h : getValidityPeriod cert = .ok vp) (hf : checkFormat cert = .ok ()) :
    ∃ c', c.insert now cert = .ok c' := by
  unfold Cache.insert
  rw [h, hf]
  simp only [bind, Except.bind, pure, Except.pure]
  cases vp with
  | none => exact ⟨_, rfl⟩
  | some q =>
    obtain ⟨nb, na⟩ := q
    dsimp only
    split
    · exact ⟨_, rfl⟩
    · exact ⟨_, rfl⟩

/-! ### Chains -/

/-- The chain of certificates of a validation, down to the packet: each was approved by the policy and
was in its validity period, and its key locator name is a prefix of the name of the certificate before
it.  `name` is the key locator name of the first certificate (or of the packet). -/
def Linked (V : Cfg) (tr : List Ev) (p : Packet) : List SData → Name → Prop
  | [], n => V.policy.check p = .ok (.request n)
  | c :: cs, n => V.policy.check (.data c) = .ok (.request n) ∧ checkFormat c = .ok () ∧
      (∃ t, Ev.clock t ∈ tr ∧ InPeriod c t) ∧ ∃ n', Linked V tr p cs n' ∧ NamedBy n' c

theorem Trusted.mono {V : Cfg} {tr tr' : List Ev} (hs : tr ⊆ tr') {c : SData} (h : Trusted V tr c) :
    Trusted V tr' c := by
  induction h with
  | given c h => exact .given c (hs h)
  | issued c issuer _ hsg ha hv ih =>
    obtain ⟨t, ht, hp⟩ := hv
    exact .issued c issuer ih hsg ha ⟨t, hs ht, hp⟩

theorem Justified.mono {V : Cfg} {tr tr' : List Ev} (hs : tr ⊆ tr') {p : Packet}
    (h : Justified V tr p) : Justified V tr' p := by
  obtain ⟨c, h1, h2⟩ := h
  exact ⟨c, Trusted.mono hs h1, h2⟩

theorem Linked.mono {V : Cfg} {tr tr' : List Ev} (hs : tr ⊆ tr') {p : Packet} {cs : List SData} :
    ∀ {n : Name}, Linked V tr p cs n → Linked V tr' p cs n := by
  induction cs with
  | nil => exact fun h => h
  | cons c cs ih =>
    intro n h
    obtain ⟨h1, hf, ⟨t, ht, hp⟩, n', h2, h3⟩ := h
    exact ⟨h1, hf, ⟨t, hs ht, hp⟩, n', ih h2, h3⟩

theorem linked_period {V : Cfg} {tr : List Ev} {p : Packet} {cs : List SData} :
    ∀ {n : Name}, Linked V tr p cs n → ∀ c ∈ cs, checkFormat c = .ok () ∧ ∃ t, InPeriod c t := by
  induction cs with
  | nil => exact fun _ c hc => by cases hc
  | cons c cs ih =>
    intro n h x hx
    obtain ⟨_, hf, ⟨t, _, hp⟩, n', h2, _⟩ := h
    rcases List.mem_cons.1 hx with rfl | hx
    · exact ⟨hf, t, hp⟩
    · exact ih h2 x hx

theorem verifyChain_ok {V : Cfg} {tr : List Ev} {p : Packet} {cs : List SData} :
    ∀ {n : Name} {t last : SData} {i : Nat}, Linked V tr p cs n → Trusted V tr t →
      NamedBy n t → verifyChain V t cs i = .ok last →
      Trusted V tr last ∧ Allowed V.policy p last ∧ ∀ c ∈ cs, Trusted V tr c := by
  induction cs with
  | nil =>
    intro n t last i hl ht hm h
    simp only [verifyChain, ChainRes.ok.injEq] at h
    subst h
    exact ⟨ht, ⟨n, hl, hm⟩, fun c hc => by cases hc⟩
  | cons c cs ih =>
    intro n t last i hl ht hm h
    obtain ⟨h1, _, hv, n', h2, h3⟩ := hl
    unfold verifyChain at h
    split at h
    · cases h
    · cases h
    · rename_i hver
      have hc : Trusted V tr c := .issued c t ht (verifyData_true hver) ⟨n, h1, hm⟩ hv
      obtain ⟨a, b, d⟩ := ih h2 hc h3 h
      refine ⟨a, b, ?_⟩
      intro x hx
      rcases List.mem_cons.1 hx with rfl | hx
      · exact hc
      · exact d x hx

theorem verifyChain_chain {V : Cfg} {tr : List Ev} {p : Packet} {cs : List SData} :
    ∀ {n : Name} {t last : SData} {i : Nat}, Linked V tr p cs n → NamedBy n t →
      verifyChain V t cs i = .ok last → verifyPacket V p last = .ok true → Chain V tr t cs p := by
  induction cs with
  | nil =>
    intro n t last i hl hm h hp
    simp only [verifyChain, ChainRes.ok.injEq] at h
    subst h
    exact ⟨verifyPacket_true hp, n, hl, hm⟩
  | cons c cs ih =>
    intro n t last i hl hm h hp
    obtain ⟨h1, _, hv, n', h2, h3⟩ := hl
    unfold verifyChain at h
    split at h
    · cases h
    · cases h
    · rename_i hver
      exact ⟨verifyData_true hver, ⟨n, h1, hm⟩, hv, ih h2 h3 h hp⟩

theorem Chain.mono {V : Cfg} {tr tr' : List Ev} (hs : tr ⊆ tr') {p : Packet} {cs : List SData} :
    ∀ {root : SData}, Chain V tr root cs p → Chain V tr' root cs p := by
  induction cs with
  | nil => exact fun h => h
  | cons c cs ih =>
    intro root h
    obtain ⟨h1, h2, ⟨t, ht, hp⟩, h3⟩ := h
    exact ⟨h1, h2, ⟨t, hs ht, hp⟩, ih h3⟩

theorem chain_justified {V : Cfg} {tr : List Ev} {p : Packet} {cs : List SData} :
    ∀ {root : SData}, Trusted V tr root → Chain V tr root cs p → Justified V tr p := by
  induction cs with
  | nil => exact fun ht h => ⟨_, ht, h⟩
  | cons c cs ih =>
    intro root ht h
    obtain ⟨h1, h2, h3, h4⟩ := h
    exact ih (.issued c root ht h1 h2 h3) h4

theorem verifyChain_bad {V : Cfg} {tr : List Ev} {p : Packet} {cs : List SData} :
    ∀ {n : Name} {t : SData} {i j : Nat}, Linked V tr p cs n → Trusted V tr t →
      NamedBy n t → verifyChain V t cs i = .bad j →
      i ≤ j ∧ ∀ c ∈ cs.take (j - i), Trusted V tr c := by
  induction cs with
  | nil =>
    intro n t i j hl ht hm h
    cases h
  | cons c cs ih =>
    intro n t i j hl ht hm h
    obtain ⟨h1, _, hv, n', h2, h3⟩ := hl
    unfold verifyChain at h
    split at h
    · cases h
    · simp only [ChainRes.bad.injEq] at h
      subst h
      exact ⟨Nat.le_refl _, by simp⟩
    · rename_i hver
      have hc : Trusted V tr c := .issued c t ht (verifyData_true hver) ⟨n, h1, hm⟩ hv
      obtain ⟨a, b⟩ := ih h2 hc h3 h
      refine ⟨by omega, ?_⟩
      have : j - i = (j - (i + 1)) + 1 := by omega
      rw [this]
      intro x hx
      rcases List.mem_cons.1 (by simpa using hx) with rfl | hx
      · exact hc
      · exact b x hx

/-! ### One validation -/

/-- The invariant of a certificate cache: it refreshes in time, and removes a certificate no later than
it expires. -/
def Fresh (c : Cache) : Prop :=
  ∀ e ∈ c.entries, (∃ t, c.nextRefresh = some t ∧ t ≤ e.removal) ∧
    ∃ nb na, getValidityPeriod e.cert = .ok (some (nb, na)) ∧ e.removal ≤ na

theorem foldr_min_le (l : List Entry) : ∀ e ∈ l, ∃ t, l.foldr (fun e r => match r with
          | none => some e.removal
          | some t => some (min t e.removal)) none = some t ∧ t ≤ e.removal := by
  induction l with
  | nil => exact fun e he => by cases he
  | cons x xs ih =>
    intro e he
    rw [List.foldr_cons]
    rcases List.mem_cons.1 he with rfl | he
    · split
      · exact ⟨_, rfl, Int.le_refl _⟩
      · exact ⟨_, rfl, by omega⟩
    · obtain ⟨t, ht, hle⟩ := ih e he
      rw [ht]
      exact ⟨_, rfl, by omega⟩

theorem fresh_refresh {c : Cache} (h : Fresh c) (now : Int) : Fresh (c.refresh now) ∧
    ∀ e ∈ (c.refresh now).entries, now < e.removal := by
  unfold Cache.refresh
  split
  · rename_i hn
    refine ⟨h, fun e he => ?_⟩
    obtain ⟨⟨t, ht, _⟩, _⟩ := h e he
    rw [hn] at ht
    cases ht
  · rename_i t hn
    split
    · refine ⟨h, fun e he => ?_⟩
      obtain ⟨⟨t', ht, hle⟩, _⟩ := h e he
      rw [hn] at ht
      cases ht
      omega
    · refine ⟨?_, ?_⟩
      · intro e he
        exact ⟨foldr_min_le _ e he, (h e (List.mem_filter.1 he).1).2⟩
      · intro e he
        have := (List.mem_filter.1 he).2
        simpa using this

theorem fresh_insert {c c' : Cache} {now : Int} {cert : SData} (h : Fresh c)
    (hi : c.insert now cert = .ok c') : Fresh c' := by
  rcases insert_ok hi with rfl | ⟨nb, na, hp, _, _, _, he, _, t, ht, hle, hold⟩
  · exact h
  · intro e hm
    rcases he e hm with rfl | ⟨h1, _⟩
    · exact ⟨⟨t, ht, hle⟩, nb, na, hp, by dsimp only; omega⟩
    · obtain ⟨⟨u, hu, hul⟩, hrest⟩ := h e h1
      exact ⟨⟨t, ht, Int.le_trans (hold u hu) hul⟩, hrest⟩

theorem period_notExpired {c : SData} {nb na now : Int}
    (h : getValidityPeriod c = .ok (some (nb, na))) (hn : now < na) : NotExpired c now := by
  unfold getValidityPeriod at h
  split at h
  · rename_i kl vp hi
    cases h
    exact ⟨kl, nb, na, .inl hi, hn⟩
  · rename_i kl vp hi
    cases h
    exact ⟨kl, nb, na, .inr hi, hn⟩
  · cases h

/-- The invariant of the stores. -/
structure StoreInv (V : Cfg) (tr : List Ev) (st : Stores) : Prop where
  fresh : Fresh st.verified
  anchors : ∀ c ∈ st.anchors, Ev.trusted c ∈ tr
  verified : ∀ e ∈ st.verified.entries, Trusted V tr e.cert
  formatA : ∀ c ∈ st.anchors, checkFormat c = .ok ()
  formatV : ∀ e ∈ st.verified.entries, checkFormat e.cert = .ok ()
  formatU : ∀ e ∈ st.unverified.entries, checkFormat e.cert = .ok ()

theorem StoreInv.mono {V : Cfg} {tr tr' : List Ev} (hs : tr ⊆ tr') {st : Stores}
    (h : StoreInv V tr st) : StoreInv V tr' st :=
  ⟨h.fresh, fun c hc => hs (h.anchors c hc), fun e he => Trusted.mono hs (h.verified e he), h.formatA,
    h.formatV, h.formatU⟩

theorem findTrusted_inv {V : Cfg} {tr : List Ev} {st : Stores} (h : StoreInv V tr st) (now : Int)
    (i : Interest) : StoreInv V tr (st.findTrusted now i).1 ∧
      (st.findTrusted now i).1.unverified = st.unverified ∧
      (st.findTrusted now i).1.anchors = st.anchors ∧
      ∀ c, (st.findTrusted now i).2 = .ok (some c) → Trusted V tr c ∧ NamedBy i.name c ∧
        (c ∈ st.anchors ∨ NotExpired c now) := by
  unfold Stores.findTrusted
  split
  · exact ⟨h, rfl, rfl, fun c hc => by cases hc⟩
  · rename_i c hc
    refine ⟨h, rfl, rfl, fun d hd => ?_⟩
    cases hd
    obtain ⟨h1, h2, _⟩ := findSorted_some hc
    exact ⟨.given _ (h.anchors _ h1), .inl h2, .inl h1⟩
  · dsimp only
    have hfr := fresh_refresh h.fresh now
    refine ⟨⟨hfr.1, h.anchors, ?_, h.formatA, ?_, h.formatU⟩, rfl, rfl, ?_⟩
    · intro e he
      exact h.verified e (refresh_subset _ _ e he)
    · intro e he
      exact h.formatV e (refresh_subset _ _ e he)
    · intro c hc
      obtain ⟨⟨e, he, hec⟩, hm⟩ := cache_find_some hc
      subst hec
      obtain ⟨_, nb, na, hp, hle⟩ := hfr.1 e he
      exact ⟨h.verified e (refresh_subset _ _ e he), .inl hm,
        .inr (period_notExpired hp (Int.lt_of_lt_of_le (hfr.2 e he) hle))⟩

/-- What holds of the end of a piece of a validation. -/
def OutInv (V : Cfg) (tr : List Ev) (A : List SData) (now : Int) (p : Packet) (depth : Nat) : Out → Prop
  | .success s cache => s.packet = p ∧ (V.policy.check p = .ok .bypass ∨ ∃ root cs,
      (root ∈ A ∨ NotExpired root now) ∧ Trusted V tr root ∧ cs.length < V.maxDepth ∧
      Chain V tr root cs p) ∧
      ∀ c ∈ cache, Trusted V tr c ∧ checkFormat c = .ok () ∧ ∃ t, InPeriod c t
  | .fail _ _ cache => ∀ c ∈ cache, Trusted V tr c ∧ checkFormat c = .ok () ∧ ∃ t, InPeriod c t
  | .fetch s name => s.packet = p ∧ Linked V tr p s.chain name ∧ s.chain.length < V.maxDepth ∧
      depth ≤ s.chain.length
  | .raise _ _ => True
  | .silent _ => True

theorem OutInv.weaken {V : Cfg} {tr : List Ev} {p : Packet} {A : List SData} {now : Int} {d d' : Nat} (hd : d ≤ d') {o : Out}
    (h : OutInv V tr A now p d' o) : OutInv V tr A now p d o := by
  cases o with
  | fetch s n => exact ⟨h.1, h.2.1, h.2.2.1, Nat.le_trans hd h.2.2.2⟩
  | success s c => exact h
  | fail s e c => exact h
  | raise s e => trivial
  | silent s => trivial

theorem verifyAll_inv {V : Cfg} {tr : List Ev} {s : Session} {t : SData} {n : Name}
    (hl : Linked V tr s.packet s.chain n) (ht : Trusted V tr t) (hm : NamedBy n t)
    {A : List SData} {now : Int} (hr : t ∈ A ∨ NotExpired t now) (hd : s.chain.length < V.maxDepth)
    (d : Nat) : OutInv V tr A now s.packet d (verifyAll V s t) := by
  unfold verifyAll
  split
  · trivial
  · rename_i i hc
    intro c hc'
    obtain ⟨_, hb⟩ := verifyChain_bad hl ht hm hc
    refine ⟨hb c (by simpa using hc'), linked_period hl c (List.mem_of_mem_take hc')⟩
  · rename_i last hc
    obtain ⟨h1, h2, h3⟩ := verifyChain_ok hl ht hm hc
    split
    · trivial
    · rename_i hv
      exact ⟨rfl, .inr ⟨t, s.chain, hr, ht, hd, verifyChain_chain hl hm hc hv⟩, fun c hc => ⟨h3 c hc, linked_period hl c hc⟩⟩
    · exact fun c hc => ⟨h3 c hc, linked_period hl c hc⟩

theorem certificatePolicy_request {V : Cfg} {now : Int} {c : SData} {n : Name}
    (h : certificatePolicy V now c = .ok (.request n)) :
    V.policy.check (.data c) = .ok (.request n) ∧ InPeriod c now := by
  unfold certificatePolicy at h
  cases hv : isValid c now with
  | error e => simp [hv, Res.lift, bind, Res.bind] at h
  | ok b =>
    cases b with
    | false => simp [hv, Res.lift, bind, Res.bind] at h
    | true =>
      simp [hv, Res.lift, bind, Res.bind] at h
      cases hp : V.policy.check (.data c) with
      | ok d =>
        rw [hp] at h
        cases d with
        | bypass => simp at h
        | silent => simp [pure] at h
        | request m =>
          simp [pure] at h
          exact ⟨by rw [h], isValid_true hv⟩
      | fail e => rw [hp] at h; simp at h
      | raise e => rw [hp] at h; simp at h

theorem requestCertificate_inv {V : Cfg} {tr : List Ev} {now : Int} {A : List SData} (hnow : Ev.clock now ∈ tr) :
    ∀ (k : Nat) {st : Stores} {s : Session} {n : Name}, V.maxDepth - s.chain.length ≤ k →
      StoreInv V tr st → st.anchors = A → Linked V tr s.packet s.chain n →
      StoreInv V tr (requestCertificate V now st s n).1 ∧
        (requestCertificate V now st s n).1.anchors = A ∧
        OutInv V tr A now s.packet s.chain.length (requestCertificate V now st s n).2 := by
  intro k
  induction k with
  | zero =>
    intro st s n hk hst hA hl
    rw [requestCertificate]
    rw [if_pos (by omega)]
    exact ⟨hst, hA, fun c hc => by cases hc⟩
  | succ k ih =>
    intro st s n hk hst hA hl
    rw [requestCertificate]
    split
    · exact ⟨hst, hA, fun c hc => by cases hc⟩
    · rename_i hdepth
      split
      · exact ⟨hst, hA, fun c hc => by cases hc⟩
      · obtain ⟨hft, hfu, hfa, hfs⟩ := findTrusted_inv hst now (V.request n)
        dsimp only
        split
        · rename_i st1 e heq
          rw [heq] at hft hfa
          exact ⟨hft, hfa.trans hA, trivial⟩
        · rename_i st1 c heq
          rw [heq] at hft hfs hfa
          obtain ⟨ht, hm, hr⟩ := hfs c rfl
          exact ⟨hft, hfa.trans hA, verifyAll_inv (s := { s with seen := n :: s.seen }) hl ht hm (hA ▸ hr)
            (Nat.lt_of_not_le hdepth) _⟩
        · rename_i st1 heq
          rw [heq] at hft hfu hfa
          have hA1 : st1.anchors = A := hfa.trans hA
          have hsub : ∀ u r, st1.unverified.find now (V.request n) = (u, r) →
              StoreInv V tr { st1 with unverified := u } := by
            intro u r hur
            refine ⟨hft.fresh, hft.anchors, hft.verified, hft.formatA, hft.formatV, ?_⟩
            intro e he
            have : u = st1.unverified.refresh now := by
              have := congrArg Prod.fst hur; exact this.symm
            rw [this] at he
            exact hft.formatU e (refresh_subset _ _ e he)
          split
          · rename_i u e hu
            exact ⟨hsub u _ hu, hA1, trivial⟩
          · rename_i u hu
            exact ⟨hsub u _ hu, hA1, rfl, hl, Nat.lt_of_not_le hdepth, Nat.le_refl _⟩
          · rename_i u c hu
            have hst1 := hsub u _ hu
            split
            · exact ⟨hst1, hA1, trivial⟩
            · exact ⟨hst1, hA1, fun c hc => by cases hc⟩
            · rename_i m hp
              obtain ⟨hp1, hp2⟩ := certificatePolicy_request hp
              have hfc : checkFormat c = .ok () ∧ NamedBy n c := by
                have h2 := congrArg Prod.snd hu
                obtain ⟨⟨e, he, hec⟩, hm⟩ := cache_find_some h2
                subst hec
                exact ⟨hft.formatU e (refresh_subset _ _ e he), .inl hm⟩
              have hl' : Linked V tr s.packet (c :: s.chain) m :=
                ⟨hp1, hfc.1, ⟨now, hnow, hp2⟩, n, hl, hfc.2⟩
              have := @ih { st1 with unverified := u }
                { s with seen := n :: s.seen, chain := c :: s.chain } m
                (by simp; omega) hst1 hA1 hl'
              exact ⟨this.1, this.2.1, OutInv.weaken (by simp) this.2.2⟩
            · exact ⟨hst1, hA1, trivial⟩

theorem validateCertificate_inv {V : Cfg} {tr : List Ev} {now : Int} {A : List SData} (hnow : Ev.clock now ∈ tr)
    {st : Stores} {s : Session} {n : Name} {c : SData} (hst : StoreInv V tr st)
    (hA : st.anchors = A)
    (hl : Linked V tr s.packet s.chain n) (hf : checkFormat c = .ok ())
    (hm : NamedBy n c) :
    StoreInv V tr (validateCertificate V now st s c).1 ∧
      (validateCertificate V now st s c).1.anchors = A ∧
      OutInv V tr A now s.packet (s.chain.length + 1) (validateCertificate V now st s c).2 := by
  unfold validateCertificate
  split
  · exact ⟨hst, hA, trivial⟩
  · exact ⟨hst, hA, fun c hc => by cases hc⟩
  · rename_i m hp
    obtain ⟨hp1, hp2⟩ := certificatePolicy_request hp
    have hl' : Linked V tr s.packet (c :: s.chain) m := ⟨hp1, hf, ⟨now, hnow, hp2⟩, n, hl, hm⟩
    exact requestCertificate_inv hnow _ (s := { s with chain := c :: s.chain }) (Nat.le_refl _) hst hA hl'
  · exact ⟨hst, hA, trivial⟩

theorem insert_formats {c c' : Cache} {now : Int} {cert : SData} (h : c.insert now cert = .ok c')
    (hc : ∀ e ∈ c.entries, checkFormat e.cert = .ok ()) :
    ∀ e ∈ c'.entries, checkFormat e.cert = .ok () := by
  rcases insert_ok h with h | ⟨nb, na, _, _, hf, _, he, _⟩
  · rw [h]; exact hc
  · intro e hm
    rcases he e hm with rfl | ⟨h1, _⟩
    · exact hf
    · exact hc e h1

theorem continueFetch_inv {V : Cfg} {tr : List Ev} {now : Int} {A : List SData} (hnow : Ev.clock now ∈ tr)
    {st : Stores} {s : Session} {n : Name} {c : SData} (hst : StoreInv V tr st)
    (hA : st.anchors = A)
    (hl : Linked V tr s.packet s.chain n) (hf : checkFormat c = .ok ())
    (hm : NamedBy n c) :
    StoreInv V tr (continueFetch V now st s c).1 ∧
      (continueFetch V now st s c).1.anchors = A ∧
      OutInv V tr A now s.packet (s.chain.length + 1) (continueFetch V now st s c).2 := by
  unfold continueFetch
  split
  · exact ⟨hst, hA, trivial⟩
  · rename_i u hu
    refine validateCertificate_inv hnow ?_ hA hl hf hm
    exact ⟨hst.fresh, hst.anchors, hst.verified, hst.formatA, hst.formatV, insert_formats hu hst.formatU⟩

/-- A matching Data packet is named by the Interest name. -/
theorem matchesData_named {V : Cfg} {n : Name} {d : SData}
    (h : (V.request n).matchesData d.name d.full d.data.signature.info = .ok true) : NamedBy n d := by
  unfold Interest.matchesData at h
  simp only at h
  split at h
  · cases h
  · split at h
    · cases h
    · unfold Interest.checkPrefix at h
      have e : (V.request n).name = n := rfl
      rw [e] at h
      split at h
      · cases hi : pyIndex n (-1) with
        | error e => simp [hi, bind, Except.bind] at h
        | ok last =>
          cases hf : d.full with
          | error e =>
            by_cases ht : last.type = .implicit <;>
              simp [hi, hf, ht, bind, Except.bind, pure, Except.pure] at h
          | ok f =>
            by_cases ht : last.type = .implicit
            · cases heq : n.equals f with
              | true =>
                rw [name_equals_iff] at heq
                exact .inr (by rw [hf, heq])
              | false => simp [hi, hf, ht, heq, bind, Except.bind, pure, Except.pure] at h
            · simp [hi, ht, bind, Except.bind, pure, Except.pure] at h
      · cases hm : n.matches d.name with
        | true => exact .inl hm
        | false => simp [hm, bind, Except.bind, pure, Except.pure] at h

end PyNDN.Validator
