import Verif.Lemmas.ValidatorSys
/-
When `validate` raises no exception.
-/
namespace PyNDN.Validator
open PyNDN PyNDN.Spec.Validator

theorem matches_length {a b : Name} (h : a.matches b = true) : a.length ≤ b.length := by
  unfold Name.matches at h
  split at h
  · cases h
  · omega

theorem pyIndex_neg {α : Type} (l : List α) (k : Nat) (hk : 0 < k) (h : k ≤ l.length) :
    pyIndex l (-(k : Int)) = .ok (l[l.length - k]'(by omega)) := by
  unfold pyIndex
  dsimp only
  rw [if_pos (show -(k : Int) < 0 by omega), if_neg (by omega)]
  have e : ((l.length : Int) + -(k : Int)).toNat = l.length - k := by omega
  rw [e, List.getElem?_eq_getElem (by omega)]

theorem findLoop_total (V : Cfg) (n : Name) (l : List SData) : ∃ r, findLoop (V.request n) l = .ok r := by
  induction l with
  | nil => exact ⟨_, rfl⟩
  | cons c cs ih =>
    unfold findLoop
    split
    · exact ⟨_, rfl⟩
    · rename_i hm
      have hm' : (V.request n).name.matches c.name = true := by simpa using hm
      have hl := matches_length hm'
      have : ∃ b, (V.request n).matchesData c.name c.full c.data.signature.info = .ok b := by
        unfold Interest.matchesData
        dsimp only
        split
        · exact ⟨_, rfl⟩
        · split
          · exact ⟨_, rfl⟩
          · unfold Interest.checkPrefix
            rw [if_neg (by omega), hm']
            unfold Interest.checkExclude
            rw [if_neg (by simp [Cfg.request])]
            exact ⟨_, rfl⟩
      obtain ⟨b, hb⟩ := this
      rw [hb]
      cases b with
      | true => exact ⟨_, rfl⟩
      | false => exact ih

theorem findSorted_total (V : Cfg) (n : Name) (l : List SData) :
    ∃ r, findSorted (V.request n) l = .ok r := findLoop_total V n _

/-- A predicate holds of all certificates in the stores; those in the unverified cache have a signature
with a validity period. -/
structure StP (P : SData → Prop) (st : Stores) : Prop where
  anchors : ∀ c ∈ st.anchors, P c
  verified : ∀ e ∈ st.verified.entries, P e.cert
  unverified : ∀ e ∈ st.unverified.entries, P e.cert ∧ ∃ vp, getValidityPeriod e.cert = .ok vp

/-- It holds of the certificates in the end of a piece of a validation. -/
def OutP (P : SData → Prop) : Out → Prop
  | .success _ cache => ∀ c ∈ cache, P c
  | .fail _ _ cache => ∀ c ∈ cache, P c
  | .fetch s _ => ∀ c ∈ s.chain, P c
  | _ => True

theorem insert_getPeriod {c c' : Cache} {now : Int} {cert : SData} (h : c.insert now cert = .ok c') :
    ∃ vp, getValidityPeriod cert = .ok vp := by
  unfold Cache.insert at h
  cases hg : getValidityPeriod cert with
  | error e => rw [hg] at h; cases h
  | ok vp => exact ⟨vp, rfl⟩

theorem insert_all {P : SData → Prop} {c c' : Cache} {now : Int} {cert : SData}
    (h : c.insert now cert = .ok c') (hc : P cert) (hv : ∀ e ∈ c.entries, P e.cert) :
    ∀ e ∈ c'.entries, P e.cert := by
  rcases insert_ok h with rfl | ⟨_, _, _, _, _, _, hm, _⟩
  · exact hv
  · intro e he
    rcases hm e he with rfl | ⟨h1, _⟩
    · exact hc
    · exact hv e h1

theorem findTrusted_P {P : SData → Prop} {V : Cfg} {st : Stores} (h : StP P st) (now : Int) (n : Name) :
    StP P (st.findTrusted now (V.request n)).1 ∧
      ∃ r, (st.findTrusted now (V.request n)).2 = .ok r ∧ ∀ c, r = some c → P c := by
  unfold Stores.findTrusted
  obtain ⟨r, hr⟩ := findSorted_total V n st.anchors
  rw [hr]
  cases r with
  | some c =>
    refine ⟨h, some c, rfl, fun d hd => ?_⟩
    cases hd
    exact h.anchors _ (findSorted_some hr).1
  | none =>
    dsimp only
    refine ⟨⟨h.anchors, fun e he => h.verified e (refresh_subset _ _ e he), h.unverified⟩, ?_⟩
    obtain ⟨r, hr⟩ := findSorted_total V n ((st.verified.refresh now).entries.map Entry.cert)
    refine ⟨r, hr, fun c hc => ?_⟩
    subst hc
    obtain ⟨e, he, hec⟩ := List.mem_map.1 (findSorted_some hr).1
    subst hec
    exact h.verified e (refresh_subset _ _ e he)

/-- What makes verification total: the check raises for no key, and the signed bytes are there. -/
def Signed (c : SData) : Prop := ∃ b, c.signed = .ok b

def PacketSigned : Packet → Prop
  | .data d => Signed d
  | .interest _ signed => ∃ b, signed = .ok b

theorem verifyData_total {V : Cfg} (hV : ∀ a b k, ∃ r, V.verify a b k = .ok r) {d c : SData}
    (hd : Signed d) : ∃ r, verifyData V d c = .ok r := by
  unfold verifyData
  split
  · exact ⟨_, rfl⟩
  · obtain ⟨b, hb⟩ := hd
    rw [hb]
    exact hV _ _ _

theorem verifyPacket_total {V : Cfg} (hV : ∀ a b k, ∃ r, V.verify a b k = .ok r) {p : Packet} {c : SData}
    (hd : PacketSigned p) : ∃ r, verifyPacket V p c = .ok r := by
  cases p with
  | data d => exact verifyData_total hV hd
  | interest i signed =>
    obtain ⟨b, hb⟩ := hd
    subst hb
    simp only [verifyPacket]
    unfold verifyInterest
    split
    · exact ⟨_, rfl⟩
    · split
      · exact ⟨_, rfl⟩
      · split
        · exact ⟨_, rfl⟩
        · exact hV _ _ _

theorem verifyChain_total {V : Cfg} (hV : ∀ a b k, ∃ r, V.verify a b k = .ok r) :
    ∀ (cs : List SData) (v : SData) (i : Nat), (∀ c ∈ cs, Signed c) → ∀ e, verifyChain V v cs i ≠ .raise e
  | [], v, i, _ => by intro e h; cases h
  | c :: cs, v, i, hc => by
    intro e
    unfold verifyChain
    obtain ⟨r, hr⟩ := verifyData_total (c := v) hV (hc c (List.mem_cons_self ..))
    rw [hr]
    cases r with
    | false => intro h; cases h
    | true => exact verifyChain_total hV cs c (i + 1) (fun x hx => hc x (List.mem_cons_of_mem _ hx)) e

/-- The policy raises no exception. -/
def Policy.Total (q : Policy) : Prop := ∀ p e, q.check p ≠ .raise e

/-- The conditions under which a validation raises nothing. -/
structure Total (V : Cfg) : Prop where
  verify : ∀ a b k, ∃ r, V.verify a b k = .ok r
  policy : V.policy.Total

theorem verifyAll_P {P : SData → Prop} (V : Cfg) (s : Session) (t : SData) (hc : ∀ c ∈ s.chain, P c) :
    OutP P (verifyAll V s t) := by
  unfold verifyAll
  split
  · trivial
  · exact fun c h => hc c (List.mem_of_mem_take h)
  · split
    · trivial
    · exact hc
    · exact hc

theorem verifyAll_total {V : Cfg} (hV : Total V) {s : Session} (t : SData) (hc : ∀ c ∈ s.chain, Signed c)
    (hp : PacketSigned s.packet) : ∀ s' e, verifyAll V s t ≠ .raise s' e := by
  intro s' e
  unfold verifyAll
  split
  · rename_i e' he
    exact absurd he (verifyChain_total hV.verify _ _ _ hc e')
  · intro h; cases h
  · rename_i last _
    obtain ⟨r, hr⟩ := verifyPacket_total (c := last) hV.verify hp
    rw [hr]
    cases r <;> (intro h; cases h)

theorem certificatePolicy_total {V : Cfg} (hV : Total V) {now : Int} {c : SData}
    (hc : ∃ vp, getValidityPeriod c = .ok vp) : ∀ e, certificatePolicy V now c ≠ .raise e := by
  intro e
  obtain ⟨vp, hvp⟩ := hc
  unfold certificatePolicy isValid
  rw [hvp]
  simp only [bind, Except.bind, pure, Except.pure, Res.lift, Res.bind]
  split
  · intro h; cases h
  · have := hV.policy (.data c)
    split
    · rename_i d _
      cases d <;> (intro h; cases h)
    · intro h; cases h
    · rename_i e' h'
      exact absurd h' (this e')

theorem requestCertificate_P {P : SData → Prop} (V : Cfg) (now : Int) :
    ∀ k {st : Stores} {s : Session} {n : Name}, V.maxDepth - s.chain.length ≤ k → StP P st →
      (∀ c ∈ s.chain, P c) →
      StP P (requestCertificate V now st s n).1 ∧ OutP P (requestCertificate V now st s n).2 ∧
      (Total V → (∀ c, P c → Signed c) → PacketSigned s.packet →
        ∀ s' e, (requestCertificate V now st s n).2 ≠ .raise s' e) := by
  intro k
  induction k with
  | zero =>
    intro st s n hk hst hc
    rw [requestCertificate]
    rw [if_pos (by omega)]
    exact ⟨hst, (fun c h => by cases h), fun _ _ _ _ _ h => by cases h⟩
  | succ k ih =>
    intro st s n hk hst hc
    rw [requestCertificate]
    split
    · exact ⟨hst, (fun c h => by cases h), fun _ _ _ _ _ h => by cases h⟩
    · rename_i hd
      split
      · exact ⟨hst, (fun c h => by cases h), fun _ _ _ _ _ h => by cases h⟩
      · dsimp only
        have hf := findTrusted_P (V := V) hst now n
        obtain ⟨hst', r, hr, hrP⟩ := hf
        cases hft : st.findTrusted now (V.request n) with
        | mk st' r' =>
          rw [hft] at hr hst'
          dsimp only at hr hst'
          subst hr
          cases r with
          | some c =>
            dsimp only
            exact ⟨hst', verifyAll_P V _ c hc, fun hV hS hp => verifyAll_total hV c (fun x hx => hS x (hc x hx)) hp⟩
          | none =>
            dsimp only
            obtain ⟨r2, hr2⟩ := findSorted_total V n ((st'.unverified.refresh now).entries.map Entry.cert)
            have hu : st'.unverified.find now (V.request n) = (st'.unverified.refresh now, .ok r2) := by
              unfold Cache.find
              dsimp only
              rw [hr2]
            rw [hu]
            have hst2 : StP P { st' with unverified := st'.unverified.refresh now } :=
              ⟨hst'.anchors, hst'.verified, fun e he => hst'.unverified e (refresh_subset _ _ e he)⟩
            cases r2 with
            | none =>
              dsimp only
              exact ⟨hst2, hc, fun _ _ _ _ _ h => by cases h⟩
            | some c =>
              dsimp only
              obtain ⟨e, he, hec⟩ := List.mem_map.1 (findSorted_some hr2).1
              subst hec
              have hPc := hst2.unverified e he
              split
              · rename_i e' he'
                exact ⟨hst2, trivial, fun hV _ _ => absurd he' (certificatePolicy_total hV hPc.2 e')⟩
              · exact ⟨hst2, (fun c h => by cases h), fun _ _ _ _ _ h => by cases h⟩
              · rename_i m _
                exact ih (by simp; omega) hst2 (by
                  intro x hx
                  rcases List.mem_cons.1 hx with rfl | hx
                  · exact hPc.1
                  · exact hc x hx)
              · exact ⟨hst2, trivial, fun _ _ _ _ _ h => by cases h⟩

theorem validateCertificate_P {P : SData → Prop} (V : Cfg) (now : Int) {st : Stores} {s : Session}
    {c : SData} (hst : StP P st) (hc : ∀ c ∈ s.chain, P c) (hPc : P c) :
    StP P (validateCertificate V now st s c).1 ∧ OutP P (validateCertificate V now st s c).2 := by
  unfold validateCertificate
  split
  · exact ⟨hst, trivial⟩
  · exact ⟨hst, fun c h => by cases h⟩
  · rename_i n _
    have := requestCertificate_P (P := P) V now _ (n := n) (s := { s with chain := c :: s.chain }) (Nat.le_refl _) hst (by
      intro x hx
      rcases List.mem_cons.1 hx with rfl | hx
      · exact hPc
      · exact hc x hx)
    exact ⟨this.1, this.2.1⟩
  · exact ⟨hst, trivial⟩

theorem continueFetch_P {P : SData → Prop} (V : Cfg) (now : Int) {st : Stores} {s : Session}
    {c : SData} (hst : StP P st) (hc : ∀ c ∈ s.chain, P c) (hPc : P c) :
    StP P (continueFetch V now st s c).1 ∧ OutP P (continueFetch V now st s c).2 := by
  unfold continueFetch
  split
  · exact ⟨hst, trivial⟩
  · rename_i u hu
    refine validateCertificate_P V now ⟨hst.anchors, hst.verified, ?_⟩ hc hPc
    exact insert_all (P := fun c => P c ∧ ∃ vp, getValidityPeriod c = .ok vp) hu ⟨hPc, insert_getPeriod hu⟩
      hst.unverified

theorem onCertificate_P {P : SData → Prop} (V : Cfg) (now : Int) {st : Stores} {s : Session}
    {c : SData} (hst : StP P st) (hc : ∀ c ∈ s.chain, P c) (hPc : P c) :
    StP P (onCertificate V now st s c).1 ∧ OutP P (onCertificate V now st s c).2 := by
  unfold onCertificate
  split
  · exact ⟨hst, fun c h => by cases h⟩
  · exact continueFetch_P V now hst hc hPc

theorem refetch_P {P : SData → Prop} (V : Cfg) (now : Int) {st : Stores} {s : Session}
    {n : Name} {r : Int} (hst : StP P st) (hc : ∀ c ∈ s.chain, P c) :
    StP P (refetch V now st s n r).1 ∧ OutP P (refetch V now st s n r).2 := by
  unfold refetch
  split
  · have hst2 : StP P { st with unverified := st.unverified.refresh now } :=
      ⟨hst.anchors, hst.verified, fun e he => hst.unverified e (refresh_subset _ _ e he)⟩
    split
    · rename_i u e hu
      have : u = st.unverified.refresh now := (congrArg Prod.fst hu).symm
      subst this
      exact ⟨hst2, trivial⟩
    · rename_i u hu
      have : u = st.unverified.refresh now := (congrArg Prod.fst hu).symm
      subst this
      exact ⟨hst2, hc⟩
    · rename_i u c hu
      have : u = st.unverified.refresh now := (congrArg Prod.fst hu).symm
      subst this
      obtain ⟨⟨e, he, hec⟩, _⟩ := cache_find_some (congrArg Prod.snd hu)
      subst hec
      exact continueFetch_P V now hst2 hc (hst2.unverified e he).1
  · exact ⟨hst, fun c h => by cases h⟩

/-- The predicate holds of all certificates in the system, and the calls have raised nothing. -/
structure SysP (P : SData → Prop) (y : Sys) : Prop where
  st : StP P y.st
  pend : ∀ p ∈ y.pending, ∀ c ∈ p.session.chain, P c
  frames : ∀ f ∈ y.frames, ∀ c ∈ f.cache, P c
  quiet : ∀ id e, Ev.raised id e ∉ y.trace

theorem sysP_fail {P : SData → Prop} {y : Sys} (h : SysP P y) (id : Nat) (async : Bool) (e : VErr)
    {cache : List SData} (hc : ∀ c ∈ cache, P c) : SysP P (y.fail id async e cache) := by
  refine ⟨h.st, h.pend, ?_, ?_⟩
  · intro f hf c hc'
    rcases List.mem_append.1 hf with hf | hf
    · exact h.frames f hf c hc'
    · rw [List.mem_singleton.1 hf] at hc'
      exact hc c hc'
  · intro i e' hi
    rcases List.mem_append.1 hi with hi | hi
    · exact h.quiet i e' hi
    · cases List.mem_singleton.1 hi

theorem quiet_append {tr : List Ev} (h : ∀ id e, Ev.raised id e ∉ tr) {ev : Ev}
    (hev : ∀ i e, Ev.raised i e ≠ ev) : ∀ id e, Ev.raised id e ∉ tr ++ [ev] := by
  intro i e hi
  rcases List.mem_append.1 hi with hi | hi
  · exact h i e hi
  · exact hev i e (List.mem_singleton.1 hi)

theorem sysP_conclude {P : SData → Prop} {V : Cfg} {y : Sys} (h : SysP P y) {id : Nat} {async ok : Bool}
    {r : Int} {out : Out} (ho : OutP P out) (hr : async = false → ∀ s e, out ≠ .raise s e) :
    SysP P (y.conclude V id async ok r out) := by
  cases out with
  | success s cache =>
    refine ⟨h.st, h.pend, ?_, quiet_append h.quiet (by simp)⟩
    intro f hf c hc'
    rcases List.mem_append.1 hf with hf | hf
    · exact h.frames f hf c hc'
    · rw [List.mem_singleton.1 hf] at hc'
      exact ho c hc'
  | fail s e cache => exact sysP_fail h _ _ _ ho
  | raise s e =>
    cases async with
    | true => exact sysP_fail h _ _ _ (fun c hc => by cases hc)
    | false => exact absurd rfl (hr rfl s e)
  | silent s => exact ⟨h.st, h.pend, h.frames, quiet_append h.quiet (by simp)⟩
  | fetch s n =>
    simp only [Sys.conclude]
    split
    · exact sysP_fail h _ _ _ (fun c hc => by cases hc)
    · refine ⟨h.st, ?_, h.frames, quiet_append h.quiet (by simp)⟩
      intro q hq c hc
      rcases List.mem_append.1 hq with hq | hq
      · exact h.pend q hq c hc
      · rw [List.mem_singleton.1 hq] at hc
        exact ho c hc

theorem sysP_store {P : SData → Prop} {y : Sys} (h : SysP P y) {st : Stores} (hs : StP P st) :
    SysP P { y with st := st } := ⟨hs, h.pend, h.frames, h.quiet⟩

theorem sysP_take {P : SData → Prop} {y : Sys} (h : SysP P y) (k : Nat) :
    SysP P { y with pending := y.pending.eraseIdx k } :=
  ⟨h.st, fun q hq => h.pend q ((List.eraseIdx_sublist _ _).subset hq), h.frames, h.quiet⟩

/-- The packets and certificates that an event brings in satisfy the predicate. -/
def EventP (P : SData → Prop) : Event → Prop
  | .validate p _ => PacketSigned p
  | .data _ d _ => P d
  | .loadAnchor _ c => P c
  | .fileAdded c => P c
  | .cacheVerified c => P c
  | .cacheUnverified c => P c
  | _ => True

theorem checkOriginal_total {V : Cfg} (hV : Total V) (now : Int) (rs : List Record) (p : Packet) :
    ∀ e, (checkOriginal V now rs p).2 ≠ .raise e := by
  intro e
  have hpol := hV.policy p
  unfold checkOriginal
  split
  · rename_i o i signed hcmd
    split
    · intro h; cases h
    · rename_i e' hp
      exfalso
      unfold parseCommandInterest at hp
      split at hp
      · cases hp
      · rename_i hlen
        have hix : ∃ c, pyIndex (Packet.interest i signed).name (-4) = .ok c := by
          have h4 : 4 ≤ i.name.length := by simpa [Packet.name] using hlen
          exact ⟨_, pyIndex_neg i.name 4 (by omega) h4⟩
        obtain ⟨c, hc⟩ := hix
        rw [hc] at hp
        simp only [Res.lift, bind, Res.bind] at hp
        have : ∀ e, getKeyLocatorName (Packet.interest i signed) ≠ .raise e := by
          intro e
          unfold getKeyLocatorName keyLocatorNameOf
          dsimp only
          split
          · intro h; cases h
          · split
            · intro h; cases h
            · split
              · intro h; cases h
              · split <;> (intro h; cases h)
        split at hp
        · cases hp
        · cases hp
        · rename_i e2 h2
          exact this _ h2
    · rename_i kl ts _
      dsimp only
      intro h
      simp only [bind, Res.bind] at h
      split at h
      · split at h
        · cases h
        · cases h
        · rename_i e2 h2; exact hpol _ h2
      · cases h
      · rename_i e2 h2
        unfold checkTimestamp at h2
        split at h2
        · cases h2
        · split at h2
          · split at h2 <;> cases h2
          · cases h2
  · intro h
    simp only [bind, Res.bind] at h
    split at h
    · cases h
    · cases h
    · rename_i e2 h2; exact hpol _ h2

theorem sysP_step {P : SData → Prop} {V : Cfg} (hV : Total V) (hS : ∀ c, P c → Signed c) {y : Sys}
    (hi : Inv V y) (h : SysP P y) {e : Event} (he : EventP P e) : SysP P (step V y e) := by
  cases e with
  | validate p ok =>
    simp only [step]
    unfold Sys.validate
    dsimp only
    have ht := checkOriginal_total hV y.now y.records p
    have h1 : ∀ rs, SysP P { y.emit (.called y.next p) with next := y.next + 1, records := rs } :=
      fun rs => ⟨h.st, h.pend, h.frames, quiet_append h.quiet (by simp)⟩
    cases hco : checkOriginal V y.now y.records p with
    | mk rs r =>
      have hco' : checkOriginal V ({ y.emit (.called y.next p) with next := y.next + 1 } : Sys).now
          ({ y.emit (.called y.next p) with next := y.next + 1 } : Sys).records p = (rs, r) := hco
      rw [hco']
      rw [hco] at ht
      dsimp only at ht ⊢
      split
      · exact sysP_conclude (h1 rs) (fun c hc => by cases hc) (fun _ _ _ h => by cases h)
      · exact absurd rfl (ht _)
      · exact sysP_conclude (h1 rs) (fun c hc => by cases hc) (fun _ _ _ h => by cases h)
      · exact sysP_conclude (h1 rs) trivial (fun _ _ _ h => by cases h)
      · rename_i rec n
        have := requestCertificate_P (P := P) V y.now _ (st := y.st) (s := { packet := p, record := rec })
          (n := n) (Nat.le_refl _) h.st (fun c hc => by cases hc)
        exact sysP_conclude (sysP_store (h1 rs) this.1) this.2.1 (fun _ => this.2.2 hV hS he)
  | data k d ok =>
    simp only [step]
    unfold Sys.onData
    split
    · exact h
    · rename_i p hk
      split
      · have := onCertificate_P (P := P) V y.now (s := p.session) (c := d) h.st
          (h.pend p (List.mem_of_getElem? hk)) he
        exact sysP_conclude (sysP_store (sysP_take h k) this.1) this.2 (by simp)
      · exact h
  | timeout k ok =>
    simp only [step]
    unfold Sys.onTimeout
    split
    · exact h
    · rename_i p hk
      have := refetch_P (P := P) V y.now (s := p.session) (n := p.name) (r := p.retriesLeft - 1) h.st
          (h.pend p (List.mem_of_getElem? hk))
      exact sysP_conclude (sysP_store (sysP_take h k) this.1) this.2 (by simp)
  | resume k =>
    simp only [step]
    have hres := inv_resume hi k
    unfold Sys.resume at hres ⊢
    split
    · exact h
    · rename_i f hk
      have hmem : f ∈ y.frames := List.mem_of_getElem? hk
      have hcnt : ∀ j, y.frames.countP (fun g => g.id == j) =
          (y.frames.eraseIdx k).countP (fun g => g.id == j) + single f.id j := by
        intro j
        rw [countP_eraseIdx' _ hk]
        simp [single]
      have hone : y.outcomes.countP (fun o => o.1 == f.id) = 0 := by
        have h1 := hi.cb f.id
        have h2 := hi.acc f.id
        have h3 := callbacks_le_ends f.id y.trace
        have h4 := hcnt f.id
        have h5 : opened y.next f.id ≤ 1 := by unfold opened; split <;> omega
        simp only [single, if_true] at h4
        omega
      have hno : y.outcomes.any (fun o => o.1 == f.id) = false := by
        rw [Bool.eq_false_iff]
        intro hany
        obtain ⟨o, ho, hoi⟩ := List.any_eq_true.1 hany
        have : 0 < y.outcomes.countP (fun o => o.1 == f.id) := List.countP_pos_iff.2 ⟨o, ho, hoi⟩
        omega
      dsimp only
      obtain ⟨rs, hrs⟩ := addRecord_eq { y with frames := y.frames.eraseIdx k } f.record
      rw [hrs]
      rw [hno]
      simp only [Bool.false_eq_true, if_false]
      have hca := cacheAll_ok (V := V) (tr := y.trace) (now := y.now) (cs := f.cache) (v := y.st.verified)
        (hi.frames f hmem) (fun e he => ⟨hi.store.verified e he, hi.store.formatV e he⟩) hi.store.fresh
      rw [hca.1]
      have hall : ∀ (cs : List SData) (v : Cache), (∀ c ∈ cs, P c) → (∀ e ∈ v.entries, P e.cert) →
          ∀ e ∈ (cacheAll y.now v cs).1.entries, P e.cert := by
        intro cs
        induction cs with
        | nil => exact fun v _ hv => hv
        | cons c cs ih =>
          intro v hc hv
          unfold cacheAll
          split
          · exact hv
          · rename_i v' hv'
            exact ih v' (fun x hx => hc x (List.mem_cons_of_mem _ hx))
              (insert_all hv' (hc c (List.mem_cons_self ..)) hv)
      exact ⟨⟨h.st.anchors, hall _ _ (h.frames f hmem) h.st.verified, h.st.unverified⟩, h.pend,
        fun g hg => h.frames g ((List.eraseIdx_sublist _ _).subset hg), h.quiet⟩
  | loadAnchor g c =>
    refine ⟨?_, h.pend, h.frames, quiet_append h.quiet (by simp)⟩
    simp only [step]
    unfold Stores.loadAnchor
    dsimp only
    split
    · exact h.st
    · refine ⟨?_, h.st.verified, h.st.unverified⟩
      intro x hx
      dsimp only at hx
      split at hx
      · rcases mem_addAnchor hx with rfl | hx
        · exact he
        · exact h.st.anchors x hx
      · exact h.st.anchors x hx
  | removeAnchor g n =>
    exact ⟨⟨fun c hc => h.st.anchors c (List.mem_filter.1 hc).1, h.st.verified, h.st.unverified⟩, h.pend,
      h.frames, h.quiet⟩
  | fileAdded c =>
    simp only [step]
    split
    · exact h
    · refine ⟨⟨?_, h.st.verified, h.st.unverified⟩, h.pend, h.frames, quiet_append h.quiet (by simp)⟩
      intro x hx
      rcases mem_addAnchor hx with rfl | hx
      · exact he
      · exact h.st.anchors x hx
  | fileRemoved n =>
    exact ⟨⟨fun c hc => h.st.anchors c (List.mem_filter.1 hc).1, h.st.verified, h.st.unverified⟩, h.pend,
      h.frames, h.quiet⟩
  | resetAnchors =>
    exact ⟨⟨fun c hc => (by cases hc), h.st.verified, h.st.unverified⟩, h.pend,
      h.frames, h.quiet⟩
  | cacheVerified c =>
    simp only [step]
    split
    · exact h
    · rename_i v hv
      exact ⟨⟨h.st.anchors, insert_all hv he h.st.verified, h.st.unverified⟩, h.pend, h.frames,
        quiet_append h.quiet (by simp)⟩
  | cacheUnverified c =>
    simp only [step]
    split
    · exact h
    · rename_i u hu
      exact ⟨⟨h.st.anchors, h.st.verified, insert_all (P := fun c => P c ∧ ∃ vp, getValidityPeriod c = .ok vp)
        hu ⟨he, insert_getPeriod hu⟩ h.st.unverified⟩, h.pend, h.frames, h.quiet⟩
  | resetVerified =>
    exact ⟨⟨h.st.anchors, fun e he => (by cases he), h.st.unverified⟩, h.pend, h.frames, h.quiet⟩
  | clock t =>
    exact ⟨h.st, h.pend, h.frames, quiet_append h.quiet (by simp)⟩

theorem sysP_run {P : SData → Prop} {V : Cfg} (hV : Total V) (hS : ∀ c, P c → Signed c)
    (es : List Event) : ∀ {y : Sys}, Inv V y → SysP P y → (∀ e ∈ es, EventP P e) → SysP P (run V y es) := by
  induction es with
  | nil => exact fun _ h _ => h
  | cons e es ih =>
    intro y hi h he
    exact ih (inv_step hi e) (sysP_step hV hS hi h (he e (List.mem_cons_self ..)))
      (fun x hx => he x (List.mem_cons_of_mem _ hx))

theorem sysP_init (P : SData → Prop) (t : Int) : SysP P (init t) := by
  constructor <;> simp [init]
  constructor <;> simp

/-! ### Policies that do not raise -/

theorem getKeyLocatorName_total (p : Packet) : ∀ e, getKeyLocatorName p ≠ .raise e := by
  intro e
  unfold getKeyLocatorName keyLocatorNameOf
  cases p with
  | data d =>
    dsimp only
    split
    · intro h; cases h
    · split <;> (intro h; cases h)
  | interest i signed =>
    dsimp only
    split
    · intro h; cases h
    · split
      · intro h; cases h
      · split
        · intro h; cases h
        · split <;> (intro h; cases h)

theorem simpleHierarchy_total : Policy.simpleHierarchy.Total := by
  intro p e
  unfold Policy.check
  dsimp only
  intro h
  have h1 := getKeyLocatorName_total p
  simp only [bind, Res.bind] at h
  split at h
  · rename_i kl _
    have h2 := getPrefix_neg kl 2 (by omega)
    have h3 : getPrefix kl (-2) = .ok (kl.take (kl.length - 2)) := by simpa using h2
    rw [h3] at h
    simp only [Res.lift] at h
    split at h <;> cases h
  · cases h
  · rename_i e' h'; exact h1 _ h'

theorem acceptAll_total : Policy.acceptAll.Total := by
  intro p e h; cases h

end PyNDN.Validator
