import Verif.Model.Objects
/-
Change counts: every mutation of an object or of one of its children is visible in the count that the
next `getChangeCount` returns.
-/
namespace PyNDN

/-! ### The heap -/

/-- `h'` is a later heap: objects stay, counts do not decrease, and an object with the same count has
the same value. -/
structure HeapLe (h h' : Heap) : Prop where
  length : h.length ≤ h'.length
  count : ∀ r, r < h.length → (h.at r).count ≤ (h'.at r).count
  val : ∀ r, r < h.length → (h'.at r).count = (h.at r).count → (h'.at r).val = (h.at r).val

theorem HeapLe.refl (h : Heap) : HeapLe h h := ⟨Nat.le_refl _, fun _ _ => Nat.le_refl _, fun _ _ _ => rfl⟩

theorem HeapLe.trans {h₁ h₂ h₃ : Heap} (a : HeapLe h₁ h₂) (b : HeapLe h₂ h₃) : HeapLe h₁ h₃ := by
  refine ⟨Nat.le_trans a.length b.length, fun r hr => ?_, fun r hr e => ?_⟩
  · exact Nat.le_trans (a.count r hr) (b.count r (by have := a.length; omega))
  · have hr2 : r < h₂.length := by have := a.length; omega
    have h1 := a.count r hr
    have h2 := b.count r hr2
    rw [b.val r hr2 (by omega), a.val r hr (by omega)]

theorem heap_at_append (h : Heap) (o : Obj Name) (r : Nat) (hr : r < h.length) : Heap.at (h ++ [o]) r = h.at r := by
  simp [Heap.at, List.getD, List.getElem?_append_left hr]

theorem heap_at_new (h : Heap) (o : Obj Name) : Heap.at (h ++ [o]) h.length = o := by
  simp [Heap.at, List.getD]

theorem HeapLe.new (h : Heap) (v : Name) : HeapLe h (h.new v).1 := by
  refine ⟨by simp [Heap.new], fun r hr => ?_, fun r hr _ => ?_⟩ <;>
    simp [Heap.new, heap_at_append _ _ _ hr]

theorem heap_at_mutate (h : Heap) (r s : Nat) (f : Name → Name) (hs : s < h.length) :
    (h.mutate r f).at s = if s = r then (h.at r).change (f (h.at r).val) else h.at s := by
  by_cases e : s = r
  · subst e; simp [Heap.mutate, Heap.at, List.getD, hs]
  · have e' : ¬ r = s := fun h => e h.symm
    simp [Heap.mutate, Heap.at, List.getD, e, e']

theorem HeapLe.mutate (h : Heap) (r : Nat) (f : Name → Name) : HeapLe h (h.mutate r f) := by
  refine ⟨by simp [Heap.mutate], fun s hs => ?_, fun s hs => ?_⟩ <;> rw [heap_at_mutate h r s f hs] <;>
    by_cases e : s = r <;> simp [e, Obj.change]

/-! ### Key locators -/

structure KlObj.Ok (k : KlObj) (h : Heap) : Prop where
  ref : k.keyName < h.length
  seen : k.nameSeen ≤ (h.at k.keyName).count

def KlObj.Clean (k : KlObj) (h : Heap) : Prop := k.nameSeen = (h.at k.keyName).count

/-- The object went from `k` to `k'` without a change going unnoticed. -/
structure KlObj.Le (k : KlObj) (h : Heap) (k' : KlObj) (h' : Heap) : Prop where
  ok : k'.Ok h'
  count : k.count ≤ k'.count
  same : k'.count = k.count → k'.Clean h' → k.Clean h ∧ k'.val h' = k.val h

theorem KlObj.Le.heap {k : KlObj} {h h' : Heap} (ok : k.Ok h) (le : HeapLe h h') : k.Le h k h' := by
  refine ⟨⟨by have := le.length; have := ok.ref; omega, Nat.le_trans ok.seen (le.count _ ok.ref)⟩, Nat.le_refl _, ?_⟩
  intro _ hc
  have h1 := le.count _ ok.ref
  have h2 := ok.seen
  unfold KlObj.Clean at *
  have e : (h'.at k.keyName).count = (h.at k.keyName).count := by omega
  exact ⟨by omega, by simp [KlObj.val, le.val _ ok.ref e]⟩

theorem KlObj.new_ok (v : KeyLocator) (h : Heap) :
    HeapLe h (KlObj.new v h).1 ∧ (KlObj.new v h).2.Ok (KlObj.new v h).1 ∧ (KlObj.new v h).2.Clean (KlObj.new v h).1 ∧
      (KlObj.new v h).2.val (KlObj.new v h).1 = v ∧ (KlObj.new v h).2.count = 0 := by
  refine ⟨HeapLe.new h v.keyName, ⟨?_, ?_⟩, ?_, ?_, rfl⟩ <;>
    simp [KlObj.new, Heap.new, KlObj.Clean, KlObj.val, heap_at_new]

theorem KlObj.Le.bump {k k' : KlObj} {h h' : Heap} (ok : k'.Ok h') (c : k'.count = k.count + 1) : k.Le h k' h' :=
  ⟨ok, by omega, fun e => by omega⟩

theorem KlObj.getChangeCount_spec (k : KlObj) (h : Heap) (ok : k.Ok h) :
    k.Le h (k.getChangeCount h).1 h ∧ (k.getChangeCount h).1.Clean h ∧
      (k.getChangeCount h).2 = (k.getChangeCount h).1.count ∧ (k.getChangeCount h).1.val h = k.val h ∧
      ((k.getChangeCount h).1.count = k.count ↔ k.Clean h) ∧ (k.Clean h → (k.getChangeCount h).1 = k) := by
  unfold KlObj.getChangeCount
  by_cases e : k.nameSeen ≠ (h.at k.keyName).count
  · rw [if_pos e]
    refine ⟨.bump ⟨ok.ref, Nat.le_refl _⟩ rfl, rfl, rfl, rfl, ?_, fun hc => absurd hc e⟩
    constructor
    · intro hh; simp at hh
    · intro hc; exact absurd hc e
  · rw [if_neg e]
    have e : k.Clean h := by unfold KlObj.Clean; omega
    exact ⟨.heap ok (.refl h), e, rfl, rfl, ⟨fun _ => e, fun _ => rfl⟩, fun _ => rfl⟩

/-! ### Signatures -/

structure SigObj.Ok (s : SigObj) (h : Heap) : Prop where
  kl : s.kl.Ok h
  klSeen : s.klSeen ≤ s.kl.count
  vpSeen : s.vpSeen ≤ s.vp.count

structure SigObj.Clean (s : SigObj) (h : Heap) : Prop where
  kl : s.kind.hasKl = true → s.klSeen = s.kl.count ∧ s.kl.Clean h
  vp : s.kind.hasVp = true → s.vpSeen = s.vp.count

structure SigObj.Le (s : SigObj) (h : Heap) (s' : SigObj) (h' : Heap) : Prop where
  ok : s'.Ok h'
  count : s.count ≤ s'.count
  same : s'.count = s.count → s'.Clean h' → s.Clean h ∧ s'.val h' = s.val h

theorem SigObj.Le.bump {k k' : SigObj} {h h' : Heap} (ok : k'.Ok h') (c : k'.count = k.count + 1) : k.Le h k' h' :=
  ⟨ok, by omega, fun e => by omega⟩

theorem SigObj.val_congr {s s' : SigObj} {h h' : Heap} (k : s'.kind = s.kind)
    (kl : s.kind.hasKl = true → s'.kl.val h' = s.kl.val h) (vp : s.kind.hasVp = true → s'.vp.val = s.vp.val)
    (e : s.kind = .generic → s'.encoding = s.encoding ∧ s'.typeCode = s.typeCode) (b : s'.bits = s.bits) :
    s'.val h' = s.val h := by
  unfold SigObj.val
  rw [k, b]
  cases hk : s.kind <;> simp [hk, SigKind.hasKl, SigKind.hasVp] at * <;> simp [*]

/-- Only the key locator changed, or the heap. -/
theorem SigObj.Le.klOf {s : SigObj} {h h' : Heap} {kl' : KlObj} (ok : s.Ok h) (le : s.kl.Le h kl' h') :
    s.Le h { s with kl := kl' } h' := by
  refine ⟨⟨le.ok, Nat.le_trans ok.klSeen le.count, ok.vpSeen⟩, Nat.le_refl _, ?_⟩
  intro _ hc
  have key : s.kind.hasKl = true → s.kl.Clean h ∧ kl'.val h' = s.kl.val h ∧ s.klSeen = s.kl.count := by
    intro hk
    obtain ⟨h1, h2⟩ := hc.kl hk
    have h3 := ok.klSeen
    have h4 := le.count
    simp only at h1
    obtain ⟨h5, h6⟩ := le.same (by omega) h2
    exact ⟨h5, h6, by omega⟩
  exact ⟨⟨fun hk => ⟨(key hk).2.2, (key hk).1⟩, hc.vp⟩,
    SigObj.val_congr rfl (fun hk => (key hk).2.1) (fun _ => rfl) (fun _ => ⟨rfl, rfl⟩) rfl⟩

theorem SigObj.Le.heap {s : SigObj} {h h' : Heap} (ok : s.Ok h) (le : HeapLe h h') : s.Le h s h' :=
  SigObj.Le.klOf ok (.heap ok.kl le)

theorem SigObj.Ok.heap {s : SigObj} {h h' : Heap} (ok : s.Ok h) (le : HeapLe h h') : s.Ok h' := (SigObj.Le.heap ok le).ok

theorem SigObj.new_ok (v : Signature) (h : Heap) :
    HeapLe h (SigObj.new v h).1 ∧ (SigObj.new v h).2.Ok (SigObj.new v h).1 ∧
      (SigObj.new v h).2.Clean (SigObj.new v h).1 ∧ (SigObj.new v h).2.val (SigObj.new v h).1 = v ∧
      (SigObj.new v h).2.count = 0 := by
  obtain ⟨h1, h2, h3, h4, h5⟩ := KlObj.new_ok (v.info.keyLocator?.getD {}) h
  refine ⟨h1, ⟨h2, Nat.le_refl _, Nat.le_refl _⟩, ⟨fun _ => ⟨rfl, h3⟩, fun _ => rfl⟩, ?_, rfl⟩
  obtain ⟨info, bits⟩ := v
  unfold SigObj.val
  cases info <;> simp [SigObj.new, SigInfo.keyLocator?] at * <;> exact h4

theorem KlObj.clear_le {k : KlObj} {h : Heap} (ok : k.Ok h) :
    HeapLe h (k.clear h).1 ∧ k.Le h (k.clear h).2 (k.clear h).1 := by
  have le := HeapLe.mutate h k.keyName (fun _ => [])
  exact ⟨le, .bump ⟨(KlObj.Le.heap ok le).ok.ref, (KlObj.Le.heap ok le).ok.seen⟩ rfl⟩

/-- A mutating call on a signature is visible in its change count, and leaves the heap consistent. -/
theorem SigObj.apply_le {s : SigObj} {h : Heap} (ok : s.Ok h) (op : SigOp) :
    HeapLe h (s.apply h op).1 ∧ s.Le h (s.apply h op).2 (s.apply h op).1 := by
  have refl : HeapLe h h ∧ s.Le h s h := ⟨.refl h, .heap ok (.refl h)⟩
  cases op with
  | setKeyLocator v =>
    dsimp only [SigObj.apply]
    split
    · obtain ⟨h1, h2, h3, h4, h5⟩ := KlObj.new_ok v h
      exact ⟨h1, .bump ⟨h2, Nat.le_refl _, ok.vpSeen⟩ rfl⟩
    · exact refl
  | setValidityPeriod v =>
    dsimp only [SigObj.apply]
    split
    · exact ⟨.refl h, .bump ⟨ok.kl, ok.klSeen, Nat.le_refl _⟩ rfl⟩
    · exact refl
  | setSignature b => exact ⟨.refl h, .bump ⟨ok.kl, ok.klSeen, ok.vpSeen⟩ rfl⟩
  | setEncoding b t =>
    dsimp only [SigObj.apply]
    split
    · exact ⟨.refl h, .bump ⟨ok.kl, ok.klSeen, ok.vpSeen⟩ rfl⟩
    · exact refl
  | clear =>
    dsimp only [SigObj.apply]
    split
    · obtain ⟨h1, h2⟩ := KlObj.clear_le ok.kl
      exact ⟨h1, .bump ⟨h2.ok, Nat.le_trans ok.klSeen h2.count, ok.vpSeen⟩ rfl⟩
    · split
      · exact ⟨.refl h, .bump ⟨ok.kl, ok.klSeen, ok.vpSeen⟩ rfl⟩
      · exact ⟨.refl h, .bump ⟨ok.kl, ok.klSeen, ok.vpSeen⟩ rfl⟩
  | klType t =>
    dsimp only [SigObj.apply]
    split
    · exact ⟨.refl h, .klOf ok (.bump ⟨ok.kl.ref, ok.kl.seen⟩ rfl)⟩
    · exact refl
  | klName r =>
    dsimp only [SigObj.apply]
    split
    · next hc => exact ⟨.refl h, .klOf ok (.bump ⟨hc.2, Nat.le_refl _⟩ rfl)⟩
    · exact refl
  | klData b =>
    dsimp only [SigObj.apply]
    split
    · exact ⟨.refl h, .klOf ok (.bump ⟨ok.kl.ref, ok.kl.seen⟩ rfl)⟩
    · exact refl
  | klClear =>
    dsimp only [SigObj.apply]
    split
    · obtain ⟨h1, h2⟩ := KlObj.clear_le ok.kl
      exact ⟨h1, .klOf ok h2⟩
    · exact refl
  | vpSet b e =>
    dsimp only [SigObj.apply]
    split
    · next hk =>
      refine ⟨.refl h, ⟨ok.kl, ok.klSeen, Nat.le_succ_of_le ok.vpSeen⟩, Nat.le_refl _, fun _ hc => ?_⟩
      have := hc.vp hk
      have h2 := ok.vpSeen
      simp [Obj.change] at this
      omega
    · exact refl
  | vpClear =>
    dsimp only [SigObj.apply]
    split
    · next hk =>
      refine ⟨.refl h, ⟨ok.kl, ok.klSeen, Nat.le_succ_of_le ok.vpSeen⟩, Nat.le_refl _, fun _ hc => ?_⟩
      have := hc.vp hk
      have h2 := ok.vpSeen
      simp [Obj.change] at this
      omega
    · exact refl

theorem SigObj.getChangeCount_spec (s : SigObj) (h : Heap) (ok : s.Ok h) :
    s.Le h (s.getChangeCount h).1 h ∧ (s.getChangeCount h).1.Clean h ∧
      (s.getChangeCount h).2 = (s.getChangeCount h).1.count ∧ (s.getChangeCount h).1.val h = s.val h ∧
      ((s.getChangeCount h).1.count = s.count ↔ s.Clean h) ∧ (s.Clean h → (s.getChangeCount h).1 = s) := by
  obtain ⟨h1, h2, h3, h4, h5, h6⟩ := s.kl.getChangeCount_spec h ok.kl
  have e1 := h1.count
  have e2 := ok.klSeen
  have e3 := ok.vpSeen
  unfold SigObj.getChangeCount
  by_cases hk : s.kind.hasKl = true
  · rw [if_pos hk]
    dsimp only
    by_cases hv : s.kind.hasVp = true
    · rw [if_pos hv]
      dsimp only
      by_cases ch : (decide (s.klSeen ≠ (s.kl.getChangeCount h).2) || decide (s.vpSeen ≠ s.vp.count)) = true
      · rw [if_pos ch]
        refine ⟨.bump ⟨h1.ok, by simp [h3], Nat.le_refl _⟩ rfl, ⟨fun _ => ⟨h3, h2⟩, fun _ => rfl⟩, rfl,
          SigObj.val_congr rfl (fun _ => h4) (fun _ => rfl) (fun _ => ⟨rfl, rfl⟩) rfl, ?_, ?_⟩
        · constructor
          · intro e; simp at e
          · intro c
            obtain ⟨c1, c2⟩ := c.kl hk
            have c3 := c.vp hv
            have := h5.2 c2
            simp only [Bool.or_eq_true, decide_eq_true_eq] at ch
            omega
        · intro c
          obtain ⟨c1, c2⟩ := c.kl hk
          have c3 := c.vp hv
          have := h5.2 c2
          simp only [Bool.or_eq_true, decide_eq_true_eq] at ch
          omega
      · rw [if_neg ch]
        simp only [Bool.or_eq_true, decide_eq_true_eq, not_or, ne_eq, Decidable.not_not] at ch
        have c1 : s.kl.count = (s.kl.getChangeCount h).1.count := by omega
        have cl := h5.1 c1.symm
        have es := h6 cl
        have cl' : s.Clean h := ⟨fun _ => ⟨by omega, cl⟩, fun _ => ch.2⟩
        have : ({ s with kl := (s.kl.getChangeCount h).1, klSeen := (s.kl.getChangeCount h).2, vpSeen := s.vp.count } : SigObj) = s := by
          cases s
          simp only [SigObj.mk.injEq, true_and, and_true] at *
          exact ⟨es, by omega, by omega⟩
        rw [this]
        exact ⟨.heap ok (.refl h), cl', rfl, rfl, ⟨fun _ => cl', fun _ => rfl⟩, fun _ => rfl⟩
    · rw [if_neg hv]
      dsimp only
      by_cases ch : decide (s.klSeen ≠ (s.kl.getChangeCount h).2) = true
      · rw [if_pos ch]
        refine ⟨.bump ⟨h1.ok, by simp [h3], e3⟩ rfl, ⟨fun _ => ⟨h3, h2⟩, fun hh => absurd hh hv⟩, rfl,
          SigObj.val_congr rfl (fun _ => h4) (fun _ => rfl) (fun _ => ⟨rfl, rfl⟩) rfl, ?_, ?_⟩
        · constructor
          · intro e; simp at e
          · intro c
            obtain ⟨c1, c2⟩ := c.kl hk
            have := h5.2 c2
            simp only [decide_eq_true_eq] at ch
            omega
        · intro c
          obtain ⟨c1, c2⟩ := c.kl hk
          have := h5.2 c2
          simp only [decide_eq_true_eq] at ch
          omega
      · rw [if_neg ch]
        simp only [decide_eq_true_eq, ne_eq, Decidable.not_not] at ch
        have c1 : s.kl.count = (s.kl.getChangeCount h).1.count := by omega
        have cl := h5.1 c1.symm
        have es := h6 cl
        have cl' : s.Clean h := ⟨fun _ => ⟨by omega, cl⟩, fun hh => absurd hh hv⟩
        have : ({ s with kl := (s.kl.getChangeCount h).1, klSeen := (s.kl.getChangeCount h).2 } : SigObj) = s := by
          cases s
          simp only [SigObj.mk.injEq, true_and, and_true] at *
          exact ⟨es, by omega⟩
        rw [this]
        exact ⟨.heap ok (.refl h), cl', rfl, rfl, ⟨fun _ => cl', fun _ => rfl⟩, fun _ => rfl⟩
  · rw [if_neg hk]
    have hv : ¬ s.kind.hasVp = true := by
      cases hkk : s.kind <;> simp [hkk, SigKind.hasKl, SigKind.hasVp] at *
    simp only [hv]
    have cl' : s.Clean h := ⟨fun hh => absurd hh hk, fun hh => absurd hh hv⟩
    exact ⟨.heap ok (.refl h), cl', rfl, rfl, ⟨fun _ => cl', fun _ => rfl⟩, fun _ => rfl⟩

theorem Obj.metaOp_le (o : Obj MetaInfo) (op : MetaOp) :
    o.count ≤ (o.metaOp op).count ∧ ((o.metaOp op).count = o.count → (o.metaOp op).val = o.val) := by
  cases op <;> simp only [Obj.metaOp, Obj.change] <;> try split
  all_goals simp

/-! ### Data -/

structure DataObj.Ok (d : DataObj) (h : Heap) : Prop where
  ref : d.name < h.length
  nameSeen : d.nameSeen ≤ (h.at d.name).count
  metaSeen : d.metaSeen ≤ d.metaInfo.count
  sig : d.sig.Ok h
  sigSeen : d.sigSeen ≤ d.sig.count
  got : d.getDefaultCount ≤ d.count

structure DataObj.Clean (d : DataObj) (h : Heap) : Prop where
  name : d.nameSeen = (h.at d.name).count
  metaInfo : d.metaSeen = d.metaInfo.count
  sigSeen : d.sigSeen = d.sig.count
  sig : d.sig.Clean h

/-- The cached values are the same. -/
def DataObj.SameCache (d d' : DataObj) : Prop :=
  d'.defaultWireEncoding = d.defaultWireEncoding ∧ d'.defaultFormat = d.defaultFormat ∧
  d'.getDefaultCount = d.getDefaultCount ∧ d'.defaultFullName = d.defaultFullName

structure DataObj.Le (d : DataObj) (h : Heap) (d' : DataObj) (h' : Heap) : Prop where
  heap : HeapLe h h'
  ok : d'.Ok h'
  cache : d.SameCache d'
  count : d.count ≤ d'.count
  same : d'.count = d.count → d'.Clean h' → d.Clean h ∧ d'.fields h' = d.fields h

theorem DataObj.Le.trans {d₁ d₂ d₃ : DataObj} {h₁ h₂ h₃ : Heap} (a : d₁.Le h₁ d₂ h₂) (b : d₂.Le h₂ d₃ h₃) :
    d₁.Le h₁ d₃ h₃ := by
  obtain ⟨a1, a2, ⟨a3, a4, a5, a6⟩, a7, a8⟩ := a
  obtain ⟨b1, b2, ⟨b3, b4, b5, b6⟩, b7, b8⟩ := b
  refine ⟨a1.trans b1, b2, ⟨b3.trans a3, b4.trans a4, b5.trans a5, b6.trans a6⟩, by omega, fun e c => ?_⟩
  obtain ⟨c1, c2⟩ := b8 (by omega) c
  obtain ⟨c3, c4⟩ := a8 (by omega) c1
  exact ⟨c3, c2.trans c4⟩

/-- The signature object changed, or only the heap. -/
theorem DataObj.Le.sigOf {d : DataObj} {h h' : Heap} {sig' : SigObj} (ok : d.Ok h) (hle : HeapLe h h')
    (le : d.sig.Le h sig' h') : d.Le h { d with sig := sig' } h' := by
  have h1 := hle.count _ ok.ref
  have h2 := ok.nameSeen
  have h3 := hle.length
  have h4 := ok.ref
  refine ⟨hle, ⟨Nat.lt_of_lt_of_le ok.ref hle.length, Nat.le_trans ok.nameSeen (hle.count _ ok.ref), ok.metaSeen, le.ok, Nat.le_trans ok.sigSeen le.count, ok.got⟩,
    ⟨rfl, rfl, rfl, rfl⟩, Nat.le_refl _, fun _ c => ?_⟩
  have c1 := c.name
  have c2 := c.sigSeen
  have c3 := le.count
  have c4 := ok.sigSeen
  simp only at c1 c2
  obtain ⟨c5, c6⟩ := le.same (by omega) c.sig
  exact ⟨⟨by omega, c.metaInfo, by omega, c5⟩, by simp [DataObj.fields, c6, hle.val _ ok.ref (by omega)]⟩

theorem DataObj.Le.heapOf {d : DataObj} {h h' : Heap} (ok : d.Ok h) (hle : HeapLe h h') : d.Le h d h' :=
  DataObj.Le.sigOf ok hle (.heap ok.sig hle)

theorem DataObj.Le.bump {d d' : DataObj} {h h' : Heap} (hle : HeapLe h h') (ok : d'.Ok h') (s : d.SameCache d')
    (c : d'.count = d.count + 1) : d.Le h d' h' := ⟨hle, ok, s, by omega, fun e => by omega⟩

theorem DataObj.getChangeCount_spec (d : DataObj) (h : Heap) (ok : d.Ok h) :
    d.Le h (d.getChangeCount h).1 h ∧ (d.getChangeCount h).1.Clean h ∧
      (d.getChangeCount h).2 = (d.getChangeCount h).1.count ∧ (d.getChangeCount h).1.fields h = d.fields h ∧
      ((d.getChangeCount h).1.count = d.count ↔ d.Clean h) ∧ (d.Clean h → (d.getChangeCount h).1 = d) := by
  obtain ⟨h1, h2, h3, h4, h5, h6⟩ := d.sig.getChangeCount_spec h ok.sig
  have e1 := h1.count
  have e2 := ok.sigSeen
  unfold DataObj.getChangeCount
  dsimp only
  by_cases ch : (decide (d.sigSeen ≠ (d.sig.getChangeCount h).2) || (decide (d.metaSeen ≠ d.metaInfo.count) ||
      decide (d.nameSeen ≠ (h.at d.name).count))) = true
  · rw [if_pos ch]
    have nc : ¬ d.Clean h := by
      intro c
      have c1 := h5.2 c.sig
      have c2 := c.sigSeen
      have c3 := c.metaInfo
      have c4 := c.name
      simp only [Bool.or_eq_true, decide_eq_true_eq] at ch
      omega
    refine ⟨.bump (.refl h) ⟨ok.ref, Nat.le_refl _, Nat.le_refl _, h1.ok, by simp [h3], by have := ok.got; simp only; omega⟩
      ⟨rfl, rfl, rfl, rfl⟩ rfl, ⟨rfl, rfl, h3, h2⟩, rfl, by simp [DataObj.fields, h4], ?_, fun c => absurd c nc⟩
    constructor
    · intro e; simp at e
    · intro c; exact absurd c nc
  · rw [if_neg ch]
    simp only [Bool.or_eq_true, decide_eq_true_eq, not_or, ne_eq, Decidable.not_not] at ch
    have c1 : (d.sig.getChangeCount h).1.count = d.sig.count := by omega
    have cl := h5.1 c1
    have es := h6 cl
    have cl' : d.Clean h := ⟨ch.2.2, ch.2.1, by omega, cl⟩
    have : ({
        d with nameSeen := (h.at d.name).count, metaSeen := d.metaInfo.count, sig := (d.sig.getChangeCount h).1,
               sigSeen := (d.sig.getChangeCount h).2 } : DataObj) = d := by
      cases d
      simp only [DataObj.mk.injEq, true_and, and_true] at *
      exact ⟨by omega, by omega, es, by omega⟩
    rw [this]
    exact ⟨.heapOf ok (.refl h), cl', rfl, rfl, ⟨fun _ => cl', fun _ => rfl⟩, fun _ => rfl⟩

theorem DataObj.apply_le {d : DataObj} {h : Heap} (ok : d.Ok h) (op : DataOp) :
    d.Le h (d.apply h op).2 (d.apply h op).1 := by
  cases op with
  | newName v => exact .heapOf ok (.new h v)
  | nameAppend r v => exact .heapOf ok (.mutate h r (· ++ v))
  | nameClear r => exact .heapOf ok (.mutate h r (fun _ => []))
  | setName r =>
    dsimp only [DataObj.apply]
    split
    · next hr =>
      exact .bump (.refl h) ⟨hr, Nat.le_refl _, ok.metaSeen, ok.sig, ok.sigSeen, Nat.le_succ_of_le ok.got⟩ ⟨rfl, rfl, rfl, rfl⟩ rfl
    · exact .heapOf ok (.refl h)
  | setMetaInfo v =>
    exact .bump (.refl h) ⟨ok.ref, ok.nameSeen, Nat.le_refl _, ok.sig, ok.sigSeen, Nat.le_succ_of_le ok.got⟩ ⟨rfl, rfl, rfl, rfl⟩ rfl
  | metaInfo op =>
    obtain ⟨m1, m2⟩ := d.metaInfo.metaOp_le op
    refine ⟨.refl h, ⟨ok.ref, ok.nameSeen, Nat.le_trans ok.metaSeen m1, ok.sig, ok.sigSeen, ok.got⟩, ⟨rfl, rfl, rfl, rfl⟩,
      Nat.le_refl _, fun _ c => ?_⟩
    have c1 := c.metaInfo
    have c2 := ok.metaSeen
    simp only [DataObj.apply] at c1
    have e : (d.metaInfo.metaOp op).count = d.metaInfo.count := by omega
    exact ⟨⟨c.name, by omega, c.sigSeen, c.sig⟩, by simp [DataObj.apply, DataObj.fields, m2 e]⟩
  | setSignature v =>
    obtain ⟨h1, h2, h3, h4, h5⟩ := SigObj.new_ok v h
    obtain ⟨g1, g2, g3, g4, g5, g6⟩ := (SigObj.new v h).2.getChangeCount_spec (SigObj.new v h).1 h2
    have e1 := h1.count _ ok.ref
    have e2 := ok.nameSeen
    have e3 := h1.length
    have e4 := ok.ref
    refine .bump h1 ⟨Nat.lt_of_lt_of_le ok.ref h1.length, Nat.le_trans ok.nameSeen (h1.count _ ok.ref), ok.metaSeen, h2, ?_,
      Nat.le_succ_of_le ok.got⟩ ⟨rfl, rfl, rfl, rfl⟩ rfl
    simp only [DataObj.apply]
    rw [g3, g6 h3]
    exact Nat.le_refl _
  | signature op =>
    obtain ⟨h1, h2⟩ := SigObj.apply_le ok.sig op
    exact .sigOf ok h1 h2
  | setContent b =>
    exact .bump (.refl h) ⟨ok.ref, ok.nameSeen, ok.metaSeen, ok.sig, ok.sigSeen, Nat.le_succ_of_le ok.got⟩ ⟨rfl, rfl, rfl, rfl⟩ rfl
  | readKeyLocatorCount =>
    dsimp only [DataObj.apply]
    split
    · exact .sigOf ok (.refl h) (.klOf ok.sig (d.sig.kl.getChangeCount_spec h ok.sig.kl).1)
    · exact .heapOf ok (.refl h)
  | readSignatureCount => exact .sigOf ok (.refl h) (d.sig.getChangeCount_spec h ok.sig).1
  | readCount => exact (d.getChangeCount_spec h ok).1

theorem DataObj.applyAll_le {d : DataObj} {h : Heap} (ok : d.Ok h) (ops : List DataOp) :
    d.Le h (d.applyAll h ops).2 (d.applyAll h ops).1 := by
  induction ops generalizing d h with
  | nil => exact .heapOf ok (.refl h)
  | cons op ops ih =>
    have h1 := DataObj.apply_le ok op
    exact h1.trans (ih h1.ok)

/-! ### Interest -/

structure InterestObj.Ok (i : InterestObj) (h : Heap) : Prop where
  ref : i.name < h.length
  nameSeen : i.nameSeen ≤ (h.at i.name).count
  kl : i.kl.Ok h
  klSeen : i.klSeen ≤ i.kl.count
  excludeSeen : i.excludeSeen ≤ i.exclude.count
  hintSeen : i.hintSeen ≤ i.hint.count
  got : i.getDefaultCount ≤ i.count
  nonceGot : i.nonceCount ≤ i.count

structure InterestObj.Clean (i : InterestObj) (h : Heap) : Prop where
  name : i.nameSeen = (h.at i.name).count
  klSeen : i.klSeen = i.kl.count
  kl : i.kl.Clean h
  exclude : i.excludeSeen = i.exclude.count
  hint : i.hintSeen = i.hint.count

/-- The fields apart from the nonce. -/
def InterestObj.base (i : InterestObj) (h : Heap) : Interest × Option ((Bytes × Nat) × List Nat) :=
  ({ name := (h.at i.name).val, minSuffix := i.minSuffix, maxSuffix := i.maxSuffix, keyLocator := i.kl.val h,
     exclude := i.exclude.val, childSelector := i.childSelector, mustBeFresh := i.mustBeFresh,
     nonce := none, lifetime := i.lifetime, forwardingHint := i.hint.val,
     applicationParameters := i.params, link := none, selectedDelegation := i.selected }, i.link)

theorem InterestObj.fields_eq (i : InterestObj) (h : Heap) :
    i.fields h = ({ (i.base h).1 with nonce := (i.getNonce h).2 }, (i.base h).2) := rfl

def InterestObj.SameCache (i i' : InterestObj) : Prop :=
  i'.defaultWireEncoding = i.defaultWireEncoding ∧ i'.defaultFormat = i.defaultFormat ∧
  i'.getDefaultCount = i.getDefaultCount

def InterestObj.SameNonce (i i' : InterestObj) : Prop := i'.nonce = i.nonce ∧ i'.nonceCount = i.nonceCount

theorem InterestObj.getChangeCount_clean (i : InterestObj) (h : Heap) (ok : i.Ok h) (c : i.Clean h) :
    i.getChangeCount h = (i, i.count) := by
  obtain ⟨h1, h2, h3, h4, h5, h6⟩ := i.kl.getChangeCount_spec h ok.kl
  have es := h6 c.kl
  have e2 : (i.kl.getChangeCount h).2 = i.klSeen := by rw [h3, es]; exact c.klSeen.symm
  unfold InterestObj.getChangeCount
  dsimp only
  rw [es, e2, ← c.name, ← c.exclude, ← c.hint]
  simp

theorem InterestObj.getChangeCount_dirty (i : InterestObj) (h : Heap) (ok : i.Ok h) (c : ¬ i.Clean h) :
    ∃ i', i.getChangeCount h = (i', i.count + 1) ∧ i'.count = i.count + 1 ∧ i'.Ok h ∧ i'.Clean h ∧
      i.SameCache i' ∧ i.SameNonce i' ∧ i'.base h = i.base h := by
  obtain ⟨h1, h2, h3, h4, h5, h6⟩ := i.kl.getChangeCount_spec h ok.kl
  have e1 := h1.count
  have e2 := ok.klSeen
  unfold InterestObj.getChangeCount
  dsimp only
  have ch : (decide (i.hintSeen ≠ i.hint.count) || (decide (i.excludeSeen ≠ i.exclude.count) ||
      (decide (i.klSeen ≠ (i.kl.getChangeCount h).2) || decide (i.nameSeen ≠ (h.at i.name).count)))) = true := by
    apply Classical.byContradiction
    intro ch
    simp only [Bool.or_eq_true, decide_eq_true_eq, not_or, ne_eq, Decidable.not_not] at ch
    have c1 : (i.kl.getChangeCount h).1.count = i.kl.count := by omega
    exact c ⟨ch.2.2.2, by omega, h5.1 c1, ch.2.1, ch.1⟩
  rw [if_pos ch]
  refine ⟨_, rfl, rfl, ⟨ok.ref, Nat.le_refl _, h1.ok, by simp [h3], Nat.le_refl _, Nat.le_refl _,
    Nat.le_succ_of_le ok.got, Nat.le_succ_of_le ok.nonceGot⟩, ⟨rfl, h3, h2, rfl, rfl⟩, ⟨rfl, rfl, rfl⟩, ⟨rfl, rfl⟩, ?_⟩
  simp [InterestObj.base, InterestObj.link, h4]

theorem InterestObj.getNonce_clean (i : InterestObj) (h : Heap) (ok : i.Ok h) (c : i.Clean h) (e : i.nonceCount = i.count) :
    i.getNonce h = (i, i.nonce) := by
  unfold InterestObj.getNonce
  rw [getChangeCount_clean i h ok c]
  simp [e]

theorem InterestObj.clean_congr {i i' : InterestObj} {h : Heap} (c : i.Clean h) (h1 : i'.name = i.name)
    (h2 : i'.nameSeen = i.nameSeen) (h3 : i'.kl = i.kl) (h4 : i'.klSeen = i.klSeen) (h5 : i'.exclude = i.exclude)
    (h6 : i'.excludeSeen = i.excludeSeen) (h7 : i'.hint = i.hint) (h8 : i'.hintSeen = i.hintSeen) : i'.Clean h :=
  ⟨by rw [h1, h2]; exact c.name, by rw [h3, h4]; exact c.klSeen, by rw [h3]; exact c.kl,
    by rw [h5, h6]; exact c.exclude, by rw [h7, h8]; exact c.hint⟩

theorem InterestObj.getNonce_other (i : InterestObj) (h : Heap) (ok : i.Ok h) (c : ¬ (i.Clean h ∧ i.nonceCount = i.count)) :
    ∃ i', i.getNonce h = (i', none) ∧ i'.Ok h ∧ i'.Clean h ∧ i.SameCache i' ∧ i'.base h = i.base h ∧
      i.count ≤ i'.count ∧ (i'.count = i.count → i.Clean h) ∧ i'.nonceCount = i'.count ∧ i'.nonce = none := by
  unfold InterestObj.getNonce
  by_cases cl : i.Clean h
  · rw [getChangeCount_clean i h ok cl]
    have hn : i.nonceCount ≠ i.count := fun e => c ⟨cl, e⟩
    dsimp only
    rw [if_pos hn]
    have ok' : InterestObj.Ok { i with nonce := none } h := ⟨ok.ref, ok.nameSeen, ok.kl, ok.klSeen, ok.excludeSeen, ok.hintSeen, ok.got, ok.nonceGot⟩
    have cl' : InterestObj.Clean { i with nonce := none } h := ⟨cl.name, cl.klSeen, cl.kl, cl.exclude, cl.hint⟩
    rw [getChangeCount_clean _ h ok' cl']
    exact ⟨_, rfl, ⟨ok.ref, ok.nameSeen, ok.kl, ok.klSeen, ok.excludeSeen, ok.hintSeen, ok.got, Nat.le_refl _⟩,
      ⟨cl.name, cl.klSeen, cl.kl, cl.exclude, cl.hint⟩, ⟨rfl, rfl, rfl⟩, rfl, Nat.le_refl _, fun _ => cl, rfl, rfl⟩
  · obtain ⟨j, h1, h2, h3, h4, h5, h6, h7⟩ := getChangeCount_dirty i h ok cl
    rw [h1]
    have hn : j.nonceCount ≠ i.count + 1 := by have := ok.nonceGot; have := h6.2; omega
    dsimp only
    rw [if_pos hn]
    have ok' : InterestObj.Ok { j with nonce := none } h := ⟨h3.ref, h3.nameSeen, h3.kl, h3.klSeen, h3.excludeSeen, h3.hintSeen, h3.got, h3.nonceGot⟩
    have cl' : InterestObj.Clean { j with nonce := none } h := ⟨h4.name, h4.klSeen, h4.kl, h4.exclude, h4.hint⟩
    rw [getChangeCount_clean _ h ok' cl']
    exact ⟨_, rfl, ⟨h3.ref, h3.nameSeen, h3.kl, h3.klSeen, h3.excludeSeen, h3.hintSeen, h3.got, Nat.le_refl _⟩,
      ⟨h4.name, h4.klSeen, h4.kl, h4.exclude, h4.hint⟩, h5, h7, by simp only; omega, fun e => by simp only at e; omega, rfl, rfl⟩

/-- `getNonce` returns the stored nonce if nothing changed since it was set, and null otherwise. -/
theorem InterestObj.getNonce_eq (i : InterestObj) (h : Heap) (ok : i.Ok h) :
    ((i.Clean h ∧ i.nonceCount = i.count) ∧ (i.getNonce h).2 = i.nonce) ∨
    (¬ (i.Clean h ∧ i.nonceCount = i.count) ∧ (i.getNonce h).2 = none) := by
  by_cases c : i.Clean h ∧ i.nonceCount = i.count
  · exact .inl ⟨c, by rw [getNonce_clean i h ok c.1 c.2]⟩
  · obtain ⟨j, e, _⟩ := getNonce_other i h ok c
    exact .inr ⟨c, by rw [e]⟩

structure InterestObj.Le (i : InterestObj) (h : Heap) (i' : InterestObj) (h' : Heap) : Prop where
  heap : HeapLe h h'
  ok : i'.Ok h'
  cache : i.SameCache i'
  count : i.count ≤ i'.count
  same : i'.count = i.count → i'.Clean h' → i.Clean h ∧ i'.base h' = i.base h ∧ (i'.getNonce h').2 = (i.getNonce h).2

theorem InterestObj.Le.trans {d₁ d₂ d₃ : InterestObj} {h₁ h₂ h₃ : Heap} (a : d₁.Le h₁ d₂ h₂) (b : d₂.Le h₂ d₃ h₃) :
    d₁.Le h₁ d₃ h₃ := by
  obtain ⟨a1, a2, ⟨a3, a4, a5⟩, a7, a8⟩ := a
  obtain ⟨b1, b2, ⟨b3, b4, b5⟩, b7, b8⟩ := b
  refine ⟨a1.trans b1, b2, ⟨b3.trans a3, b4.trans a4, b5.trans a5⟩, by omega, fun e c => ?_⟩
  obtain ⟨c1, c2, c5⟩ := b8 (by omega) c
  obtain ⟨c3, c4, c6⟩ := a8 (by omega) c1
  exact ⟨c3, c2.trans c4, c5.trans c6⟩

theorem InterestObj.Le.bump {d d' : InterestObj} {h h' : Heap} (hle : HeapLe h h') (ok : d'.Ok h') (s : d.SameCache d')
    (c : d.count < d'.count) : d.Le h d' h' := ⟨hle, ok, s, by omega, fun e => by omega⟩

/-- A step that does not touch the nonce. -/
theorem InterestObj.Le.mk' {i i' : InterestObj} {h h' : Heap} (hle : HeapLe h h') (ok0 : i.Ok h) (ok : i'.Ok h') (s : i.SameCache i')
    (n : i.SameNonce i') (c : i.count ≤ i'.count)
    (same : i'.count = i.count → i'.Clean h' → i.Clean h ∧ i'.base h' = i.base h) : i.Le h i' h' := by
  refine ⟨hle, ok, s, c, fun e cl => ?_⟩
  obtain ⟨h1, h2⟩ := same e cl
  refine ⟨h1, h2, ?_⟩
  rcases i.getNonce_eq h ok0 with ⟨a, b⟩ | ⟨a, b⟩ <;> rcases i'.getNonce_eq h' ok with ⟨a', b'⟩ | ⟨a', b'⟩
  · rw [b, b', n.1]
  · exact absurd ⟨cl, by rw [n.2, e]; exact a.2⟩ a'
  · exact absurd ⟨h1, by rw [← n.2, ← e]; exact a'.2⟩ a
  · rw [b, b']

/-- Children (key locator, exclude, forwarding hint) or the heap changed. -/
theorem InterestObj.Le.children {i : InterestObj} {h h' : Heap} {kl' : KlObj} {ex' : Obj Exclude} {fh' : Obj DelegationSet}
    (ok : i.Ok h) (hle : HeapLe h h') (le : i.kl.Le h kl' h')
    (ex : i.exclude.count ≤ ex'.count ∧ (ex'.count = i.exclude.count → ex'.val = i.exclude.val))
    (fh : i.hint.count ≤ fh'.count ∧ (fh'.count = i.hint.count → fh'.val = i.hint.val)) :
    i.Le h { i with kl := kl', exclude := ex', hint := fh' } h' := by
  have h1 := hle.count _ ok.ref
  have h2 := ok.nameSeen
  refine .mk' hle ok ⟨Nat.lt_of_lt_of_le ok.ref hle.length, Nat.le_trans ok.nameSeen h1, le.ok, Nat.le_trans ok.klSeen le.count,
    Nat.le_trans ok.excludeSeen ex.1, Nat.le_trans ok.hintSeen fh.1, ok.got, ok.nonceGot⟩ ⟨rfl, rfl, rfl⟩ ⟨rfl, rfl⟩
    (Nat.le_refl _) (fun _ c => ?_)
  have c1 := c.name
  have c2 := c.klSeen
  have c3 := c.exclude
  have c4 := c.hint
  have c5 := le.count
  have c6 := ok.klSeen
  have c7 := ok.excludeSeen
  have c8 := ok.hintSeen
  have c9 := ex.1
  have c10 := fh.1
  simp only at c1 c2 c3 c4
  obtain ⟨k1, k2⟩ := le.same (by omega) c.kl
  refine ⟨⟨by omega, by omega, k1, by omega, by omega⟩, ?_⟩
  simp [InterestObj.base, InterestObj.link, k2, hle.val _ ok.ref (by omega), ex.2 (by omega), fh.2 (by omega)]

theorem InterestObj.Le.klOf {i : InterestObj} {h h' : Heap} {kl' : KlObj}
    (ok : i.Ok h) (hle : HeapLe h h') (le : i.kl.Le h kl' h') : i.Le h { i with kl := kl' } h' :=
  .children ok hle le ⟨Nat.le_refl _, fun _ => rfl⟩ ⟨Nat.le_refl _, fun _ => rfl⟩

theorem InterestObj.Le.heapOf {i : InterestObj} {h h' : Heap} (ok : i.Ok h) (hle : HeapLe h h') : i.Le h i h' :=
  .klOf ok hle (.heap ok.kl hle)

theorem InterestObj.getChangeCount_le (i : InterestObj) (h : Heap) (ok : i.Ok h) :
    i.Le h (i.getChangeCount h).1 h ∧ (i.getChangeCount h).1.Clean h ∧
      (i.getChangeCount h).2 = (i.getChangeCount h).1.count ∧ (i.getChangeCount h).1.fields h = i.fields h ∧
      (i.getChangeCount h).1.base h = i.base h ∧ i.SameNonce (i.getChangeCount h).1 := by
  by_cases c : i.Clean h
  · rw [getChangeCount_clean i h ok c]
    exact ⟨.heapOf ok (.refl h), c, rfl, rfl, rfl, rfl, rfl⟩
  · obtain ⟨j, h1, h2, h3, h4, h5, h6, h7⟩ := getChangeCount_dirty i h ok c
    rw [h1]
    refine ⟨.bump (.refl h) h3 h5 (by show i.count < j.count; omega), h4, h2.symm, ?_, h7, h6⟩
    rw [fields_eq, fields_eq, h7]
    rcases i.getNonce_eq h ok with ⟨a, b⟩ | ⟨a, b⟩ <;> rcases j.getNonce_eq h h3 with ⟨a', b'⟩ | ⟨a', b'⟩
    · exact absurd a.1 c
    · exact absurd a.1 c
    · have := a'.2; have := h6.2; have := ok.nonceGot; omega
    · rw [b, b']

theorem InterestObj.getNonce_le (i : InterestObj) (h : Heap) (ok : i.Ok h) :
    i.Le h (i.getNonce h).1 h ∧ (i.getNonce h).1.Clean h ∧ (i.getNonce h).1.fields h = i.fields h ∧
      (i.getNonce h).1.nonceCount = (i.getNonce h).1.count ∧ (i.getNonce h).1.nonce = (i.getNonce h).2 ∧
      (i.getNonce h).1.base h = i.base h := by
  by_cases c : i.Clean h ∧ i.nonceCount = i.count
  · rw [getNonce_clean i h ok c.1 c.2]
    exact ⟨.heapOf ok (.refl h), c.1, rfl, c.2, rfl, rfl⟩
  · obtain ⟨j, h1, h2, h3, h4, h5, h6, h7, h8, h9⟩ := getNonce_other i h ok c
    rw [h1]
    have hn : (j.getNonce h).2 = (i.getNonce h).2 := by rw [getNonce_clean j h h2 h3 h8, h1, h9]
    refine ⟨⟨.refl h, h2, h4, h6, fun e cl => ⟨h7 e, h5, hn⟩⟩, h3, ?_, h8, h9, h5⟩
    rw [fields_eq, fields_eq, h5]
    dsimp only
    rw [hn]

theorem InterestObj.setNonce_le (i : InterestObj) (h : Heap) (ok : i.Ok h) (b : Option Bytes) :
    i.Le h (i.setNonce h b) h ∧ (i.setNonce h b).Clean h ∧ (i.setNonce h b).nonce = b ∧
      (i.setNonce h b).nonceCount = (i.setNonce h b).count ∧ (i.setNonce h b).base h = i.base h := by
  have ok' : InterestObj.Ok { i with nonce := b, count := i.count + 1 } h :=
    ⟨ok.ref, ok.nameSeen, ok.kl, ok.klSeen, ok.excludeSeen, ok.hintSeen, Nat.le_succ_of_le ok.got, Nat.le_succ_of_le ok.nonceGot⟩
  obtain ⟨h1, h2, h3, h4, h5, h6⟩ := getChangeCount_le _ h ok'
  unfold InterestObj.setNonce
  dsimp only
  rw [h3]
  have hc := h1.count
  have o := h1.ok
  refine ⟨.bump (.refl h) ⟨o.ref, o.nameSeen, o.kl, o.klSeen, o.excludeSeen, o.hintSeen, o.got, Nat.le_refl _⟩ h1.cache ?_,
    ⟨h2.name, h2.klSeen, h2.kl, h2.exclude, h2.hint⟩, h6.1, rfl, h5⟩
  simp only at hc ⊢
  omega

theorem InterestObj.read_le (i : InterestObj) (h : Heap) (ok : i.Ok h) (r : InterestRead) :
    i.Le h (i.read h r) h ∧ (i.read h r).fields h = i.fields h := by
  cases r with
  | getNonce => exact ⟨(i.getNonce_le h ok).1, (i.getNonce_le h ok).2.2.1⟩
  | getLink decodes =>
    unfold InterestObj.read
    dsimp only
    split
    · next w e1 e2 =>
      split
      · have ok' : InterestObj.Ok { i with linkObj := some ⟨w, []⟩, linkWire := none } h :=
          ⟨ok.ref, ok.nameSeen, ok.kl, ok.klSeen, ok.excludeSeen, ok.hintSeen, ok.got, ok.nonceGot⟩
        have eb : InterestObj.base { i with linkObj := some ⟨w, []⟩, linkWire := none } h = i.base h := by
          simp [InterestObj.base, InterestObj.link, e1, e2]
        refine ⟨.mk' (.refl h) ok ok' ⟨rfl, rfl, rfl⟩ ⟨rfl, rfl⟩ (Nat.le_refl _)
          (fun _ c => ⟨⟨c.name, c.klSeen, c.kl, c.exclude, c.hint⟩, eb⟩), ?_⟩
        rw [fields_eq, fields_eq, eb]
        rcases i.getNonce_eq h ok with ⟨a, b⟩ | ⟨a, b⟩ <;> rcases InterestObj.getNonce_eq _ h ok' with ⟨a', b'⟩ | ⟨a', b'⟩
        · rw [b, b']
        · exact absurd ⟨⟨a.1.name, a.1.klSeen, a.1.kl, a.1.exclude, a.1.hint⟩, a.2⟩ a'
        · exact absurd ⟨⟨a'.1.name, a'.1.klSeen, a'.1.kl, a'.1.exclude, a'.1.hint⟩, a'.2⟩ a
        · rw [b, b']
      · exact ⟨.heapOf ok (.refl h), rfl⟩
    · exact ⟨.heapOf ok (.refl h), rfl⟩
  | readCount => exact ⟨(i.getChangeCount_le h ok).1, (i.getChangeCount_le h ok).2.2.2.1⟩
  | readKeyLocatorCount =>
    obtain ⟨h1, h2, h3, h4, h5, h6⟩ := i.kl.getChangeCount_spec h ok.kl
    have le : i.Le h (i.read h .readKeyLocatorCount) h := .klOf ok (.refl h) h1
    refine ⟨le, ?_⟩
    have eb : (i.read h .readKeyLocatorCount).base h = i.base h := by
      simp [InterestObj.read, InterestObj.base, InterestObj.link, h4]
    rw [fields_eq, fields_eq, eb]
    rcases i.getNonce_eq h ok with ⟨a, b⟩ | ⟨a, b⟩ <;> rcases InterestObj.getNonce_eq _ h le.ok with ⟨a', b'⟩ | ⟨a', b'⟩
    · rw [b, b']; rfl
    · refine absurd ⟨?_, a.2⟩ a'
      have : i.read h .readKeyLocatorCount = i := by
        simp only [InterestObj.read]; rw [h6 a.1.kl]
      rw [this]; exact a.1
    · exact absurd ⟨(le.same rfl a'.1).1, a'.2⟩ a
    · rw [b, b']

theorem Obj.excludeOp_le (o : Obj Exclude) (op : ExcludeOp) :
    o.count < (o.excludeOp op).count := by
  cases op <;> simp [Obj.excludeOp, Obj.change]

theorem Obj.hintOp_le (o : Obj DelegationSet) (op : HintOp) :
    o.count ≤ (o.hintOp op).count ∧ ((o.hintOp op).count = o.count → (o.hintOp op).val = o.val) := by
  cases op <;> simp only [Obj.hintOp, Obj.change] <;> try split
  all_goals (try simp; try omega)

theorem InterestObj.apply_le {i : InterestObj} {h : Heap} (ok : i.Ok h) (op : InterestOp) (hop : ∀ e, op ≠ .editLink e) :
    i.Le h (i.apply h op).2 (i.apply h op).1 := by
  cases op with
  | newName v => exact .heapOf ok (.new h v)
  | nameAppend r v => exact .heapOf ok (.mutate h r (· ++ v))
  | nameClear r => exact .heapOf ok (.mutate h r (fun _ => []))
  | setName r =>
    dsimp only [InterestObj.apply]
    split
    · next hr =>
      exact .bump (.refl h) ⟨hr, Nat.le_refl _, ok.kl, ok.klSeen, ok.excludeSeen, ok.hintSeen, Nat.le_succ_of_le ok.got,
        Nat.le_succ_of_le ok.nonceGot⟩ ⟨rfl, rfl, rfl⟩ (Nat.lt_succ_self _)
    · exact .heapOf ok (.refl h)
  | setKeyLocator v =>
    obtain ⟨h1, h2, h3, h4, h5⟩ := KlObj.new_ok v h
    obtain ⟨g1, g2, g3, g4, g5, g6⟩ := (KlObj.new v h).2.getChangeCount_spec (KlObj.new v h).1 h2
    refine .bump h1 ⟨Nat.lt_of_lt_of_le ok.ref h1.length, Nat.le_trans ok.nameSeen (h1.count _ ok.ref), h2, ?_, ok.excludeSeen,
      ok.hintSeen, Nat.le_succ_of_le ok.got, Nat.le_succ_of_le ok.nonceGot⟩ ⟨rfl, rfl, rfl⟩ (Nat.lt_succ_self _)
    simp only [InterestObj.apply]
    rw [g3, g6 h3]
    exact Nat.le_refl _
  | klType t => exact .klOf ok (.refl h) (.bump ⟨ok.kl.ref, ok.kl.seen⟩ rfl)
  | klName r =>
    dsimp only [InterestObj.apply]
    split
    · next hc => exact .klOf ok (.refl h) (.bump ⟨hc, Nat.le_refl _⟩ rfl)
    · exact .heapOf ok (.refl h)
  | klData b => exact .klOf ok (.refl h) (.bump ⟨ok.kl.ref, ok.kl.seen⟩ rfl)
  | klClear =>
    obtain ⟨h1, h2⟩ := KlObj.clear_le ok.kl
    exact .klOf ok h1 h2
  | setExclude v =>
    exact .bump (.refl h) ⟨ok.ref, ok.nameSeen, ok.kl, ok.klSeen, Nat.le_refl _, ok.hintSeen, Nat.le_succ_of_le ok.got,
      Nat.le_succ_of_le ok.nonceGot⟩ ⟨rfl, rfl, rfl⟩ (Nat.lt_succ_self _)
  | setForwardingHint v =>
    exact .bump (.refl h) ⟨ok.ref, ok.nameSeen, ok.kl, ok.klSeen, ok.excludeSeen, Nat.le_refl _, Nat.le_succ_of_le ok.got,
      Nat.le_succ_of_le ok.nonceGot⟩ ⟨rfl, rfl, rfl⟩ (Nat.lt_succ_self _)
  | exclude op =>
    have h1 := i.exclude.excludeOp_le op
    exact .children ok (.refl h) (.heap ok.kl (.refl h)) ⟨Nat.le_of_lt h1, fun e => by omega⟩ ⟨Nat.le_refl _, fun _ => rfl⟩
  | hint op =>
    exact .children ok (.refl h) (.heap ok.kl (.refl h)) ⟨Nat.le_refl _, fun _ => rfl⟩ (i.hint.hintOp_le op)
  | setNonce b => exact (i.setNonce_le h ok b).1
  | refreshNonce new =>
    dsimp only [InterestObj.apply]
    have h1 := (i.getNonce_le h ok).1
    split
    · exact h1
    · exact h1.trans (InterestObj.setNonce_le _ h h1.ok _).1
  | appendParametersDigest d =>
    dsimp only [InterestObj.apply]
    split
    · exact .heapOf ok (.mutate h i.name (· ++ [⟨.params, d⟩]))
    · exact .heapOf ok (.refl h)
  | editLink e => exact absurd rfl (hop e)
  | read r => exact (i.read_le h ok r).1
  | _ =>
    exact .bump (.refl h) ⟨ok.ref, ok.nameSeen, ok.kl, ok.klSeen, ok.excludeSeen, ok.hintSeen, Nat.le_succ_of_le ok.got,
      Nat.le_succ_of_le ok.nonceGot⟩ ⟨rfl, rfl, rfl⟩ (Nat.lt_succ_self _)

theorem InterestObj.applyAll_le {i : InterestObj} {h : Heap} (ok : i.Ok h) (ops : List InterestOp)
    (hop : ∀ op ∈ ops, ∀ e, op ≠ .editLink e) : i.Le h (i.applyAll h ops).2 (i.applyAll h ops).1 := by
  induction ops generalizing i h with
  | nil => exact .heapOf ok (.refl h)
  | cons op ops ih =>
    have h1 := InterestObj.apply_le ok op (hop op (by simp))
    exact h1.trans (ih h1.ok (fun o ho => hop o (by simp [ho])))

end PyNDN
