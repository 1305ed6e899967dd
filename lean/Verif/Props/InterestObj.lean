import Verif.Props.Objects
/-
C23 and C24 for Interest objects.
-/
namespace PyNDN
open Spec

abbrev IFields := Interest × Option ((Bytes × Nat) × List Nat)

structure InterestInv (P : Nat → Wire → IFields → Prop) (i : InterestObj) (h : Heap) : Prop where
  ok : i.Ok h
  enc : ∀ w, i.defaultWireEncoding = some w → i.getDefaultCount = i.count → i.Clean h →
    ∃ f, i.defaultFormat = some f ∧ P f w (i.fields h)

theorem InterestObj.Le.fields {i i' : InterestObj} {h h' : Heap} (le : i.Le h i' h') (c : i'.count = i.count)
    (cl : i'.Clean h') : i'.fields h' = i.fields h := by
  obtain ⟨h1, h2, h3⟩ := le.same c cl
  rw [fields_eq, fields_eq, h2, h3]

theorem InterestInv.le {P : Nat → Wire → IFields → Prop} {d d' : InterestObj} {h h' : Heap} (inv : InterestInv P d h)
    (le : d.Le h d' h') : InterestInv P d' h' := by
  refine ⟨le.ok, fun w e1 e2 c => ?_⟩
  obtain ⟨c1, c2, c3⟩ := le.cache
  have h1 := le.count
  have h2 := inv.ok.got
  obtain ⟨k1, _⟩ := le.same (by omega) c
  have k2 := le.fields (by omega) c
  obtain ⟨f, f1, f2⟩ := inv.enc w (by rw [← c1]; exact e1) (by omega) k1
  exact ⟨f, by rw [c2]; exact f1, by rw [k2]; exact f2⟩

theorem InterestInv.mono {P Q : Nat → Wire → IFields → Prop} {d : InterestObj} {h : Heap} (inv : InterestInv P d h)
    (hpq : ∀ f w x, P f w x → Q f w x) : InterestInv Q d h :=
  ⟨inv.ok, fun w e1 e2 c => by obtain ⟨f, f1, f2⟩ := inv.enc w e1 e2 c; exact ⟨f, f1, hpq _ _ _ f2⟩⟩

/-- Fields that only depend on parts that the caches are not. -/
theorem InterestObj.getNonce_cache (i : InterestObj) (h : Heap) (ok : i.Ok h) (w : Option Wire) (f : Option Nat) (n : Nat)
    (hn : n ≤ i.count) :
    ({ i with defaultWireEncoding := w, defaultFormat := f, getDefaultCount := n } : InterestObj).Ok h ∧
    (i.Clean h ↔ ({ i with defaultWireEncoding := w, defaultFormat := f, getDefaultCount := n } : InterestObj).Clean h) ∧
    ({ i with defaultWireEncoding := w, defaultFormat := f, getDefaultCount := n } : InterestObj).fields h = i.fields h := by
  have ok' : ({ i with defaultWireEncoding := w, defaultFormat := f, getDefaultCount := n } : InterestObj).Ok h :=
    ⟨ok.ref, ok.nameSeen, ok.kl, ok.klSeen, ok.excludeSeen, ok.hintSeen, hn, ok.nonceGot⟩
  have cl : i.Clean h ↔ ({ i with defaultWireEncoding := w, defaultFormat := f, getDefaultCount := n } : InterestObj).Clean h :=
    ⟨fun c => ⟨c.name, c.klSeen, c.kl, c.exclude, c.hint⟩, fun c => ⟨c.name, c.klSeen, c.kl, c.exclude, c.hint⟩⟩
  refine ⟨ok', cl, ?_⟩
  rw [fields_eq, fields_eq]
  have eb : InterestObj.base { i with defaultWireEncoding := w, defaultFormat := f, getDefaultCount := n } h = i.base h := rfl
  rw [eb]
  rcases i.getNonce_eq h ok with ⟨a, b⟩ | ⟨a, b⟩ <;> rcases InterestObj.getNonce_eq _ h ok' with ⟨a', b'⟩ | ⟨a', b'⟩
  · rw [b, b']
  · exact absurd ⟨cl.1 a.1, a.2⟩ a'
  · exact absurd ⟨cl.2 a'.1, a'.2⟩ a
  · rw [b, b']

theorem InterestInv.getDefault {P : Nat → Wire → IFields → Prop} {d : InterestObj} {h : Heap} (inv : InterestInv P d h) :
    ∃ d', d.getDefaultWireEncoding h = (d', d'.defaultWireEncoding) ∧ InterestInv P d' h ∧ d'.Clean h ∧
      d'.getDefaultCount = d'.count ∧ d'.fields h = d.fields h ∧ d'.base h = d.base h := by
  obtain ⟨h1, h2, h3, h4, h5, h6⟩ := d.getChangeCount_le h inv.ok
  have inv1 := inv.le h1
  unfold InterestObj.getDefaultWireEncoding
  dsimp only
  by_cases c : (d.getChangeCount h).1.getDefaultCount ≠ (d.getChangeCount h).2
  · rw [if_pos c]
    obtain ⟨k1, k2, k3⟩ := InterestObj.getNonce_cache (d.getChangeCount h).1 h h1.ok none none _ h1.ok.got
    obtain ⟨l1, l2, l3⟩ := InterestObj.getNonce_cache (d.getChangeCount h).1 h h1.ok none none _ (Nat.le_refl _)
    rw [InterestObj.getChangeCount_clean _ h k1 (k2.1 h2)]
    exact ⟨_, rfl, ⟨l1, fun w e => by cases e⟩, l2.1 h2, rfl, l3.trans h4, h5⟩
  · rw [if_neg c]
    exact ⟨_, rfl, inv1, h2, by omega, h4, h5⟩

theorem InterestInv.setDefault {P : Nat → Wire → IFields → Prop} {d : InterestObj} {h : Heap} (ok : d.Ok h) (w : Option Wire)
    (f : Option Nat) (hp : ∀ w', w = some w' → ∃ f', f = some f' ∧ P f' w' (d.fields h)) :
    InterestInv P (d.setDefaultWireEncoding h w f) h ∧ (d.setDefaultWireEncoding h w f).fields h = d.fields h := by
  obtain ⟨k1, k2, k3⟩ := InterestObj.getNonce_cache d h ok w f _ ok.got
  obtain ⟨h1, h2, h3, h4, h5, h6⟩ := InterestObj.getChangeCount_le _ h k1
  obtain ⟨l1, l2, l3⟩ := InterestObj.getNonce_cache _ h h1.ok
    (InterestObj.getChangeCount { d with defaultWireEncoding := w, defaultFormat := f } h).1.defaultWireEncoding
    (InterestObj.getChangeCount { d with defaultWireEncoding := w, defaultFormat := f } h).1.defaultFormat _ (Nat.le_refl _)
  unfold InterestObj.setDefaultWireEncoding
  dsimp only
  rw [h3]
  have hf := l3.trans (h4.trans k3)
  refine ⟨⟨l1, fun w' e _ _ => ?_⟩, hf⟩
  have e' : w = some w' := by rw [← e]; exact h1.cache.1.symm
  obtain ⟨f', f1, f2⟩ := hp w' e'
  exact ⟨f', by rw [← f1]; exact h1.cache.2.1, hf ▸ f2⟩

theorem InterestObj.reads_le (i : InterestObj) (h : Heap) (ok : i.Ok h) (rs : List InterestRead) :
    (i.applyAll h (rs.map .read)).1 = h ∧ i.Le h (i.applyAll h (rs.map .read)).2 h ∧
      (i.applyAll h (rs.map .read)).2.fields h = i.fields h := by
  induction rs generalizing i with
  | nil => exact ⟨rfl, .heapOf ok (.refl h), rfl⟩
  | cons r rs ih =>
    obtain ⟨h1, h2⟩ := i.read_le h ok r
    obtain ⟨k1, k2, k3⟩ := ih (i.read h r) h1.ok
    exact ⟨k1, h1.trans k2, k3.trans h2⟩

theorem InterestInv.wireEncode (F : InterestFormats) {P : Nat → Wire → IFields → Prop} {w : InterestWorld}
    (inv : InterestInv P w.interest w.heap) (f : Option Nat) (rnd : Nat → UInt8)
    (hp : ∀ fmt enc x r, F.encode fmt x r = .ok enc → P fmt enc x) :
    InterestInv P (w.wireEncode F f rnd).1.interest (w.wireEncode F f rnd).1.heap ∧ (w.wireEncode F f rnd).1.fields = w.fields ∧
      (w.wireEncode F f rnd).1.heap = w.heap ∧
      (match (w.wireEncode F f rnd).2 with
       | .error e => F.encode (f.getD w.defaultFormat) w.fields rnd = .error e
       | .ok enc => P (f.getD w.defaultFormat) enc w.fields) := by
  obtain ⟨d1, e1, i1, c1, g1, f1, b1⟩ := inv.getDefault
  unfold InterestWorld.wireEncode
  dsimp only
  rw [e1]
  dsimp only
  split
  · next enc he =>
    split at he
    · next hc =>
      obtain ⟨fm, m1, m2⟩ := i1.enc enc he g1 c1
      have : d1.getDefaultWireEncoding w.heap = (d1, d1.defaultWireEncoding) := by
        unfold InterestObj.getDefaultWireEncoding
        rw [InterestObj.getChangeCount_clean d1 w.heap i1.ok c1]
        simp [g1]
      rw [this, he]
      dsimp only
      have hf : fm = f.getD w.defaultFormat := by
        have := hc.2; rw [m1] at this; exact Option.some.inj this
      exact ⟨i1, f1, rfl, by rw [← hf]; exact (f1 ▸ m2 : P fm enc (w.interest.fields w.heap))⟩
    · cases he
  · have fe : d1.fields w.heap = w.fields := f1
    obtain ⟨k1, k2, k3⟩ := d1.reads_le w.heap i1.ok (F.reads (f.getD w.defaultFormat) (d1.fields w.heap))
    have i2 := i1.le k2
    rw [fe] at k1 k2 k3 i2 ⊢
    cases hr : F.encode (f.getD w.defaultFormat) w.fields rnd with
    | error e => exact ⟨i2, k3.trans rfl, rfl, rfl⟩
    | ok enc =>
      dsimp only
      by_cases hd : f.getD w.defaultFormat = w.defaultFormat
      · rw [if_pos hd]
        obtain ⟨s1, s2⟩ := InterestInv.setDefault (P := P) i2.ok (some enc) (some w.defaultFormat)
          (fun w' e => ⟨_, rfl, by cases e; rw [k3, ← hd]; exact hp _ _ _ _ hr⟩)
        exact ⟨s1, s2.trans k3, rfl, hp _ _ _ _ hr⟩
      · rw [if_neg hd]
        exact ⟨i2, k3, rfl, hp _ _ _ _ hr⟩

theorem InterestInv.start (P : Nat → Wire → IFields → Prop) (h : Heap) (name : Name) (cbp : Bool) (fmt : Nat) :
    InterestInv P (InterestWorld.start h name cbp fmt).interest (InterestWorld.start h name cbp fmt).heap := by
  obtain ⟨h1, h2, h3, h4, h5⟩ := KlObj.new_ok {} (h.new name).1
  obtain ⟨g1, g2, g3, g4, g5, g6⟩ := (KlObj.new {} (h.new name).1).2.getChangeCount_spec (KlObj.new {} (h.new name).1).1 h2
  refine ⟨⟨?_, Nat.le_refl _, h2, ?_, Nat.le_refl _, Nat.le_refl _, Nat.le_refl _, Nat.le_refl _⟩, fun w e => by cases e⟩
  · exact Nat.lt_of_lt_of_le (by simp [Heap.new, InterestWorld.start, InterestObj.new]) h1.length
  · simp only [InterestWorld.start, InterestObj.new]
    rw [g3, g6 h3]
    exact Nat.le_refl _

/-- A copy of an Interest has the same fields, and its caches are right. -/
theorem InterestInv.copy {P : Nat → Wire → IFields → Prop} {d : InterestObj} {h : Heap} (inv : InterestInv P d h) :
    InterestInv P (d.copy h).2 (d.copy h).1 ∧ (d.copy h).2.fields (d.copy h).1 = d.fields h := by
  have l1 := HeapLe.new h (h.at d.name).val
  have o1 := (InterestObj.Le.heapOf inv.ok l1)
  obtain ⟨h1, h2, h3, h4, h5⟩ := KlObj.new_ok (d.kl.val (h.new (h.at d.name).val).1) (h.new (h.at d.name).val).1
  obtain ⟨g1, g2, g3, g4, g5, g6⟩ := (KlObj.new (d.kl.val (h.new (h.at d.name).val).1) (h.new (h.at d.name).val).1).2.getChangeCount_spec _ h2
  have le2 := o1.trans (InterestObj.Le.heapOf o1.ok h1)
  have hn : (h.new (h.at d.name).val).2 < (h.new (h.at d.name).val).1.length := by simp [Heap.new]
  have nv : ((KlObj.new (d.kl.val (h.new (h.at d.name).val).1) (h.new (h.at d.name).val).1).1.at h.length).val = (h.at d.name).val := by
    show (Heap.at ((h ++ [_]) ++ [_]) h.length).val = _
    rw [heap_at_append _ _ _ (by simp), heap_at_new]
  have stable : ∀ r, r < h.length → (KlObj.new (d.kl.val (h.new (h.at d.name).val).1) (h.new (h.at d.name).val).1).1.at r = h.at r := by
    intro r hr
    show Heap.at ((h ++ [_]) ++ [_]) r = _
    rw [heap_at_append _ _ _ (by simp; omega), heap_at_append _ _ _ hr]
  have kv : d.kl.val (h.new (h.at d.name).val).1 = d.kl.val h := by
    unfold KlObj.val
    rw [show (h.new (h.at d.name).val).1 = h ++ [⟨(h.at d.name).val, 0⟩] from rfl, heap_at_append _ _ _ inv.ok.kl.ref]
  have nn : (h.new (h.at d.name).val).2 = h.length := rfl
  unfold InterestObj.copy
  dsimp only
  have inv2 := inv.le le2
  generalize hk : KlObj.new (d.kl.val (h.new (h.at d.name).val).1) (h.new (h.at d.name).val).1 = nk at *
  obtain ⟨h', kl⟩ := nk
  dsimp only at *
  have eb : d.base h' = d.base h := by
    unfold InterestObj.base KlObj.val
    rw [stable _ inv.ok.ref, stable _ inv.ok.kl.ref]
  have ef : d.fields h' = d.fields h := by
    rw [InterestObj.fields_eq, InterestObj.fields_eq, eb]
    have hcl : d.Clean h' ↔ d.Clean h := by
      constructor
      · intro c
        have c1 := c.name; have c2 := c.kl
        unfold KlObj.Clean at c2
        rw [stable _ inv.ok.ref] at c1
        rw [stable _ inv.ok.kl.ref] at c2
        exact ⟨c1, c.klSeen, c2, c.exclude, c.hint⟩
      · intro c
        have c1 := c.name; have c2 := c.kl
        unfold KlObj.Clean at c2
        rw [← stable _ inv.ok.ref] at c1
        rw [← stable _ inv.ok.kl.ref] at c2
        exact ⟨c1, c.klSeen, c2, c.exclude, c.hint⟩
    rcases d.getNonce_eq h inv.ok with ⟨a, b⟩ | ⟨a, b⟩ <;> rcases d.getNonce_eq h' inv2.ok with ⟨a', b'⟩ | ⟨a', b'⟩
    · rw [b, b']
    · exact absurd ⟨hcl.2 a.1, a.2⟩ a'
    · exact absurd ⟨hcl.1 a'.1, a'.2⟩ a
    · rw [b, b']
  obtain ⟨n1, n2, n3, n4, n5, n6⟩ := d.getNonce_le h' inv2.ok
  obtain ⟨j, e1, i1, c1, q1, f1, b1⟩ := (inv2.le n1).getDefault
  rw [e1]
  dsimp only
  have nonce_eq : (d.getNonce h').2 = (d.fields h).1.nonce := by rw [← ef]; rfl
  have ok' : InterestObj.Ok { j with
      name := (h.new (h.at d.name).val).2, nameSeen := (h'.at (h.new (h.at d.name).val).2).count, kl := kl,
      klSeen := (kl.getChangeCount h').2, exclude := ⟨j.exclude.val, 0⟩, excludeSeen := 0, nonce := (d.getNonce h').2,
      nonceCount := 0, hint := ⟨j.hint.val, 0⟩, hintSeen := 0, defaultWireEncoding := j.defaultWireEncoding,
      getDefaultCount := 0, count := 0 } h' :=
    ⟨Nat.lt_of_lt_of_le hn h1.length, Nat.le_refl _, h2, by dsimp only; rw [g3, g6 h3]; exact Nat.le_refl _, Nat.le_refl _, Nat.le_refl _,
      Nat.le_refl _, Nat.le_refl _⟩
  have cl' : InterestObj.Clean { j with
      name := (h.new (h.at d.name).val).2, nameSeen := (h'.at (h.new (h.at d.name).val).2).count, kl := kl,
      klSeen := (kl.getChangeCount h').2, exclude := ⟨j.exclude.val, 0⟩, excludeSeen := 0, nonce := (d.getNonce h').2,
      nonceCount := 0, hint := ⟨j.hint.val, 0⟩, hintSeen := 0, defaultWireEncoding := j.defaultWireEncoding,
      getDefaultCount := 0, count := 0 } h' :=
    ⟨rfl, by dsimp only; rw [g3, g6 h3], h3, rfl, rfl⟩
  have key : InterestObj.fields { j with
      name := (h.new (h.at d.name).val).2, nameSeen := (h'.at (h.new (h.at d.name).val).2).count, kl := kl,
      klSeen := (kl.getChangeCount h').2, exclude := ⟨j.exclude.val, 0⟩, excludeSeen := 0, nonce := (d.getNonce h').2,
      nonceCount := 0, hint := ⟨j.hint.val, 0⟩, hintSeen := 0, defaultWireEncoding := j.defaultWireEncoding,
      getDefaultCount := 0, count := 0 } h' = d.fields h := by
    rw [InterestObj.fields_eq, InterestObj.getNonce_clean _ h' ok' cl' rfl]
    dsimp only
    rw [nonce_eq, InterestObj.fields_eq d h]
    have bj : j.base h' = d.base h := b1.trans (n6.trans eb)
    simp only [InterestObj.base, Prod.mk.injEq, Interest.mk.injEq, InterestObj.link] at bj ⊢
    obtain ⟨⟨a1, a2, a3, a4, a5, a6, a7, a8, a9, a10, a11, a12, a13⟩, a14⟩ := bj
    refine ⟨⟨?_, a2, a3, ?_, a5, a6, a7, trivial, a9, a10, a11, a12, a13⟩, a14⟩
    · rw [nn, nv]
    · rw [h4, kv]
  refine ⟨⟨ok', fun w e _ _ => ?_⟩, key⟩
  rw [key]
  obtain ⟨f, ff1, ff2⟩ := i1.enc w e q1 c1
  exact ⟨f, ff1, by rw [f1, n3, ef] at ff2; exact ff2⟩

theorem InterestWorld.run_append (F : InterestFormats) (w : InterestWorld) (a b : List InterestCall) :
    w.run F (a ++ b) = (w.run F a).run F b := by
  induction a generalizing w with
  | nil => rfl
  | cons c a ih => exact ih _

/-- `enc` is what `wireFormat.encodeInterest` returns for the fields `x` and some random source, or it is the
input of a `wireDecode` call in the program `cs` which gave the object the fields `x`. -/
def InterestEncodingOf (F : InterestFormats) (w0 : InterestWorld) (cs : List InterestCall) (fmt : Nat) (enc : Wire)
    (x : IFields) : Prop :=
  (∃ rnd, F.encode fmt x rnd = .ok enc) ∨
  ∃ pre input g post, cs = pre ++ .wireDecode input g :: post ∧
    g.getD (w0.run F pre).defaultFormat = fmt ∧
    ∃ b e, (F.decode fmt (w0.run F pre).heap (w0.run F pre).interest input).2 = .ok (b, e) ∧ enc = (input, b, e) ∧
      (w0.run F (pre ++ [.wireDecode input g])).fields = x

theorem InterestEncodingOf.append {F : InterestFormats} {w0 : InterestWorld} {cs : List InterestCall} {fmt : Nat}
    {enc : Wire} {x : IFields} (h : InterestEncodingOf F w0 cs fmt enc x) (more : List InterestCall) :
    InterestEncodingOf F w0 (cs ++ more) fmt enc x := by
  rcases h with h | ⟨pre, input, g, post, h1, h2, h3⟩
  · exact .inl h
  · exact .inr ⟨pre, input, g, post ++ more, by simp [h1], h2, h3⟩

/-- The program does not change the object that `getLink` returned, and neither do the decoders. -/
structure NoLinkEdits (F : InterestFormats) (cs : List InterestCall) : Prop where
  calls : ∀ e, InterestCall.op (.editLink e) ∉ cs
  decoders : ∀ fmt h i input e, InterestOp.editLink e ∉ (F.decode fmt h i input).1

theorem InterestInv.step (F : InterestFormats) (w0 : InterestWorld) (cs : List InterestCall) (c : InterestCall)
    (hl : NoLinkEdits F (cs ++ [c]))
    (inv : InterestInv (InterestEncodingOf F w0 cs) (w0.run F cs).interest (w0.run F cs).heap) :
    InterestInv (InterestEncodingOf F w0 (cs ++ [c])) (w0.run F (cs ++ [c])).interest (w0.run F (cs ++ [c])).heap := by
  have inv' : InterestInv (InterestEncodingOf F w0 (cs ++ [c])) (w0.run F cs).interest (w0.run F cs).heap :=
    inv.mono (fun f w x h => h.append [c])
  have hrun : w0.run F (cs ++ [c]) = (w0.run F cs).call F c := by rw [InterestWorld.run_append]; rfl
  rw [hrun]
  cases c with
  | op o => exact inv'.le (InterestObj.apply_le inv'.ok o (fun e he => hl.calls e (by simp [he])))
  | wireEncode f rnd => exact (InterestInv.wireEncode F inv' f rnd (fun _ _ _ r h => .inl ⟨r, h⟩)).1
  | wireDecode input g =>
    have le := InterestObj.applyAll_le inv'.ok (F.decode (g.getD (w0.run F cs).defaultFormat) (w0.run F cs).heap (w0.run F cs).interest input).1
      (fun op ho e he => hl.decoders _ _ _ _ e (he ▸ ho))
    have hw : (w0.run F (cs ++ [.wireDecode input g])).fields = ((w0.run F cs).wireDecode F input g).1.fields := by
      rw [hrun]; rfl
    dsimp only [InterestWorld.call]
    unfold InterestWorld.wireDecode at hw ⊢
    dsimp only at hw ⊢
    cases hr : (F.decode (g.getD (w0.run F cs).defaultFormat) (w0.run F cs).heap (w0.run F cs).interest input).2 with
    | error e => exact inv'.le le
    | ok be =>
      obtain ⟨b, e⟩ := be
      rw [hr] at hw
      dsimp only at hw ⊢
      by_cases hd : g.getD (w0.run F cs).defaultFormat = (w0.run F cs).defaultFormat
      · rw [if_pos hd] at hw ⊢
        refine (InterestInv.setDefault le.ok _ _ (fun w' ew => ⟨_, rfl, .inr ⟨cs, input, g, [], rfl, hd, b, e, ?_, ?_, ?_⟩⟩)).1
        · rw [← hd]; exact hr
        · cases ew; rfl
        · rw [hw]
          exact (InterestInv.setDefault (P := fun _ _ _ => True) le.ok _ _ (fun w' ew => ⟨_, rfl, trivial⟩)).2
      · rw [if_neg hd]
        exact (InterestInv.setDefault le.ok _ _ (fun w' ew => by cases ew)).1
  | getDefaultWireEncoding =>
    obtain ⟨d1, e1, i1, _⟩ := inv'.getDefault
    dsimp only [InterestWorld.call]
    rw [e1]
    exact i1
  | setDefaultWireFormat f => exact inv'
  | copy => exact inv'.copy.1

theorem InterestInv.run (F : InterestFormats) (h : Heap) (name : Name) (cbp : Bool) (fmt : Nat) (cs : List InterestCall)
    (hl : NoLinkEdits F cs) :
    InterestInv (InterestEncodingOf F (InterestWorld.start h name cbp fmt) cs)
      ((InterestWorld.start h name cbp fmt).run F cs).interest ((InterestWorld.start h name cbp fmt).run F cs).heap := by
  suffices ∀ n (cs : List InterestCall), n = cs.length → NoLinkEdits F cs →
      InterestInv (InterestEncodingOf F (InterestWorld.start h name cbp fmt) cs)
        ((InterestWorld.start h name cbp fmt).run F cs).interest ((InterestWorld.start h name cbp fmt).run F cs).heap from
    this cs.length cs rfl hl
  intro n
  induction n with
  | zero =>
    intro cs hn _
    have : cs = [] := List.length_eq_zero_iff.mp hn.symm
    subst this
    exact InterestInv.start _ h name cbp fmt
  | succ n ih =>
    intro cs hn hl
    have hne : cs ≠ [] := by intro e; subst e; simp at hn
    have e := List.dropLast_concat_getLast hne
    have hl' : NoLinkEdits F cs.dropLast := ⟨fun e he => hl.calls e ((List.dropLast_sublist cs).mem he), hl.decoders⟩
    rw [← e]
    exact InterestInv.step F _ _ _ (by rw [e]; exact hl) (ih _ (by simp; omega) hl')

/-- C23 (Interest, partial).  After any program that does not change the Link object got from `getLink`, `wireEncode`
returns what the wire format's encoder returns for the current fields (its exception included; with some random
source for the nonce), or the bytes that were decoded, with the same wire format, into exactly the current fields.
Missing: changes of the Link object, which go unnoticed (`C23_link_unnoticed`). -/
theorem C23_interest_partial (F : InterestFormats) (h : Heap) (name : Name) (cbp : Bool) (fmt : Nat)
    (cs : List InterestCall) (hl : NoLinkEdits F cs) (f : Option Nat) (rnd : Nat → UInt8) :
    let w0 := InterestWorld.start h name cbp fmt
    let w := w0.run F cs
    match (w.wireEncode F f rnd).2 with
    | .error e => F.encode (f.getD w.defaultFormat) w.fields rnd = .error e
    | .ok enc => InterestEncodingOf F w0 cs (f.getD w.defaultFormat) enc w.fields :=
  (InterestInv.wireEncode F (InterestInv.run F h name cbp fmt cs hl) f rnd (fun _ _ _ r h => .inl ⟨r, h⟩)).2.2.2

/-- C23 (Interest).  Encoding and the other reading calls change no field, and a copy has the same fields. -/
theorem C23_interest_reads (F : InterestFormats) (h : Heap) (name : Name) (cbp : Bool) (fmt : Nat) (cs : List InterestCall)
    (hl : NoLinkEdits F cs) (c : InterestCall)
    (hc : (∃ f r, c = .wireEncode f r) ∨ c = .getDefaultWireEncoding ∨ (∃ f, c = .setDefaultWireFormat f) ∨ c = .copy ∨
      ∃ r, c = .op (.read r)) :
    ((InterestWorld.start h name cbp fmt).run F (cs ++ [c])).fields = ((InterestWorld.start h name cbp fmt).run F cs).fields := by
  have inv := InterestInv.run F h name cbp fmt cs hl
  rw [InterestWorld.run_append]
  rcases hc with ⟨f, r, rfl⟩ | rfl | ⟨f, rfl⟩ | rfl | ⟨r, rfl⟩
  · exact (InterestInv.wireEncode F inv f r (fun _ _ _ r h => .inl ⟨r, h⟩)).2.1
  · obtain ⟨d1, e1, _, _, _, f1, _⟩ := inv.getDefault
    simp only [InterestWorld.run, InterestWorld.call, e1]
    exact f1
  · rfl
  · exact inv.copy.2
  · exact (InterestObj.read_le _ _ inv.ok r).2

end PyNDN
