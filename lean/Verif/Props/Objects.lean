import Verif.Lemmas.Objects
import Verif.Spec.Objects
import Verif.Props.Data
/-
C23: cached encodings are never stale.  C24: the nonce.  C44: the full name.
-/
namespace PyNDN
open Spec

/-! ### Data -/

/-- The cached encoding, when it will be used, is the encoding of the current fields as `P` says. -/
structure DataInv (P : Nat → Wire → Data → Prop) (d : DataObj) (h : Heap) : Prop where
  ok : d.Ok h
  enc : ∀ w, d.defaultWireEncoding = some w → d.getDefaultCount = d.count → d.Clean h →
    ∃ f, d.defaultFormat = some f ∧ P f w (d.fields h)

theorem DataInv.le {P : Nat → Wire → Data → Prop} {d d' : DataObj} {h h' : Heap} (inv : DataInv P d h)
    (le : d.Le h d' h') : DataInv P d' h' := by
  refine ⟨le.ok, fun w e1 e2 c => ?_⟩
  obtain ⟨c1, c2, c3, c4⟩ := le.cache
  have h1 := le.count
  have h2 := inv.ok.got
  obtain ⟨k1, k2⟩ := le.same (by omega) c
  obtain ⟨f, f1, f2⟩ := inv.enc w (by rw [← c1]; exact e1) (by omega) k1
  exact ⟨f, by rw [c2]; exact f1, by rw [k2]; exact f2⟩

theorem DataInv.mono {P Q : Nat → Wire → Data → Prop} {d : DataObj} {h : Heap} (inv : DataInv P d h)
    (hpq : ∀ f w x, P f w x → Q f w x) : DataInv Q d h :=
  ⟨inv.ok, fun w e1 e2 c => by obtain ⟨f, f1, f2⟩ := inv.enc w e1 e2 c; exact ⟨f, f1, hpq _ _ _ f2⟩⟩

/-- What `getDefaultWireEncoding` leaves and returns. -/
theorem DataInv.getDefault {P : Nat → Wire → Data → Prop} {d : DataObj} {h : Heap} (inv : DataInv P d h) :
    ∃ d', d.getDefaultWireEncoding h = (d', d'.defaultWireEncoding) ∧ DataInv P d' h ∧ d'.Clean h ∧
      d'.getDefaultCount = d'.count ∧ d'.fields h = d.fields h ∧ d'.name = d.name ∧
      d'.defaultFullName = d.defaultFullName ∧ (d'.defaultWireEncoding = none ∨ d'.defaultWireEncoding = d.defaultWireEncoding) := by
  obtain ⟨h1, h2, h3, h4, h5, h6⟩ := d.getChangeCount_spec h inv.ok
  have hn : (d.getChangeCount h).1.name = d.name := by
    unfold DataObj.getChangeCount; dsimp only; split <;> rfl
  have inv1 := inv.le h1
  unfold DataObj.getDefaultWireEncoding
  dsimp only
  by_cases c : (d.getChangeCount h).1.getDefaultCount ≠ (d.getChangeCount h).2
  · rw [if_pos c]
    have o := h1.ok
    have ok' : DataObj.Ok { (d.getChangeCount h).1 with defaultWireEncoding := none, defaultFormat := none } h :=
      ⟨o.ref, o.nameSeen, o.metaSeen, o.sig, o.sigSeen, o.got⟩
    have cl' : DataObj.Clean { (d.getChangeCount h).1 with defaultWireEncoding := none, defaultFormat := none } h :=
      ⟨h2.name, h2.metaInfo, h2.sigSeen, h2.sig⟩
    obtain ⟨g1, g2, g3, g4, g5, g6⟩ := DataObj.getChangeCount_spec _ h ok'
    rw [g6 cl'] at g3
    rw [g6 cl', g3]
    refine ⟨_, rfl, ⟨⟨o.ref, o.nameSeen, o.metaSeen, o.sig, o.sigSeen, Nat.le_refl _⟩, fun w e => by cases e⟩,
      ⟨h2.name, h2.metaInfo, h2.sigSeen, h2.sig⟩, rfl, h4, hn, h1.cache.2.2.2, .inl rfl⟩
  · rw [if_neg c]
    exact ⟨_, rfl, inv1, h2, by omega, h4, hn, h1.cache.2.2.2, .inr h1.cache.1⟩

theorem DataInv.setDefault {P : Nat → Wire → Data → Prop} {d : DataObj} {h : Heap} (ok : d.Ok h) (w : Option Wire)
    (f : Option Nat) (hp : ∀ w', w = some w' → ∃ f', f = some f' ∧ P f' w' (d.fields h)) :
    DataInv P (d.setDefaultWireEncoding h w f) h ∧ (d.setDefaultWireEncoding h w f).fields h = d.fields h ∧
      (d.setDefaultWireEncoding h w f).Clean h ∧ (d.setDefaultWireEncoding h w f).defaultWireEncoding = w ∧
      (d.setDefaultWireEncoding h w f).defaultFormat = f ∧
      (d.setDefaultWireEncoding h w f).defaultFullName = d.defaultFullName := by
  have ok' : DataObj.Ok { d with defaultWireEncoding := w, defaultFormat := f } h :=
    ⟨ok.ref, ok.nameSeen, ok.metaSeen, ok.sig, ok.sigSeen, ok.got⟩
  obtain ⟨h1, h2, h3, h4, h5, h6⟩ := DataObj.getChangeCount_spec _ h ok'
  have o := h1.ok
  unfold DataObj.setDefaultWireEncoding
  dsimp only
  rw [h3]
  refine ⟨⟨⟨o.ref, o.nameSeen, o.metaSeen, o.sig, o.sigSeen, Nat.le_refl _⟩, fun w' e _ _ => ?_⟩, h4,
    ⟨h2.name, h2.metaInfo, h2.sigSeen, h2.sig⟩, h1.cache.1, h1.cache.2.1, h1.cache.2.2.2⟩
  have e' : w = some w' := by rw [← e]; exact h1.cache.1.symm
  obtain ⟨f', f1, f2⟩ := hp w' e'
  refine ⟨f', by rw [← f1]; exact h1.cache.2.1, ?_⟩
  have : DataObj.fields (DataObj.getChangeCount { d with defaultWireEncoding := w, defaultFormat := f } h).1 h = d.fields h := h4
  exact this ▸ f2

/-- What `wireEncode` does when the cache is right. -/
theorem DataInv.wireEncode (F : DataFormats) {P : Nat → Wire → Data → Prop} {w : DataWorld}
    (inv : DataInv P w.data w.heap) (f : Option Nat)
    (hp : ∀ fmt enc x, F.encode fmt x = .ok enc → P fmt enc x) :
    DataInv P (w.wireEncode F f).1.data (w.wireEncode F f).1.heap ∧ (w.wireEncode F f).1.fields = w.fields ∧
      (w.wireEncode F f).1.heap = w.heap ∧ (w.wireEncode F f).1.defaultFormat = w.defaultFormat ∧
      (w.wireEncode F f).1.data.name = w.data.name ∧
      (w.wireEncode F f).1.data.defaultFullName = w.data.defaultFullName ∧
      (match (w.wireEncode F f).2 with
       | .error e => F.encode (f.getD w.defaultFormat) w.fields = .error e
       | .ok enc => P (f.getD w.defaultFormat) enc w.fields) := by
  obtain ⟨d1, e1, i1, c1, g1, f1, n1, u1, _⟩ := inv.getDefault
  unfold DataWorld.wireEncode
  dsimp only
  rw [e1]
  dsimp only
  split
  · next enc he =>
    split at he
    · next hc =>
      obtain ⟨d2, e2, i2, c2, g2, f2, n2, u2, r2⟩ := i1.getDefault
      obtain ⟨fm, m1, m2⟩ := i1.enc enc he g1 c1
      have : d1.getDefaultWireEncoding w.heap = (d1, d1.defaultWireEncoding) := by
        obtain ⟨q1, q2, q3, q4, q5, q6⟩ := d1.getChangeCount_spec w.heap i1.ok
        unfold DataObj.getDefaultWireEncoding
        dsimp only
        rw [q3, q6 c1]
        simp [g1]
      rw [this, he]
      dsimp only
      have hf : fm = f.getD w.defaultFormat := by
        have := hc.2; rw [m1] at this; exact Option.some.inj this
      exact ⟨i1, f1, rfl, rfl, n1, u1, by rw [← hf]; exact (f1 ▸ m2 : P fm enc (w.data.fields w.heap))⟩
    · cases he
  · have fe : d1.fields w.heap = w.fields := f1
    rw [fe]
    cases hr : F.encode (f.getD w.defaultFormat) w.fields with
    | error e => exact ⟨i1, f1, rfl, rfl, n1, u1, rfl⟩
    | ok enc =>
      dsimp only
      by_cases hd : f.getD w.defaultFormat = w.defaultFormat
      · rw [if_pos hd]
        obtain ⟨s1, s2, s3, s4, s5, s6⟩ := DataInv.setDefault (P := P) i1.ok (some enc) (some w.defaultFormat)
          (fun w' e => ⟨_, rfl, by cases e; rw [fe, ← hd]; exact hp _ _ _ hr⟩)
        refine ⟨s1, s2.trans f1, rfl, rfl, ?_, s6.trans u1, hp _ _ _ hr⟩
        have : (d1.setDefaultWireEncoding w.heap (some enc) (some w.defaultFormat)).name = d1.name := by
          unfold DataObj.setDefaultWireEncoding DataObj.getChangeCount; dsimp only; split <;> rfl
        exact this.trans n1
      · rw [if_neg hd]
        exact ⟨i1, f1, rfl, rfl, n1, u1, hp _ _ _ hr⟩

theorem DataInv.start (P : Nat → Wire → Data → Prop) (h : Heap) (name : Name) (fmt : Nat) :
    DataInv P (DataWorld.start h name fmt).data (DataWorld.start h name fmt).heap := by
  obtain ⟨h1, h2, h3, h4, h5⟩ := SigObj.new_ok {} (h.new name).1
  obtain ⟨g1, g2, g3, g4, g5, g6⟩ := (SigObj.new {} (h.new name).1).2.getChangeCount_spec (SigObj.new {} (h.new name).1).1 h2
  refine ⟨⟨?_, Nat.le_refl _, Nat.le_refl _, h2, ?_, Nat.le_refl _⟩, fun w e => by cases e⟩
  · exact Nat.lt_of_lt_of_le (by simp [Heap.new, DataWorld.start, DataObj.new]) h1.length
  · simp only [DataWorld.start, DataObj.new]
    rw [g3, g6 h3]
    exact Nat.le_refl _

theorem DataObj.fields_congr {d : DataObj} {h h' : Heap} (h1 : h'.at d.name = h.at d.name)
    (h2 : h'.at d.sig.kl.keyName = h.at d.sig.kl.keyName) : d.fields h' = d.fields h := by
  unfold DataObj.fields SigObj.val KlObj.val
  rw [h1, h2]

theorem DataInv.copy {P : Nat → Wire → Data → Prop} {d : DataObj} {h : Heap} (inv : DataInv P d h) :
    DataInv P (d.copy h).2.2 (d.copy h).1 ∧ (d.copy h).2.2.fields (d.copy h).1 = d.fields h := by
  have l1 := HeapLe.new h (h.at d.name).val
  have o1 := (DataObj.Le.heapOf inv.ok l1)
  obtain ⟨h1, h2, h3, h4, h5⟩ := SigObj.new_ok (d.sig.val (h.new (h.at d.name).val).1) (h.new (h.at d.name).val).1
  obtain ⟨g1, g2, g3, g4, g5, g6⟩ := (SigObj.new (d.sig.val (h.new (h.at d.name).val).1) (h.new (h.at d.name).val).1).2.getChangeCount_spec _ h2
  have le2 := o1.trans (DataObj.Le.heapOf o1.ok h1)
  obtain ⟨d', e1, i1, c1, gg1, f1, n1, u1, _⟩ := (inv.le le2).getDefault
  -- the value of the new name
  have hn : (h.new (h.at d.name).val).2 < (h.new (h.at d.name).val).1.length := by simp [Heap.new]
  have nv : ((SigObj.new (d.sig.val (h.new (h.at d.name).val).1) (h.new (h.at d.name).val).1).1.at h.length).val = (h.at d.name).val := by
    show (Heap.at ((h ++ [_]) ++ [_]) h.length).val = _
    rw [heap_at_append _ _ _ (by simp), heap_at_new]
  -- the heap only grew, so that the values are as before
  have stable : ∀ r, r < h.length → (SigObj.new (d.sig.val (h.new (h.at d.name).val).1) (h.new (h.at d.name).val).1).1.at r = h.at r := by
    intro r hr
    show Heap.at ((h ++ [_]) ++ [_]) r = _
    rw [heap_at_append _ _ _ (by simp; omega), heap_at_append _ _ _ hr]
  have sv : d.sig.val (h.new (h.at d.name).val).1 = d.sig.val h := by
    unfold SigObj.val KlObj.val
    rw [show (h.new (h.at d.name).val).1 = h ++ [⟨(h.at d.name).val, 0⟩] from rfl, heap_at_append _ _ _ inv.ok.sig.kl.ref]
  have fe : d.fields (SigObj.new (d.sig.val (h.new (h.at d.name).val).1) (h.new (h.at d.name).val).1).1 = d.fields h := by
    exact DataObj.fields_congr (stable _ inv.ok.ref) (stable _ inv.ok.sig.kl.ref)
  have mi : d'.metaInfo.val = d.metaInfo.val ∧ d'.content = d.content := by
    have := f1.trans fe
    simp only [DataObj.fields, Data.mk.injEq] at this
    exact ⟨this.2.1, this.2.2.1⟩
  have key : (d.copy h).2.2.fields (d.copy h).1 = d.fields h := by
    unfold DataObj.copy
    dsimp only
    rw [e1]
    dsimp only [DataObj.fields]
    have : (h.new (h.at d.name).val).2 = h.length := rfl
    rw [h4, mi.1, mi.2, this, nv, sv]
  refine ⟨⟨?_, ?_⟩, key⟩
  · unfold DataObj.copy
    dsimp only
    rw [e1]
    refine ⟨Nat.lt_of_lt_of_le hn h1.length, Nat.le_refl _, Nat.le_refl _, h2, ?_, Nat.le_refl _⟩
    dsimp only
    rw [g3, g6 h3]
    exact Nat.le_refl _
  · intro w e _ _
    rw [key]
    unfold DataObj.copy at e ⊢
    dsimp only at e ⊢
    rw [e1] at e ⊢
    dsimp only at e ⊢
    obtain ⟨f, ff1, ff2⟩ := i1.enc w e gg1 c1
    exact ⟨f, ff1, by rw [f1, fe] at ff2; exact ff2⟩

theorem DataInv.getFullName (F : DataFormats) {P : Nat → Wire → Data → Prop} {w : DataWorld}
    (inv : DataInv P w.data w.heap) (f : Option Nat)
    (hp : ∀ fmt enc x, F.encode fmt x = .ok enc → P fmt enc x) :
    DataInv P (w.getFullName F f).1.data (w.getFullName F f).1.heap ∧ (w.getFullName F f).1.fields = w.fields := by
  obtain ⟨d1, e1, i1, c1, g1, f1, n1, u1, _⟩ := inv.getDefault
  unfold DataWorld.getFullName
  dsimp only
  rw [e1]
  dsimp only
  split
  · exact ⟨i1, f1⟩
  · obtain ⟨w1, w2, w3, _⟩ := DataInv.wireEncode F (w := { w with data := d1 }) i1 (some (f.getD w.defaultFormat)) hp
    split
    · next w' e he => rw [he] at w1 w2; exact ⟨w1, w2.trans f1⟩
    · next w' enc he =>
      rw [he] at w1 w2
      split
      · exact ⟨⟨⟨w1.ok.ref, w1.ok.nameSeen, w1.ok.metaSeen, w1.ok.sig, w1.ok.sigSeen, w1.ok.got⟩,
          fun x e1 e2 c => w1.enc x e1 e2 ⟨c.name, c.metaInfo, c.sigSeen, c.sig⟩⟩, w2.trans f1⟩
      · exact ⟨w1, w2.trans f1⟩

theorem DataWorld.run_append (F : DataFormats) (w : DataWorld) (a b : List DataCall) :
    w.run F (a ++ b) = (w.run F a).run F b := by
  induction a generalizing w with
  | nil => rfl
  | cons c a ih => exact ih _

/-- `enc` is what `wireFormat.encodeData` returns for the fields `x`, or it is the input of a `wireDecode`
call in the program `cs` which gave the object the fields `x`. -/
def EncodingOf (F : DataFormats) (w0 : DataWorld) (cs : List DataCall) (fmt : Nat) (enc : Wire) (x : Data) : Prop :=
  F.encode fmt x = .ok enc ∨
  ∃ pre input g post, cs = pre ++ .wireDecode input g :: post ∧
    g.getD (w0.run F pre).defaultFormat = fmt ∧
    ∃ b e, (F.decode fmt (w0.run F pre).heap (w0.run F pre).data input).2 = .ok (b, e) ∧ enc = (input, b, e) ∧
      (w0.run F (pre ++ [.wireDecode input g])).fields = x

theorem EncodingOf.append {F : DataFormats} {w0 : DataWorld} {cs : List DataCall} {fmt : Nat} {enc : Wire} {x : Data}
    (h : EncodingOf F w0 cs fmt enc x) (more : List DataCall) : EncodingOf F w0 (cs ++ more) fmt enc x := by
  rcases h with h | ⟨pre, input, g, post, h1, h2, h3⟩
  · exact .inl h
  · exact .inr ⟨pre, input, g, post ++ more, by simp [h1], h2, h3⟩

theorem DataInv.step (F : DataFormats) (w0 : DataWorld) (cs : List DataCall) (c : DataCall)
    (inv : DataInv (EncodingOf F w0 cs) (w0.run F cs).data (w0.run F cs).heap) :
    DataInv (EncodingOf F w0 (cs ++ [c])) (w0.run F (cs ++ [c])).data (w0.run F (cs ++ [c])).heap := by
  have inv' : DataInv (EncodingOf F w0 (cs ++ [c])) (w0.run F cs).data (w0.run F cs).heap :=
    inv.mono (fun f w x h => h.append [c])
  have hrun : w0.run F (cs ++ [c]) = (w0.run F cs).call F c := by rw [DataWorld.run_append]; rfl
  rw [hrun]
  cases c with
  | op o => exact inv'.le (DataObj.apply_le inv'.ok o)
  | wireEncode f => exact (DataInv.wireEncode F inv' f (fun _ _ _ h => .inl h)).1
  | wireDecode input g =>
    have le := DataObj.applyAll_le inv'.ok (F.decode (g.getD (w0.run F cs).defaultFormat) (w0.run F cs).heap (w0.run F cs).data input).1
    have hw : (w0.run F (cs ++ [.wireDecode input g])).fields = ((w0.run F cs).wireDecode F input g).1.fields := by
      rw [hrun]; rfl
    dsimp only [DataWorld.call]
    unfold DataWorld.wireDecode at hw ⊢
    dsimp only at hw ⊢
    cases hr : (F.decode (g.getD (w0.run F cs).defaultFormat) (w0.run F cs).heap (w0.run F cs).data input).2 with
    | error e => exact inv'.le le
    | ok be =>
      obtain ⟨b, e⟩ := be
      rw [hr] at hw
      dsimp only at hw ⊢
      by_cases hd : g.getD (w0.run F cs).defaultFormat = (w0.run F cs).defaultFormat
      · rw [if_pos hd] at hw ⊢
        refine (DataInv.setDefault le.ok _ _ (fun w' ew => ⟨_, rfl, .inr ⟨cs, input, g, [], rfl, hd, b, e, ?_, ?_, ?_⟩⟩)).1
        · rw [← hd]; exact hr
        · cases ew; rfl
        · rw [hw]
          exact (DataInv.setDefault (P := fun _ _ _ => True) le.ok _ _ (fun w' ew => ⟨_, rfl, trivial⟩)).2.1
      · rw [if_neg hd]
        exact (DataInv.setDefault le.ok _ _ (fun w' ew => by cases ew)).1
  | getDefaultWireEncoding =>
    obtain ⟨d1, e1, i1, _⟩ := inv'.getDefault
    dsimp only [DataWorld.call]
    rw [e1]
    exact i1
  | getFullName f => exact (DataInv.getFullName F inv' f (fun _ _ _ h => .inl h)).1
  | setDefaultWireFormat f => exact inv'
  | copy => exact inv'.copy.1

theorem DataInv.run (F : DataFormats) (h : Heap) (name : Name) (fmt : Nat) (cs : List DataCall) :
    DataInv (EncodingOf F (DataWorld.start h name fmt) cs) ((DataWorld.start h name fmt).run F cs).data
      ((DataWorld.start h name fmt).run F cs).heap := by
  suffices ∀ n, n = cs.length → _ from this cs.length rfl
  intro n
  induction n generalizing cs with
  | zero =>
    intro hn
    have : cs = [] := List.length_eq_zero_iff.mp hn.symm
    subst this
    exact DataInv.start _ h name fmt
  | succ n ih =>
    intro hn
    have hne : cs ≠ [] := by intro e; subst e; simp at hn
    have e := List.dropLast_concat_getLast hne
    rw [← e]
    exact DataInv.step F _ _ _ (ih _ (by simp; omega))

/-- C23 (Data).  After any program, `wireEncode` returns what the wire format's encoder returns for the
current fields (its exception included), or the bytes that were decoded, with the same wire format, into
exactly the current fields. -/
theorem C23_data (F : DataFormats) (h : Heap) (name : Name) (fmt : Nat) (cs : List DataCall) (f : Option Nat) :
    let w0 := DataWorld.start h name fmt
    let w := w0.run F cs
    match (w.wireEncode F f).2 with
    | .error e => F.encode (f.getD w.defaultFormat) w.fields = .error e
    | .ok enc => EncodingOf F w0 cs (f.getD w.defaultFormat) enc w.fields :=
  (DataInv.wireEncode F (DataInv.run F h name fmt cs) f (fun _ _ _ h => .inl h)).2.2.2.2.2.2

/-- C23 (Data).  Encoding, and asking for the default encoding or the full name, change no field; a copy has
the same fields. -/
theorem C23_data_reads (F : DataFormats) (h : Heap) (name : Name) (fmt : Nat) (cs : List DataCall) (c : DataCall)
    (hc : (∃ f, c = .wireEncode f) ∨ c = .getDefaultWireEncoding ∨ (∃ f, c = .getFullName f) ∨
      (∃ f, c = .setDefaultWireFormat f) ∨ c = .copy) :
    ((DataWorld.start h name fmt).run F (cs ++ [c])).fields = ((DataWorld.start h name fmt).run F cs).fields := by
  have inv := DataInv.run F h name fmt cs
  rw [DataWorld.run_append]
  rcases hc with ⟨f, rfl⟩ | rfl | ⟨f, rfl⟩ | ⟨f, rfl⟩ | rfl
  · exact (DataInv.wireEncode F inv f (fun _ _ _ h => .inl h)).2.1
  · obtain ⟨d1, e1, _, _, _, f1, _⟩ := inv.getDefault
    simp only [DataWorld.run, DataWorld.call, e1]
    exact f1
  · exact (DataInv.getFullName F inv f (fun _ _ _ h => .inl h)).2
  · rfl
  · exact inv.copy.2

theorem tlvMetaOps_val (o : Obj MetaInfo) (m : MetaInfo) (hm : m = {} ∨ m.type = 0x7fff → m = {} ∨ 0 ≤ m.otherTypeCode)
    (ho : m = {} ∨ m.type = 0x7fff ∨ m.otherTypeCode = o.val.otherTypeCode) :
    ((tlvMetaOps m).foldl Obj.metaOp o).val = m := by
  unfold tlvMetaOps
  by_cases e : m = {}
  · rw [if_pos e]; simp [Obj.metaOp, Obj.change, e]
  · rw [if_neg e]
    obtain ⟨t, c, f, b⟩ := m
    have hf : ∀ g : Option Nat → MetaInfo, g (match Option.map Int.ofNat f with
        | none => none | some p => if p < 0 then none else some p.toNat) = g f := by
      intro g
      cases f with
      | none => rfl
      | some n =>
        show g (if (n : Int) < 0 then none else some (n : Int).toNat) = _
        rw [if_neg (by omega)]
        rfl
    have htt : ∀ t : Nat, (if (t : Int) < 0 then 0 else (t : Int).toNat) = t := by
      intro t; rw [if_neg (by omega)]; rfl
    by_cases ht : t = 0x7fff
    · have hc : ¬ c < 0 := by
        rcases hm (.inr ht) with h | h
        · exact absurd h e
        · simp only at h; omega
      subst ht
      simp only [if_true, List.cons_append, List.nil_append, List.foldl, Obj.metaOp, Obj.change, hc, if_false, htt]
      exact hf fun f => ⟨0x7fff, c, f, b⟩
    · have hc : c = o.val.otherTypeCode := by
        rcases ho with h | h | h
        · exact absurd h e
        · exact absurd h ht
        · exact h
      subst hc
      simp only [ht, if_false, List.cons_append, List.nil_append, List.append_nil, List.foldl, Obj.metaOp, Obj.change, htt]
      exact hf fun f => ⟨t, o.val.otherTypeCode, f, b⟩

theorem DataObj.applyAll_append (d : DataObj) (h : Heap) (a b : List DataOp) :
    d.applyAll h (a ++ b) = (d.applyAll h a).2.applyAll (d.applyAll h a).1 b := by
  induction a generalizing d h with
  | nil => rfl
  | cons op a ih => exact ih _ _

theorem DataObj.applyAll_meta (d : DataObj) (h : Heap) (ops : List MetaOp) :
    d.applyAll h (ops.map .metaInfo) = (h, { d with metaInfo := ops.foldl Obj.metaOp d.metaInfo }) := by
  induction ops generalizing d with
  | nil => rfl
  | cons op ops ih => exact ih _

/-- The calls of the TLV decoder give the object the decoded fields. -/
theorem tlvDataOps_fields (o : DataObj) (h : Heap) (ok : o.Ok h) (d : Data)
    (hm : d.metaInfo = {} ∨ d.metaInfo.type = 0x7fff → d.metaInfo = {} ∨ 0 ≤ d.metaInfo.otherTypeCode)
    (ho : d.metaInfo = {} ∨ d.metaInfo.type = 0x7fff ∨ d.metaInfo.otherTypeCode = o.metaInfo.val.otherTypeCode) :
    (o.applyAll h (tlvDataOps o.name d)).2.fields (o.applyAll h (tlvDataOps o.name d)).1 = d := by
  unfold tlvDataOps
  rw [DataObj.applyAll_append, DataObj.applyAll_append, DataObj.applyAll_meta]
  have hl : (h.mutate o.name (fun _ => [])).length = h.length := by simp [Heap.mutate]
  have hn : (((h.mutate o.name (fun _ => [])).mutate o.name (· ++ d.name)).at o.name).val = d.name := by
    rw [heap_at_mutate _ _ _ _ (by rw [hl]; exact ok.ref), if_pos rfl, heap_at_mutate _ _ _ _ ok.ref, if_pos rfl]
    simp [Obj.change]
  have hl2 : ((h.mutate o.name (fun _ => [])).mutate o.name (· ++ d.name)).length = h.length := by simp [Heap.mutate]
  simp only [DataObj.applyAll, DataObj.apply, SigObj.apply]
  generalize ((h.mutate o.name (fun _ => [])).mutate o.name (· ++ d.name)) = h2 at *
  obtain ⟨s1, s2, s3, s4, s5⟩ := SigObj.new_ok { d.signature with signature := none } h2
  have hs : (h2.at o.name).val = d.name := hn
  have hat : ((SigObj.new { d.signature with signature := none } h2).1.at o.name).val = d.name := by
    show (Heap.at (h2 ++ [_]) o.name).val = _
    rw [heap_at_append _ _ _ (by rw [hl2]; exact ok.ref), hs]
  have hv := tlvMetaOps_val o.metaInfo d.metaInfo hm ho
  unfold DataObj.fields
  dsimp only
  rw [hat, hv]
  have : ({ (SigObj.new { d.signature with signature := none } h2).2 with
      bits := d.signature.signature, count := (SigObj.new { d.signature with signature := none } h2).2.count + 1 } : SigObj).val
        (SigObj.new { d.signature with signature := none } h2).1 = d.signature := by
    simp only [SigObj.val] at s4 ⊢
    have s4' := congrArg Signature.info s4
    simp only at s4'
    rw [s4']
  rw [this]

/-- A postcondition of a decoding action. -/
theorem Dec.Rel.post {Q : α → Prop} {m : Dec α} (h : Dec.Rel (fun a _ => Q a) m m) {inp : Bytes} {o o' : Nat} {a : α}
    (hr : m.run inp o = .ok (a, o')) : Q a := by
  have := h inp o
  rw [hr] at this
  exact this.1

theorem decodeMetaInfo_other (old : MetaInfo) : Dec.Rel (fun (m _ : MetaInfo) =>
    m.type = 0x7fff ∧ 0 ≤ m.otherTypeCode ∨ m.otherTypeCode = old.otherTypeCode ∧ m.type ≠ 0x7fff)
    (decodeMetaInfo old) (decodeMetaInfo old) := by
  unfold decodeMetaInfo
  refine Dec.Rel.step fun e => Dec.Rel.step fun t => Dec.Rel.step fun f => Dec.Rel.step fun c =>
    Dec.Rel.step fun _ => Dec.Rel.pure ?_
  unfold metaInfoOfType
  cases t with
  | none => simp
  | some c =>
    dsimp only
    by_cases h1 : c = 0
    · simp [h1]
    · rw [if_neg h1]
      by_cases h2 : c = 1 ∨ c = 2 ∨ c = 3
      · rw [if_pos h2]; right; exact ⟨rfl, by dsimp only; omega⟩
      · rw [if_neg h2]; left; exact ⟨rfl, by dsimp only; omega⟩

theorem decodeData_meta {old d : Data} {input : Bytes} {b e : Nat} (h : decodeData old input = .ok (d, b, e)) :
    d.metaInfo = {} ∨ (d.metaInfo.type = 0x7fff ∧ 0 ≤ d.metaInfo.otherTypeCode ∨
      d.metaInfo.otherTypeCode = old.metaInfo.otherTypeCode ∧ d.metaInfo.type ≠ 0x7fff) := by
  unfold decodeData runDec at h
  split at h
  · next a o hr =>
    cases h
    have key : Dec.Rel (fun (x _ : Data × Nat × Nat) => x.1.metaInfo = {} ∨
        (x.1.metaInfo.type = 0x7fff ∧ 0 ≤ x.1.metaInfo.otherTypeCode ∨
          x.1.metaInfo.otherTypeCode = old.metaInfo.otherTypeCode ∧ x.1.metaInfo.type ≠ 0x7fff))
        (decodeDataFrom old) (decodeDataFrom old) := by
      unfold decodeDataFrom
      refine Dec.Rel.step fun e => Dec.Rel.step fun b => Dec.Rel.step fun n => ?_
      obtain ⟨n, n1, n2⟩ := n
      dsimp only
      refine Dec.Rel.bind (R := fun (m m' : MetaInfo) => m = {} ∨ (m.type = 0x7fff ∧ 0 ≤ m.otherTypeCode ∨
          m.otherTypeCode = old.metaInfo.otherTypeCode ∧ m.type ≠ 0x7fff)) ?_ fun m m' hm => Dec.Rel.bind (Dec.Rel.refl _) fun c c' _ =>
        Dec.Rel.bind (Dec.Rel.refl _) fun si si' _ => Dec.Rel.bind (Dec.Rel.refl _) fun e' e'' _ => Dec.Rel.bind (Dec.Rel.refl _) fun sv sv' _ =>
        Dec.Rel.bind (Dec.Rel.refl _) fun u u' _ => Dec.Rel.pure hm
      unfold optionally
      refine Dec.Rel.step fun p => ?_
      split
      · intro inp off
        have := decodeMetaInfo_other old.metaInfo inp off
        revert this
        cases (decodeMetaInfo old.metaInfo).run inp off with
        | error e => intro h; exact h
        | ok r => intro h; exact ⟨.inr h.1, h.2⟩
      · exact Dec.Rel.pure (.inl rfl)
    exact key.post hr
  · cases h

/-- C23 (Data, TLV).  With the TLV wire format, after any program, decoding what `wireEncode` returns gives the
current fields again (if they can be encoded: `DataOk`), with the same signed portion. -/
theorem C23_data_tlv (digest : Bytes → Bytes) (h : Heap) (name : Name) (fmt : Nat) (cs : List DataCall) (f : Option Nat)
    (old : Data) (enc : Wire) :
    let w := (DataWorld.start h name fmt).run (tlvDataFormats digest) cs
    (w.wireEncode (tlvDataFormats digest) f).2 = .ok enc → DataOk w.fields → enc.1.length < 2 ^ 64 →
    ∃ d, decodeData old enc.1 = .ok (d, enc.2) ∧ SameData w.fields d := by
  intro w hw hok hlen
  have key := C23_data (tlvDataFormats digest) h name fmt cs f
  dsimp only at key
  rw [show ((DataWorld.start h name fmt).run (tlvDataFormats digest) cs) = w from rfl, hw] at key
  rcases key with key | ⟨pre, input, g, post, h1, h2, b, e, h3, h4, h5⟩
  · obtain ⟨d, e1, e2⟩ := C22_roundtrip w.fields old hok enc.1 enc.2.1 enc.2.2 key hlen []
    exact ⟨d, by simpa using e1, e2⟩
  · subst h4
    dsimp only
    have inv := DataInv.run (tlvDataFormats digest) h name fmt pre
    generalize hw1 : (DataWorld.start h name fmt).run (tlvDataFormats digest) pre = w1 at *
    simp only [tlvDataFormats] at h3
    cases hd : decodeData (w1.data.fields w1.heap) input with
    | error er => rw [hd] at h3; cases h3
    | ok r =>
      obtain ⟨d, b', e'⟩ := r
      rw [hd] at h3
      cases h3
      have hm := decodeData_meta hd
      have hf := tlvDataOps_fields w1.data w1.heap inv.ok d
        (by rcases hm with hm | hm | hm
            · exact fun _ => .inl hm
            · exact fun _ => .inr hm.2
            · exact fun hh => by rcases hh with hh | hh
                                 · exact .inl hh
                                 · exact absurd hh hm.2)
        (by rcases hm with hm | hm | hm
            · exact .inl hm
            · exact .inr (.inl hm.1)
            · exact .inr (.inr hm.1))
      have hfields : d = w.fields := by
        rw [← h5, DataWorld.run_append, hw1, ← hf]
        simp only [DataWorld.run, DataWorld.call, DataWorld.wireDecode, tlvDataFormats, hd]
        have ok2 := (DataObj.applyAll_le inv.ok (tlvDataOps w1.data.name d)).ok
        split
        · exact (DataInv.setDefault (P := fun _ _ _ => True) ok2 _ _ (fun w' ew => ⟨_, rfl, trivial⟩)).2.1.symm
        · exact (DataInv.setDefault (P := fun _ _ _ => True) ok2 _ _ (fun w' ew => by cases ew)).2.1.symm
      rcases C22_old_object_irrelevant (w1.data.fields w1.heap) old input with ⟨er, k1, _⟩ | ⟨d1, d2, b2, e2, k1, k2, k3⟩
      · rw [hd] at k1; cases k1
      · rw [hd] at k1
        cases k1
        exact ⟨d2, k2, hfields ▸ k3⟩


/-! ### The full name -/

theorem DataWorld.fullName_empty (F : DataFormats) (h : Heap) (name : Name) (fmt : Nat) (cs : List DataCall)
    (hcs : ∀ f, DataCall.getFullName f ∉ cs) : ((DataWorld.start h name fmt).run F cs).data.defaultFullName = [] := by
  suffices ∀ n (cs : List DataCall), n = cs.length → (∀ f, DataCall.getFullName f ∉ cs) →
      ((DataWorld.start h name fmt).run F cs).data.defaultFullName = [] from this cs.length cs rfl hcs
  intro n
  induction n with
  | zero =>
    intro cs hn _
    have : cs = [] := List.length_eq_zero_iff.mp hn.symm
    subst this
    rfl
  | succ n ih =>
    intro cs hn hcs
    have hne : cs ≠ [] := by intro e; subst e; simp at hn
    have e := List.dropLast_concat_getLast hne
    have hpre := ih cs.dropLast (by simp; omega) (fun f hf => hcs f ((List.dropLast_sublist cs).mem hf))
    have hlast : ∀ f, cs.getLast hne ≠ .getFullName f := fun f hf => hcs f (hf ▸ List.getLast_mem hne)
    rw [← e, DataWorld.run_append]
    have inv := DataInv.run F h name fmt cs.dropLast
    generalize (DataWorld.start h name fmt).run F cs.dropLast = w at *
    show (w.call F (cs.getLast hne)).data.defaultFullName = []
    generalize cs.getLast hne = c at *
    cases c with
    | op o => exact (DataObj.apply_le inv.ok o).cache.2.2.2.trans hpre
    | wireEncode f => exact (DataInv.wireEncode F inv f (fun _ _ _ h => .inl h)).2.2.2.2.2.1.trans hpre
    | wireDecode input g =>
      have le := DataObj.applyAll_le inv.ok (F.decode (g.getD w.defaultFormat) w.heap w.data input).1
      simp only [DataWorld.call, DataWorld.wireDecode]
      split
      · exact le.cache.2.2.2.trans hpre
      · split
        · exact (DataInv.setDefault (P := fun _ _ _ => True) le.ok _ _ (fun w' ew => ⟨_, rfl, trivial⟩)).2.2.2.2.2.trans
            (le.cache.2.2.2.trans hpre)
        · exact (DataInv.setDefault (P := fun _ _ _ => True) le.ok _ _ (fun w' ew => by cases ew)).2.2.2.2.2.trans
            (le.cache.2.2.2.trans hpre)
    | getDefaultWireEncoding =>
      obtain ⟨d1, e1, _, _, _, _, _, u1, _⟩ := inv.getDefault
      simp only [DataWorld.call, e1]
      exact u1.trans hpre
    | getFullName f => exact absurd rfl (hlast f)
    | setDefaultWireFormat f => exact hpre
    | copy =>
      simp only [DataWorld.call, DataObj.copy]
      have le1 := DataObj.Le.heapOf inv.ok (HeapLe.new w.heap (w.heap.at w.data.name).val)
      have le2 := le1.trans (DataObj.Le.heapOf le1.ok (SigObj.new_ok (w.data.sig.val (w.heap.new (w.heap.at w.data.name).val).1)
        (w.heap.new (w.heap.at w.data.name).val).1).1)
      obtain ⟨d1, e1, _, _, _, _, _, u1, _⟩ := (inv.le le2).getDefault
      rw [e1]
      exact u1.trans hpre

/-- C44 (partial).  The first time it is asked, in any program, the full name is the current name with the digest of
the encoding that `wireEncode` returns.  Missing: later calls, which can return a stale full name
(`C44_stale_after_change`, `C44_stale_other_format`). -/
theorem C44_first_call_partial (F : DataFormats) (h : Heap) (name : Name) (fmt : Nat) (cs : List DataCall)
    (hcs : ∀ f, DataCall.getFullName f ∉ cs) (f : Option Nat) :
    let w := (DataWorld.start h name fmt).run F cs
    match (w.getFullName F f).2 with
    | .error e => F.encode (f.getD w.defaultFormat) w.fields = .error e
    | .ok n => ∃ enc, EncodingOf F (DataWorld.start h name fmt) cs (f.getD w.defaultFormat) enc w.fields ∧
        n = w.fields.name ++ [⟨.implicit, F.digest enc.1⟩] := by
  intro w
  have hfn : w.data.defaultFullName = [] := DataWorld.fullName_empty F h name fmt cs hcs
  have inv := DataInv.run F h name fmt cs
  rw [show (DataWorld.start h name fmt).run F cs = w from rfl] at inv
  obtain ⟨d1, e1, i1, c1, g1, f1, n1, u1, _⟩ := inv.getDefault
  unfold DataWorld.getFullName
  dsimp only
  rw [e1]
  dsimp only
  rw [if_neg (by rw [u1, hfn]; simp)]
  obtain ⟨w1, w2, w3, w4, w5, w6, w7⟩ := DataInv.wireEncode F (w := { w with data := d1 }) i1 (some (f.getD w.defaultFormat)) (fun _ _ _ h => .inl h)
  have fe : DataWorld.fields { w with data := d1 } = w.fields := f1
  rw [fe] at w7
  split
  · next er he =>
    split at he
    · next w' e' hh => rw [hh] at w7; cases he; exact w7
    · next w' enc hh => split at he <;> cases he
  · next n he =>
    split at he
    · next w' e' hh => cases he
    · next w' enc hh =>
      rw [hh] at w7
      refine ⟨enc, w7, ?_⟩
      have hnm : (w.heap.at d1.name).val = w.fields.name := by rw [n1]; rfl
      split at he <;> (cases he; rw [hnm])

/-- A simple wire format for the witnesses: the encoding is the content, and format 1 puts a byte in front. -/
def witnessFormats : DataFormats where
  encode := fun f d => .ok ((if f = 1 then [1] else []) ++ d.content.getD [], 0, 0)
  decode := fun _ _ _ input => ([.setContent (some input)], .ok (0, 0))
  digest := id

/-- C44 is false in general: after a change and a new `wireEncode`, `getFullName` returns the old full name
(data.py:231-249: `_defaultFullName` is never cleared). -/
theorem C44_stale_after_change :
    let w := (DataWorld.start [] [] 0).run witnessFormats
      [.getFullName none, .op (.setContent (some [7])), .wireEncode none]
    (w.wireEncode witnessFormats none).2 = .ok ([7], 0, 0) ∧
    (w.getFullName witnessFormats none).2 = .ok [⟨.implicit, []⟩] ∧
    w.fields.name ++ [⟨.implicit, witnessFormats.digest [7]⟩] ≠ [⟨.implicit, []⟩] := by
  decide

/-- The same for a Data object that is decoded into again. -/
theorem C44_stale_after_decode :
    let w := (DataWorld.start [] [] 0).run witnessFormats
      [.wireDecode [5] none, .getFullName none, .wireDecode [7] none]
    (w.wireEncode witnessFormats none).2 = .ok ([7], 0, 0) ∧
    (w.getFullName witnessFormats none).2 = .ok [⟨.implicit, [5]⟩] := by
  decide

/-- And when the default wire format changes. -/
theorem C44_stale_other_format :
    let w := (DataWorld.start [] [] 0).run witnessFormats
      [.getFullName none, .setDefaultWireFormat 1, .wireEncode none]
    (w.wireEncode witnessFormats none).2 = .ok ([1], 0, 0) ∧
    (w.getFullName witnessFormats none).2 = .ok [⟨.implicit, []⟩] := by
  decide

/-- C23 has content: here the encoding is cached, the name is changed through the reference that was set, and
`wireEncode` notices; the digest of the second full name differs from the first. -/
example :
    let F := tlvDataFormats id
    let w := (DataWorld.start [⟨[Component.generic [65]], 0⟩] [] 0).run F
      [.op (.setSignature ⟨.digest, some []⟩), .op (.setName 0), .wireEncode none]
    let w' := w.run F [.op (.nameAppend 0 [Component.generic [66]])]
    (w.wireEncode F none).2 = .ok ([6, 16, 7, 3, 8, 1, 65, 20, 0, 21, 0, 22, 3, 27, 1, 0, 23, 0], 2, 16) ∧
    w.data.defaultWireEncoding.isSome ∧
    (w'.wireEncode F none).2 = .ok ([6, 19, 7, 6, 8, 1, 65, 8, 1, 66, 20, 0, 21, 0, 22, 3, 27, 1, 0, 23, 0], 2, 19) := by
  decide +kernel

end PyNDN
