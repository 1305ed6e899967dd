import Verif.Props.InterestObj
/-
C24: a nonce survives only while the Interest is unchanged.
-/
namespace PyNDN
open Spec

theorem InterestObj.getNonce_congr {i i' : InterestObj} {h h' : Heap} (ok : i.Ok h) (ok' : i'.Ok h')
    (cl : i'.Clean h' ↔ i.Clean h) (n : i'.nonce = i.nonce) (nc : i'.nonceCount = i.nonceCount) (c : i'.count = i.count) :
    (i'.getNonce h').2 = (i.getNonce h).2 := by
  rcases i.getNonce_eq h ok with ⟨a, b⟩ | ⟨a, b⟩ <;> rcases i'.getNonce_eq h' ok' with ⟨a', b'⟩ | ⟨a', b'⟩
  · rw [b, b', n]
  · exact absurd ⟨cl.2 a.1, by rw [nc, c]; exact a.2⟩ a'
  · exact absurd ⟨cl.1 a'.1, by rw [← nc, ← c]; exact a'.2⟩ a
  · rw [b, b']

theorem InterestObj.getNonce_lost {i' : InterestObj} {h' : Heap} (ok' : i'.Ok h')
    (c : ¬ (i'.Clean h' ∧ i'.nonceCount = i'.count)) : (i'.getNonce h').2 = none := by
  rcases i'.getNonce_eq h' ok' with ⟨a', _⟩ | ⟨_, b'⟩
  · exact absurd a' c
  · exact b'

theorem InterestObj.apply_ok {i : InterestObj} {h : Heap} (ok : i.Ok h) (op : InterestOp) :
    (i.apply h op).2.Ok (i.apply h op).1 := by
  by_cases hop : ∃ e, op = .editLink e
  · obtain ⟨e, rfl⟩ := hop
    exact ⟨ok.ref, ok.nameSeen, ok.kl, ok.klSeen, ok.excludeSeen, ok.hintSeen, ok.got, ok.nonceGot⟩
  · exact (InterestObj.apply_le ok op (fun e he => hop ⟨e, he⟩)).ok

/-- A Name object that the Interest does not use. -/
theorem InterestObj.clean_mutate {i : InterestObj} {h : Heap} (ok : i.Ok h) (r : Nat) (f : Name → Name)
    (h1 : r ≠ i.name) (h2 : r ≠ i.kl.keyName) : i.Clean (h.mutate r f) ↔ i.Clean h := by
  have e1 : ((h.mutate r f).at i.name) = h.at i.name := by
    rw [heap_at_mutate _ _ _ _ ok.ref, if_neg (fun e => h1 e.symm)]
  have e2 : ((h.mutate r f).at i.kl.keyName) = h.at i.kl.keyName := by
    rw [heap_at_mutate _ _ _ _ ok.kl.ref, if_neg (fun e => h2 e.symm)]
  constructor
  · intro c
    have c1 := c.name
    have c2 := c.kl
    unfold KlObj.Clean at c2
    rw [e1] at c1
    rw [e2] at c2
    exact ⟨c1, c.klSeen, c2, c.exclude, c.hint⟩
  · intro c
    have c1 := c.name
    have c2 := c.kl
    unfold KlObj.Clean at c2
    rw [← e1] at c1
    rw [← e2] at c2
    exact ⟨c1, c.klSeen, c2, c.exclude, c.hint⟩

theorem InterestObj.clean_new {i : InterestObj} {h : Heap} (ok : i.Ok h) (v : Name) :
    i.Clean (h.new v).1 ↔ i.Clean h := by
  have e1 : ((h.new v).1.at i.name) = h.at i.name := heap_at_append _ _ _ ok.ref
  have e2 : ((h.new v).1.at i.kl.keyName) = h.at i.kl.keyName := heap_at_append _ _ _ ok.kl.ref
  constructor
  · intro c
    have c1 := c.name
    have c2 := c.kl
    unfold KlObj.Clean at c2
    rw [e1] at c1
    rw [e2] at c2
    exact ⟨c1, c.klSeen, c2, c.exclude, c.hint⟩
  · intro c
    have c1 := c.name
    have c2 := c.kl
    unfold KlObj.Clean at c2
    rw [← e1] at c1
    rw [← e2] at c2
    exact ⟨c1, c.klSeen, c2, c.exclude, c.hint⟩

theorem InterestObj.dirty_mutate {i : InterestObj} {h : Heap} (ok : i.Ok h) (r : Nat) (f : Name → Name)
    (hr : r = i.name ∨ r = i.kl.keyName) : ¬ i.Clean (h.mutate r f) := by
  intro c
  rcases hr with rfl | rfl
  · have c1 := c.name
    rw [heap_at_mutate _ _ _ _ ok.ref, if_pos rfl] at c1
    have := ok.nameSeen
    simp only [Obj.change] at c1
    omega
  · have c1 := c.kl
    unfold KlObj.Clean at c1
    rw [heap_at_mutate _ _ _ _ ok.kl.ref, if_pos rfl] at c1
    have := ok.kl.seen
    simp only [Obj.change] at c1
    omega

theorem delegation_remove_iff (n : Name) (l : DelegationSet) :
    (DelegationSet.remove n l).2 = true ↔ ∃ d ∈ l, d.name = n := by
  induction l with
  | nil => simp [DelegationSet.remove]
  | cons d ds ih =>
    unfold DelegationSet.remove
    dsimp only
    by_cases e : d.name = n
    · rw [if_pos ((name_equals_iff _ _).2 e)]
      simp [e]
    · rw [if_neg (fun x => e ((name_equals_iff _ _).1 x))]
      simp [ih, e]

theorem blobSize_zero (b : Option Bytes) : blobSize b = 0 ↔ b = none ∨ b = some [] := by
  cases b <;> simp [blobSize]

/-- What a call on the object does to the nonce. -/
theorem InterestObj.nonce_apply {i : InterestObj} {h : Heap} (ok : i.Ok h) (op : InterestOp) :
    ((i.apply h op).2.getNonce (i.apply h op).1).2 = nonceAfterOp h i (i.getNonce h).2 op := by
  have ok' := InterestObj.apply_ok ok op
  have ng := ok.nonceGot
  have bump : ∀ (i' : InterestObj) (h' : Heap), i'.Ok h' → i'.nonceCount = i.nonceCount → i.count < i'.count →
      (i'.getNonce h').2 = none := by
    intro i' h' o n c
    exact InterestObj.getNonce_lost o (fun x => by have := x.2; omega)
  cases op with
  | newName v =>
    rw [nonceAfterOp, if_neg (by simp [Changes])]
    · exact InterestObj.getNonce_congr ok ok' (InterestObj.clean_new ok v) rfl rfl rfl
    all_goals simp
  | nameAppend r v =>
    rw [nonceAfterOp]
    · split
      · next hc => exact InterestObj.getNonce_lost ok' (fun x => InterestObj.dirty_mutate ok r (· ++ v) hc x.1)
      · next hc =>
        simp only [Changes, not_or] at hc
        exact InterestObj.getNonce_congr ok ok' (InterestObj.clean_mutate ok r (· ++ v) hc.1 hc.2) rfl rfl rfl
    all_goals simp
  | nameClear r =>
    rw [nonceAfterOp]
    · split
      · next hc => exact InterestObj.getNonce_lost ok' (fun x => InterestObj.dirty_mutate ok r (fun _ => []) hc x.1)
      · next hc =>
        simp only [Changes, not_or] at hc
        exact InterestObj.getNonce_congr ok ok' (InterestObj.clean_mutate ok r (fun _ => []) hc.1 hc.2) rfl rfl rfl
    all_goals simp
  | setName r =>
    rw [nonceAfterOp]
    · by_cases hc : r < h.length
      · rw [if_pos (show Changes h i (.setName r) from hc)]
        refine bump _ _ ok' ?_ ?_ <;> dsimp only [InterestObj.apply] <;> rw [if_pos hc]
        exact Nat.lt_succ_self _
      · rw [if_neg (show ¬ Changes h i (.setName r) from hc)]
        dsimp only [InterestObj.apply]; rw [if_neg hc]
    all_goals simp
  | klName r =>
    rw [nonceAfterOp]
    · by_cases hc : r < h.length
      · rw [if_pos (show Changes h i (.klName r) from hc)]
        refine InterestObj.getNonce_lost ok' (fun x => ?_)
        have c1 := x.1.klSeen
        dsimp only [InterestObj.apply] at c1
        rw [if_pos hc] at c1
        have := ok.klSeen
        simp only [KlObj.setKeyName] at c1
        omega
      · rw [if_neg (show ¬ Changes h i (.klName r) from hc)]
        dsimp only [InterestObj.apply]; rw [if_neg hc]
    all_goals simp
  | klType t =>
    rw [nonceAfterOp, if_pos (by simp [Changes])]
    · refine InterestObj.getNonce_lost ok' (fun x => ?_)
      have c1 := x.1.klSeen
      have := ok.klSeen
      simp only [InterestObj.apply, KlObj.setType] at c1
      omega
    all_goals simp
  | klData t =>
    rw [nonceAfterOp, if_pos (by simp [Changes])]
    · refine InterestObj.getNonce_lost ok' (fun x => ?_)
      have c1 := x.1.klSeen
      have := ok.klSeen
      simp only [InterestObj.apply, KlObj.setKeyData] at c1
      omega
    all_goals simp
  | klClear =>
    rw [nonceAfterOp, if_pos (by simp [Changes])]
    · refine InterestObj.getNonce_lost ok' (fun x => ?_)
      have c1 := x.1.klSeen
      have := ok.klSeen
      simp only [InterestObj.apply, KlObj.clear] at c1
      omega
    all_goals simp
  | exclude op =>
    rw [nonceAfterOp, if_pos (by simp [Changes])]
    · refine InterestObj.getNonce_lost ok' (fun x => ?_)
      have c1 := x.1.exclude
      have := ok.excludeSeen
      have := i.exclude.excludeOp_le op
      simp only [InterestObj.apply] at c1
      omega
    all_goals simp
  | hint op =>
    have hs := ok.hintSeen
    have lost : i.hint.count < (i.hint.hintOp op).count → ((i.apply h (.hint op)).2.getNonce (i.apply h (.hint op)).1).2 = none := by
      intro hlt
      refine InterestObj.getNonce_lost ok' (fun x => ?_)
      have c1 := x.1.hint
      simp only [InterestObj.apply] at c1
      omega
    cases op with
    | remove n =>
      rw [nonceAfterOp]
      · split
        · next hc =>
          refine lost ?_
          simp [Obj.hintOp, (delegation_remove_iff n i.hint.val).2 hc, Obj.change]
        · next hc =>
          have e : i.hint.hintOp (.remove n) = i.hint := by
            have : (DelegationSet.remove n i.hint.val).2 = false := by
              cases hb : (DelegationSet.remove n i.hint.val).2 with
              | false => rfl
              | true => exact absurd ((delegation_remove_iff _ _).1 hb) hc
            simp [Obj.hintOp, this]
          simp only [InterestObj.apply, e]
      all_goals simp
    | add p n =>
      rw [nonceAfterOp, if_pos (by simp [Changes])]
      · refine lost ?_
        by_cases hr : (DelegationSet.remove n i.hint.val).2 = true <;> simp [Obj.hintOp, Obj.change, hr]
        omega
      all_goals simp
    | addUnsorted p n =>
      rw [nonceAfterOp, if_pos (by simp [Changes])]
      · exact lost (by simp [Obj.hintOp, Obj.change])
      all_goals simp
    | clear =>
      rw [nonceAfterOp, if_pos (by simp [Changes])]
      · exact lost (by simp [Obj.hintOp, Obj.change])
      all_goals simp
  | setNonce b =>
    obtain ⟨h1, h2, h3, h4, h5⟩ := i.setNonce_le h ok b
    show ((i.setNonce h b).getNonce h).2 = b
    rw [InterestObj.getNonce_clean _ h h1.ok h2 h4, h3]
  | refreshNonce new =>
    obtain ⟨h1, h2, h3, h4, h5, h6⟩ := i.getNonce_le h ok
    have e1 : ((i.getNonce h).1.getNonce h).2 = (i.getNonce h).2 := by
      rw [InterestObj.getNonce_clean _ h h1.ok h2 h4, h5]
    rw [nonceAfterOp]
    dsimp only [InterestObj.apply]
    by_cases hc : blobSize (i.getNonce h).2 = 0
    · rw [if_pos hc, if_pos ((blobSize_zero _).1 hc), e1]
    · rw [if_neg hc, if_neg (fun x => hc ((blobSize_zero _).2 x))]
      obtain ⟨k1, k2, k3, k4, k5⟩ := (i.getNonce h).1.setNonce_le h h1.ok (some new)
      show (((i.getNonce h).1.setNonce h (some new)).getNonce h).2 = some new
      rw [InterestObj.getNonce_clean _ h k1.ok k2 k4, k3]
  | appendParametersDigest d =>
    rw [nonceAfterOp]
    · dsimp only [InterestObj.apply] at ok' ⊢
      by_cases hc : blobSize i.params > 0
      · rw [if_pos hc] at ok' ⊢
        have : i.params ≠ none ∧ i.params ≠ some [] := by
          constructor <;> (intro e; rw [e] at hc; simp [blobSize] at hc)
        rw [if_pos (show Changes h i (.appendParametersDigest d) from this)]
        exact InterestObj.getNonce_lost ok' (fun x => InterestObj.dirty_mutate ok i.name (· ++ [⟨.params, d⟩]) (.inl rfl) x.1)
      · rw [if_neg hc]
        rw [if_neg (fun (x : Changes h i (.appendParametersDigest d)) => by
          rcases (blobSize_zero i.params).1 (by omega) with e | e
          · exact x.1 e
          · exact x.2 e)]
    all_goals simp
  | editLink e =>
    rw [nonceAfterOp, if_neg (by simp [Changes])]
    · refine InterestObj.getNonce_congr ok ok' ⟨fun c => ?_, fun c => ?_⟩ rfl rfl rfl
      · exact ⟨c.name, c.klSeen, c.kl, c.exclude, c.hint⟩
      · exact ⟨c.name, c.klSeen, c.kl, c.exclude, c.hint⟩
    all_goals simp
  | read r =>
    rw [nonceAfterOp, if_neg (by simp [Changes])]
    · have := congrArg (fun x => x.1.nonce) (i.read_le h ok r).2
      exact this
    all_goals simp
  | _ =>
    rw [nonceAfterOp, if_pos (by simp [Changes])]
    · exact bump _ _ ok' rfl (Nat.lt_succ_self _)
    all_goals simp

theorem InterestInv.apply_true {i : InterestObj} {h : Heap} (inv : InterestInv (fun _ _ _ => True) i h) (op : InterestOp) :
    InterestInv (fun _ _ _ => True) (i.apply h op).2 (i.apply h op).1 := by
  by_cases hop : ∃ e, op = .editLink e
  · obtain ⟨e, rfl⟩ := hop
    exact ⟨InterestObj.apply_ok inv.ok _, fun w e1 e2 c => inv.enc w e1 e2 ⟨c.name, c.klSeen, c.kl, c.exclude, c.hint⟩⟩
  · exact inv.le (InterestObj.apply_le inv.ok op (fun e he => hop ⟨e, he⟩))

theorem InterestInv.applyAll_true {i : InterestObj} {h : Heap} (inv : InterestInv (fun _ _ _ => True) i h)
    (ops : List InterestOp) : InterestInv (fun _ _ _ => True) (i.applyAll h ops).2 (i.applyAll h ops).1 := by
  induction ops generalizing i h with
  | nil => exact inv
  | cons op ops ih => exact ih (inv.apply_true op)

/-- The nonce after a sequence of calls on the object (those of a decoder). -/
noncomputable def nonceAfterOps (h : Heap) (i : InterestObj) (cur : Option Bytes) : List InterestOp → Option Bytes
  | [] => cur
  | op :: ops => nonceAfterOps (i.apply h op).1 (i.apply h op).2 (nonceAfterOp h i cur op) ops

theorem InterestObj.nonce_applyAll {i : InterestObj} {h : Heap} (inv : InterestInv (fun _ _ _ => True) i h)
    (ops : List InterestOp) :
    ((i.applyAll h ops).2.getNonce (i.applyAll h ops).1).2 = nonceAfterOps h i (i.getNonce h).2 ops := by
  induction ops generalizing i h with
  | nil => rfl
  | cons op ops ih =>
    rw [nonceAfterOps, ← InterestObj.nonce_apply inv.ok op]
    exact ih (inv.apply_true op)

/-- What `getNonce` returns. -/
def InterestWorld.nonce (w : InterestWorld) : Option Bytes := w.fields.1.nonce

/-- What `getNonce` must return after a call: a call on the object as in `Spec.nonceAfterOp`; `wireDecode` by
the calls that the decoder makes; encoding, reading the cached encoding, changing the default wire format and
copying the Interest keep the nonce. -/
noncomputable def nonceAfter (F : InterestFormats) (w : InterestWorld) (cur : Option Bytes) : InterestCall → Option Bytes
  | .op o => nonceAfterOp w.heap w.interest cur o
  | .wireDecode input f =>
    nonceAfterOps w.heap w.interest cur (F.decode (f.getD w.defaultFormat) w.heap w.interest input).1
  | _ => cur

theorem InterestInv.call_true (F : InterestFormats) {w : InterestWorld}
    (inv : InterestInv (fun _ _ _ => True) w.interest w.heap) (c : InterestCall) :
    InterestInv (fun _ _ _ => True) (w.call F c).interest (w.call F c).heap ∧
      (w.call F c).nonce = nonceAfter F w w.nonce c := by
  cases c with
  | op o => exact ⟨inv.apply_true o, InterestObj.nonce_apply inv.ok o⟩
  | wireEncode f rnd =>
    obtain ⟨h1, h2, h3, h4⟩ := InterestInv.wireEncode F inv f rnd (fun _ _ _ _ _ => trivial)
    exact ⟨h1, congrArg (fun x => x.1.nonce) h2⟩
  | wireDecode input g =>
    have inv2 := inv.applyAll_true (F.decode (g.getD w.defaultFormat) w.heap w.interest input).1
    have hn := InterestObj.nonce_applyAll inv (F.decode (g.getD w.defaultFormat) w.heap w.interest input).1
    have set : ∀ x y, (∀ w', x = some w' → ∃ f, y = some f) → _ := fun x y hxy =>
      InterestInv.setDefault (P := fun _ _ _ => True) inv2.ok x y (fun w' e => by
        obtain ⟨f, hf⟩ := hxy w' e; exact ⟨f, hf, trivial⟩)
    dsimp only [InterestWorld.call]
    unfold InterestWorld.wireDecode
    dsimp only
    cases hr : (F.decode (g.getD w.defaultFormat) w.heap w.interest input).2 with
    | error e => exact ⟨inv2, hn⟩
    | ok be =>
      obtain ⟨b, e⟩ := be
      dsimp only
      by_cases hd : g.getD w.defaultFormat = w.defaultFormat
      · rw [if_pos hd]
        obtain ⟨s1, s2⟩ := set (some (input, b, e)) (some w.defaultFormat) (fun _ _ => ⟨_, rfl⟩)
        exact ⟨s1, (congrArg (fun x => x.1.nonce) s2).trans hn⟩
      · rw [if_neg hd]
        obtain ⟨s1, s2⟩ := set none none (fun _ e => by cases e)
        exact ⟨s1, (congrArg (fun x => x.1.nonce) s2).trans hn⟩
  | getDefaultWireEncoding =>
    obtain ⟨d1, e1, i1, _, _, f1, _⟩ := inv.getDefault
    dsimp only [InterestWorld.call]
    rw [e1]
    exact ⟨i1, congrArg (fun x => x.1.nonce) f1⟩
  | setDefaultWireFormat f => exact ⟨inv, rfl⟩
  | copy => exact ⟨inv.copy.1, congrArg (fun x => x.1.nonce) inv.copy.2⟩

theorem InterestInv.run_true (F : InterestFormats) {w : InterestWorld}
    (inv : InterestInv (fun _ _ _ => True) w.interest w.heap) (cs : List InterestCall) :
    InterestInv (fun _ _ _ => True) (w.run F cs).interest (w.run F cs).heap := by
  induction cs generalizing w with
  | nil => exact inv
  | cons c cs ih => exact ih (InterestInv.call_true F inv c).1

/-- C24.  After every program, each further call does to the result of `getNonce` exactly what the
specification says: a nonce that was set is returned, a call that changes the Interest, its name, key locator,
exclude, forwarding hint or another field clears it, and every other call keeps it. -/
theorem C24_step (F : InterestFormats) (h : Heap) (name : Name) (cbp : Bool) (fmt : Nat) (cs : List InterestCall)
    (c : InterestCall) :
    let w := (InterestWorld.start h name cbp fmt).run F cs
    (w.call F c).nonce = nonceAfter F w w.nonce c :=
  (InterestInv.call_true F (InterestInv.run_true F (InterestInv.start _ h name cbp fmt) cs) c).2

/-- A call that, made in the state `w`, does not change the Interest. -/
def Quiet (w : InterestWorld) : InterestCall → Prop
  | .op (.setNonce _) => False
  | .op (.refreshNonce _) => False
  | .op o => ¬ Changes w.heap w.interest o
  | .wireDecode _ _ => False
  | _ => True

/-- A program in which no call changes the Interest. -/
def AllQuiet (F : InterestFormats) : InterestWorld → List InterestCall → Prop
  | _, [] => True
  | w, c :: cs => Quiet w c ∧ AllQuiet F (w.call F c) cs

theorem quiet_nonce (F : InterestFormats) (w : InterestWorld) (cur : Option Bytes) (c : InterestCall) (hq : Quiet w c) :
    nonceAfter F w cur c = cur := by
  cases c with
  | op o =>
    cases o <;> simp only [Quiet] at hq <;> simp only [nonceAfter] <;> rw [nonceAfterOp, if_neg hq] <;> simp
  | wireDecode input f => exact absurd hq (by simp [Quiet])
  | _ => rfl

theorem allQuiet_nonce (F : InterestFormats) {w : InterestWorld} (inv : InterestInv (fun _ _ _ => True) w.interest w.heap)
    (cs : List InterestCall) (hq : AllQuiet F w cs) : (w.run F cs).nonce = w.nonce := by
  induction cs generalizing w with
  | nil => rfl
  | cons c cs ih =>
    obtain ⟨h1, h2⟩ := InterestInv.call_true F inv c
    exact (ih h1 hq.2).trans (h2.trans (quiet_nonce F w _ c hq.1))

/-- C24.  As long as nothing changes the Interest, `getNonce` returns the last nonce set. -/
theorem C24_survives (F : InterestFormats) (h : Heap) (name : Name) (cbp : Bool) (fmt : Nat)
    (before after : List InterestCall) (b : Option Bytes)
    (hq : AllQuiet F ((InterestWorld.start h name cbp fmt).run F (before ++ [.op (.setNonce b)])) after) :
    ((InterestWorld.start h name cbp fmt).run F (before ++ .op (.setNonce b) :: after)).nonce = b := by
  have inv := InterestInv.run_true F (InterestInv.start _ h name cbp fmt) (before ++ [.op (.setNonce b)])
  have e : before ++ .op (.setNonce b) :: after = (before ++ [.op (.setNonce b)]) ++ after := by simp
  rw [e, InterestWorld.run_append, allQuiet_nonce F inv after hq, InterestWorld.run_append]
  exact C24_step F h name cbp fmt before (.op (.setNonce b))

/-- C24.  After a call that changes the Interest, `getNonce` returns an empty nonce until a nonce is set:
`after` may contain anything but `setNonce` and `wireDecode`.  Missing: changes of the Link object, which do
not count as changes here (`C24_link_unnoticed`). -/
theorem C24_lost_partial (F : InterestFormats) (h : Heap) (name : Name) (cbp : Bool) (fmt : Nat)
    (before after : List InterestCall) (o : InterestOp)
    (hc : Changes ((InterestWorld.start h name cbp fmt).run F before).heap
      ((InterestWorld.start h name cbp fmt).run F before).interest o)
    (hn : ∀ b, .op (.setNonce b) ∉ after) (hd : ∀ i f, .wireDecode i f ∉ after) :
    ((InterestWorld.start h name cbp fmt).run F (before ++ .op o :: after)).nonce = none := by
  have inv := InterestInv.run_true F (InterestInv.start _ h name cbp fmt) (before ++ [.op o])
  have h1 : ((InterestWorld.start h name cbp fmt).run F (before ++ [.op o])).nonce = none := by
    rw [InterestWorld.run_append]
    refine (C24_step F h name cbp fmt before (.op o)).trans ?_
    cases o <;> simp only [Changes] at hc <;> simp only [nonceAfter] <;> rw [nonceAfterOp, if_pos (by simp only [Changes] <;> exact hc)] <;> simp
  have e : before ++ .op o :: after = (before ++ [.op o]) ++ after := by simp
  rw [e, InterestWorld.run_append]
  generalize (InterestWorld.start h name cbp fmt).run F (before ++ [.op o]) = w at inv h1
  clear hc e
  induction after generalizing w with
  | nil => exact h1
  | cons c cs ih =>
    obtain ⟨k1, k2⟩ := InterestInv.call_true F inv c
    refine ih (fun b hb => hn b (by simp [hb])) (fun i f hb => hd i f (by simp [hb])) _ k1 ?_
    rw [k2, h1]
    cases c with
    | op o' =>
      cases o' <;> simp only [nonceAfter] <;> rw [nonceAfterOp] <;> try (split <;> rfl)
      all_goals try simp
      · next b => exact absurd (List.mem_cons_self) (hn b)
    | wireDecode i f => exact absurd (List.mem_cons_self) (hd i f)
    | _ => rfl

/-- A small wire format for the examples: the encoding says how many times the link was changed. -/
def linkFormats : InterestFormats where
  encode := fun _ x _ => .ok (match x.2 with | none => [] | some (_, es) => [UInt8.ofNat es.length], 0, 0)
  reads := fun _ _ => []
  decode := fun _ _ i _ => ([.nameClear i.name, .setNonce (some [1, 2, 3, 4])], .ok (0, 0))

/-- C24 (what is missing).  A change of the Link object got from `getLink` is a change of the Interest, since the link is
part of its encoding, but it does not clear the nonce (interest.py:879-896 does not look at the link). -/
theorem C24_link_unnoticed :
    let w := (InterestWorld.start [] [] false 0).run linkFormats
      [.op (.setLinkWireEncoding (some [6, 0]) 0), .op (.read (.getLink true)), .op (.setNonce (some [1, 2, 3, 4]))]
    let w' := w.call linkFormats (.op (.editLink 0))
    linkFormats.encode 0 w'.fields (fun _ => 0) ≠ linkFormats.encode 0 w.fields (fun _ => 0) ∧
      w'.nonce = some [1, 2, 3, 4] := by
  decide

/-- C23 (what is missing).  After a change of the Link object got from `getLink`, `wireEncode` returns the old
encoding. -/
theorem C23_link_unnoticed :
    let w := (InterestWorld.start [] [] false 0).run linkFormats
      [.op (.setLinkWireEncoding (some [6, 0]) 0), .wireEncode none (fun _ => 0), .op (.read (.getLink true)),
       .op (.editLink 0)]
    (w.wireEncode linkFormats none (fun _ => 0)).2 = .ok ([0], 0, 0) ∧
      linkFormats.encode 0 w.fields (fun _ => 0) = .ok ([1], 0, 0) := by
  decide

/-- The hypotheses of C24 are met: a nonce that survives encoding, copying and a change of another Name, and one that
is lost by a change of the Name that the key locator of the Interest refers to. -/
example : AllQuiet linkFormats ((InterestWorld.start [⟨[], 0⟩] [] false 0).run linkFormats ([] ++ [.op (.setNonce (some [1]))]))
    [.wireEncode none (fun _ => 0), .copy, .op (.nameAppend 0 [⟨.generic, [65]⟩]), .op (.read .getNonce)] := by
  refine ⟨trivial, trivial, ?_, ?_, trivial⟩
  · simp [Quiet, Changes]; decide
  · simp [Quiet, Changes]

example :
    let w := (InterestWorld.start [⟨[], 0⟩] [] false 0).run linkFormats [.op (.klName 0), .op (.setNonce (some [1]))]
    w.nonce = some [1] ∧ Changes w.heap w.interest (.nameAppend 0 [⟨.generic, [65]⟩]) ∧
      (w.run linkFormats [.op (.nameAppend 0 [⟨.generic, [65]⟩]), .copy]).nonce = none := by
  refine ⟨by decide, .inr (by decide), by decide⟩

/-- A program for C23: the encoding of the changed fields, after an encoding and a decoding were cached. -/
example : NoLinkEdits linkFormats
    [.op (.setLinkWireEncoding (some [6, 0]) 0), .wireEncode none (fun _ => 0), .op (.setLinkWireEncoding none 0),
     .wireDecode [5, 0] none, .op (.setMustBeFresh true)] := by
  refine ⟨by simp, by simp [linkFormats]⟩

end PyNDN
