import Verif.Lemmas.Framing
/-
Lemmas about `ElementReader`.
-/
namespace PyNDN
open Spec

theorem varNumForm_unique {n m : Nat} {bs : Bytes} (h1 : VarNumForm n bs) (h2 : VarNumForm m bs) : n = m := by
  have a := readVarNumber_form (inp := bs) (off := 0) (rest := []) h1 (by simp)
  have b := readVarNumber_form (inp := bs) (off := 0) (rest := []) h2 (by simp)
  rw [a] at b
  simpa using b

/-- No element is a proper prefix of another. -/
theorem element_prefix_free {e r : Bytes} (h1 : IsElement e) (h2 : IsElement (e ++ r)) : r = [] := by
  obtain ⟨tf, tb, lf, lb, v, s1⟩ := isElement_shape h1
  obtain ⟨tf', tb', lf', lb', v', s2⟩ := isElement_shape h2
  have he := s2.eq
  rw [s1.eq] at he
  simp only [List.cons_append, List.cons.injEq, List.append_assoc] at he
  obtain ⟨rfl, he1⟩ := he
  obtain ⟨rfl, he2⟩ := List.append_inj he1 (by rw [s1.htb, s2.htb])
  obtain ⟨rfl, he3⟩ := List.cons.inj he2
  obtain ⟨rfl, he4⟩ := List.append_inj he3 (by rw [s1.hlb, s2.hlb])
  have hv := varNumForm_unique s1.form s2.form
  have := congrArg List.length he4
  rw [List.length_append] at this
  exact List.length_eq_zero_iff.mp (by omega)

theorem isElement_ne_nil {e : Bytes} (h : IsElement e) : e ≠ [] := by
  obtain ⟨t, v, h⟩ := h
  have := element_pos h
  intro h; simp [h] at this

theorem incomplete_nil : Incomplete [] := ⟨[0, 0], by simp, 0, [], [0], [0], .inl ⟨by decide, rfl⟩, .inl ⟨by decide, rfl⟩, rfl⟩

/-- An incomplete beginning is shorter than any element in the same stream. -/
theorem incomplete_lt {p e x y : Bytes} (hp : Incomplete p) (he : IsElement e) (h : p ++ x = e ++ y) :
    p.length < e.length := by
  apply Classical.byContradiction
  intro hn
  obtain ⟨z, hz⟩ : e <+: p := List.prefix_of_prefix_length_le ⟨y, h.symm⟩ ⟨x, rfl⟩ (by omega)
  obtain ⟨q, hq, hel⟩ := hp
  rw [← hz, List.append_assoc] at hel
  have := element_prefix_free he hel
  simp at this
  exact hq this.2

theorem dynCopy_take (a v : Bytes) (off : Nat) (h : off ≤ a.length) :
    (dynCopy a v off).take (off + v.length) = a.take off ++ v := by
  have hens : (ensureLength a (off + v.length)).take off = a.take off ∧
      off ≤ (ensureLength a (off + v.length)).length := by
    unfold ensureLength
    split
    · exact ⟨rfl, h⟩
    · unfold sliceAssign
      constructor
      · simp only [List.take_zero, List.nil_append, List.take_append_of_le_length h]
      · simp; omega
  unfold dynCopy sliceAssign
  simp only
  rw [hens.1, List.take_append_of_le_length (by simp; omega), List.take_of_length_le (by simp; omega)]

theorem agrees_of_eq {E p d x y : Bytes} (hpre : ∃ q, E = p ++ q) (h : p ++ d ++ x = E ++ y) :
    Agrees E p.length d := by
  intro j hj1 hj2
  obtain ⟨q, rfl⟩ := hpre
  have h1 : ((p ++ d) ++ x)[p.length + j]? = d[j]? := by
    rw [List.append_assoc, List.getElem?_append_right (by omega), List.getElem?_append_left (by omega)]
    congr 1; omega
  rw [← h1, h, List.getElem?_append_left hj2]

/-- The reader is between elements. -/
def Reader.Idle (r : Reader) : Prop := r.usePartialData = false ∧ r.decoder = SD.new

/-- The reader has kept the incomplete beginning `p` of an element. -/
structure RInv (r : Reader) (p : Bytes) : Prop where
  inc : Incomplete p
  size : p.length ≤ maxNdnPacketSize
  idle : r.usePartialData = false → p = [] ∧ r.decoder = SD.new
  part : r.usePartialData = true → r.partialData.take r.partialDataLength = p ∧
    r.partialDataLength = p.length
  inv : ∀ E tf tb lf lb v, Shape E tf tb lf lb v → (∃ q, q ≠ [] ∧ E = p ++ q) →
    InvAt E tb lf lb p.length r.decoder

theorem rinv_of_idle {r : Reader} (h : r.Idle) : RInv r [] := by
  refine ⟨incomplete_nil, Nat.zero_le _, fun _ => ⟨rfl, h.2⟩, ?_, ?_⟩
  · intro h'; rw [h.1] at h'; cases h'
  · intro E tf tb lf lb v _ _
    rw [h.2]; exact invAt_new E tb lf lb

/-- The elements that reach the listener, and the exception that stops the delivery. -/
def upTo (listener : Bytes → Option Err) : List Bytes → List Bytes × Option Err
  | [] => ([], none)
  | e :: es =>
    match listener e with
    | some x => ([e], some x)
    | none => (e :: (upTo listener es).1, (upTo listener es).2)

theorem loop_reader_spec (listener : Bytes → Option Err) (es : List Bytes) :
    ∀ (fuel : Nat) (r : Reader) (p d p' : Bytes), d.length < fuel → RInv r p → Frames (p ++ d) es p' →
    (Reader.loop listener fuel r d).delivered = (upTo listener es).1 ∧
    (match (upTo listener es).2 with
     | some x => (Reader.loop listener fuel r d).result = .error x ∧ (Reader.loop listener fuel r d).reader.Idle
     | none =>
       (p'.length ≤ maxNdnPacketSize →
         (Reader.loop listener fuel r d).result = .ok () ∧ RInv (Reader.loop listener fuel r d).reader p') ∧
       (maxNdnPacketSize < p'.length →
         (Reader.loop listener fuel r d).result = .error .value ∧
         (Reader.loop listener fuel r d).reader.Idle)) := by
  induction es with
  | nil =>
    intro fuel r p d p' hfuel hr hf
    obtain ⟨heq, -, hinc⟩ := hf
    simp only [List.flatten_nil, List.nil_append] at heq
    cases fuel with
    | zero => omega
    | succ fuel =>
      unfold Reader.loop
      simp only [upTo]
      split
      · rename_i hc
        simp only [Bool.and_eq_true, Bool.not_eq_true', beq_iff_eq] at hc
        have hd : d = [] := List.length_eq_zero_iff.mp hc.2
        have hp : p' = p := by rw [← heq, hd]; simp
        refine ⟨rfl, fun _ => ⟨rfl, ?_⟩, fun h => ?_⟩
        · rw [hp]; exact hr
        · rw [hp] at h; have := hr.size; omega
      · rename_i hc
        obtain ⟨q, hq, hel⟩ := hinc
        have hkey : ∀ E tf tb lf lb v, Shape E tf tb lf lb v → (∃ q, q ≠ [] ∧ E = p' ++ q) →
            ∃ s', SD.findElementEnd { r.decoder with offset := 0 } d = .ok (s', false) ∧
              InvAt E tb lf lb p'.length s' := by
          intro E tf tb lf lb v hs ⟨q, hq, hE⟩
          have hpre : ∃ q', q' ≠ [] ∧ E = p ++ q' :=
            ⟨d ++ q, by simp [hq], by rw [hE, ← heq, List.append_assoc]⟩
          obtain ⟨s', b, h1, h2, h3⟩ := findElementEnd_spec hs (i0 := p.length) (d := d)
            (agrees_of_eq (x := q) (y := []) (by obtain ⟨q', -, h⟩ := hpre; exact ⟨q', h⟩)
              (by rw [heq, hE]; simp)) (hr.inv E tf tb lf lb v hs hpre)
          have hlen : p.length + d.length = p'.length := by rw [← heq, List.length_append]
          have hElen : E.length = p'.length + q.length := by rw [hE, List.length_append]
          have hqp : 0 < q.length := List.length_pos_iff.mpr hq
          cases b with
          | true => have := (h2 rfl).1; omega
          | false => rw [← hlen]; exact ⟨s', h1, (h3 rfl).2⟩
        obtain ⟨tf, tb, lf, lb, v, hs⟩ := isElement_shape hel
        obtain ⟨s', h1, h2⟩ := hkey _ tf tb lf lb v hs ⟨q, hq, rfl⟩
        have hlen : p.length + d.length = p'.length := by rw [← heq, List.length_append]
        have hinc' : Incomplete p' := ⟨q, hq, hel⟩
        have hinv : ∀ E tf tb lf lb v, Shape E tf tb lf lb v → (∃ q, q ≠ [] ∧ E = p' ++ q) →
            InvAt E tb lf lb p'.length s' := by
          intro E tf tb lf lb v hs hq
          obtain ⟨s'', g1, g2⟩ := hkey E tf tb lf lb v hs hq
          rw [h1] at g1
          simp only [Except.ok.injEq, Prod.mk.injEq, and_true] at g1
          rw [g1]; exact g2
        rw [h1]
        simp only [Bool.false_eq_true, if_false]
        cases hu : r.usePartialData with
        | false =>
          have hp0 := (hr.idle hu).1
          subst hp0
          simp only [List.length_nil, Nat.zero_add] at hlen
          simp only [Bool.not_false, if_true, Nat.zero_add]
          split
          · rename_i hbig
            exact ⟨rfl, fun h => by omega, fun _ => ⟨rfl, rfl, rfl⟩⟩
          · rename_i hbig
            refine ⟨rfl, fun _ => ⟨rfl, ?_⟩, fun h => by omega⟩
            refine ⟨hinc', by omega, (fun h => by cases h), fun _ => ⟨?_, hlen⟩, hinv⟩
            have := dynCopy_take r.partialData d 0 (Nat.zero_le _)
            simp only [Nat.zero_add, List.take_zero, List.nil_append] at this heq
            simpa [heq] using this
        | true =>
          obtain ⟨hp1, hp2⟩ := hr.part hu
          simp only [Bool.not_true, Bool.false_eq_true, if_false]
          split
          · rename_i hbig
            exact ⟨rfl, fun h => by omega, fun _ => ⟨rfl, rfl, rfl⟩⟩
          · rename_i hbig
            refine ⟨rfl, fun _ => ⟨rfl, ?_⟩, fun h => by omega⟩
            refine ⟨hinc', by omega, (fun h => by simp [hu] at h), fun _ => ⟨?_, by simp; omega⟩, hinv⟩
            have hle : r.partialDataLength ≤ r.partialData.length := by
              have := congrArg List.length hp1
              rw [List.length_take] at this; omega
            have := dynCopy_take r.partialData d r.partialDataLength hle
            rw [hp1, heq] at this
            exact this
  | cons e es ih =>
    intro fuel r p d p' hfuel hr hf
    obtain ⟨heq, hels, hinc⟩ := hf
    have he : IsElement e := hels e (by simp)
    simp only [List.flatten_cons, List.append_assoc] at heq
    have hlt := incomplete_lt hr.inc he heq
    obtain ⟨q, hq⟩ : p <+: e := List.prefix_of_prefix_length_le ⟨d, rfl⟩ ⟨_, heq.symm⟩ (by omega)
    have hqne : q ≠ [] := by intro h; subst h; rw [← hq] at hlt; simp at hlt
    have hd : d = q ++ (es.flatten ++ p') := by
      rw [← hq, List.append_assoc] at heq
      exact List.append_cancel_left heq
    obtain ⟨d', hd'⟩ : ∃ d', d' = es.flatten ++ p' := ⟨_, rfl⟩
    rw [← hd'] at hd
    have hqpos : 0 < q.length := List.length_pos_iff.mpr hqne
    obtain ⟨tf, tb, lf, lb, v, hs⟩ := isElement_shape he
    obtain ⟨s', b, h1, h2, h3⟩ := findElementEnd_spec hs (i0 := p.length) (d := d)
      (agrees_of_eq (x := []) (y := d') ⟨q, hq.symm⟩ (by rw [← hq, hd]; simp))
      (hr.inv e tf tb lf lb v hs ⟨q, hqne, hq.symm⟩)
    have hel : e.length = p.length + q.length := by rw [← hq, List.length_append]
    have hdl : d.length = q.length + d'.length := by rw [hd, List.length_append]
    cases b with
    | false => have := (h3 rfl).1; omega
    | true =>
      have hoff : s'.offset = q.length := by have := (h2 rfl).2; omega
      have htake : d.take s'.offset = q := by rw [hoff, hd, List.take_left]
      have hdrop : d.drop s'.offset = d' := by rw [hoff, hd, List.drop_left]
      cases fuel with
      | zero => omega
      | succ fuel =>
        -- the element and the reader before the call of the listener
        obtain ⟨r2, hr2, hidle⟩ : ∃ r2 : Reader, (let (element, r) :=
            if r.usePartialData then
              let a := dynCopy r.partialData (d.take s'.offset) r.partialDataLength
              let n := r.partialDataLength + s'.offset
              (a.take n, { r with partialData := a, partialDataLength := n, usePartialData := false })
            else (d.take s'.offset, r)
            (element, { r with decoder := SD.new })) = (e, r2) ∧ r2.Idle := by
          cases hu : r.usePartialData with
          | false =>
            have hp0 := (hr.idle hu).1
            subst hp0
            simp only [Bool.false_eq_true, if_false, htake]
            rw [List.nil_append] at hq
            rw [hq]
            exact ⟨_, rfl, hu, rfl⟩
          | true =>
            obtain ⟨hp1, hp2⟩ := hr.part hu
            have hle : r.partialDataLength ≤ r.partialData.length := by
              have := congrArg List.length hp1
              rw [List.length_take] at this; omega
            have := dynCopy_take r.partialData q r.partialDataLength hle
            rw [hp1, hq] at this
            simp only [if_true, htake]
            rw [hoff, this]
            exact ⟨_, rfl, rfl, rfl⟩
        have hloop : Reader.loop listener (fuel + 1) r d =
            (match listener e with
             | some x => ⟨r2, [e], .error x⟩
             | none =>
               if d'.length = 0 then ⟨r2, [e], .ok ()⟩
               else
                 let out := Reader.loop listener fuel r2 d'
                 { out with delivered := e :: out.delivered }) := by
          conv => lhs; unfold Reader.loop
          rw [if_neg (by intro hc; simp only [Bool.and_eq_true, beq_iff_eq] at hc; omega), h1]
          simp only [if_true]
          simp only [Prod.mk.injEq] at hr2
          rw [hr2.1, hr2.2, hdrop]
          cases listener e <;> rfl
        rw [hloop]
        simp only [upTo]
        cases hl : listener e with
        | some x => exact ⟨rfl, rfl, hidle⟩
        | none =>
          simp only
          split
          · rename_i hz
            have hz' : d' = [] := List.length_eq_zero_iff.mp hz
            rw [hz'] at hd'
            have hes : es = [] := by
              cases es with
              | nil => rfl
              | cons x xs =>
                have := isElement_ne_nil (hels x (by simp))
                simp at hd'
                exact absurd hd'.1 this
            have hp' : p' = [] := by simp [hes] at hd'; exact hd'
            subst hes; subst hp'
            refine ⟨rfl, fun _ => ⟨rfl, rinv_of_idle hidle⟩, fun h => ?_⟩
            simp at h
          · rename_i hz
            have := ih fuel r2 [] d' p' (by omega) (rinv_of_idle hidle)
              ⟨by simpa using hd', fun x hx => hels x (by simp [hx]), hinc⟩
            simp only at this ⊢
            refine ⟨by rw [this.1], this.2⟩

theorem onReceivedData_spec (listener : Bytes → Option Err) {r : Reader} {p d p' : Bytes} {es : List Bytes}
    (hr : RInv r p) (hf : Frames (p ++ d) es p') :
    (r.onReceivedData listener d).delivered = (upTo listener es).1 ∧
    (match (upTo listener es).2 with
     | some x => (r.onReceivedData listener d).result = .error x ∧ (r.onReceivedData listener d).reader.Idle
     | none =>
       (p'.length ≤ maxNdnPacketSize →
         (r.onReceivedData listener d).result = .ok () ∧ RInv (r.onReceivedData listener d).reader p') ∧
       (maxNdnPacketSize < p'.length →
         (r.onReceivedData listener d).result = .error .value ∧
         (r.onReceivedData listener d).reader.Idle)) :=
  loop_reader_spec listener es _ r p d p' (by omega) hr hf

theorem upTo_none {listener : Bytes → Option Err} {es : List Bytes} (h : ∀ e ∈ es, listener e = none) :
    upTo listener es = (es, none) := by
  induction es with
  | nil => rfl
  | cons e es ih => simp [upTo, h e (by simp), ih (fun x hx => h x (by simp [hx]))]

/-- Every byte string splits into elements and an incomplete rest. -/
theorem incomplete_or_element (s : Bytes) : Incomplete s ∨ ∃ e r, IsElement e ∧ s = e ++ r := by
  -- a string that can be filled up with zeros to become a number
  have hfill : ∀ (f : UInt8) (t : Bytes), ¬ ext f ≤ t.length → (t ++ List.replicate (ext f - t.length) 0).length = ext f := by
    intro f t h; simp; omega
  cases s with
  | nil => exact .inl incomplete_nil
  | cons tf s =>
    by_cases h1 : ext tf < s.length
    · -- type complete, first length byte present
      obtain ⟨tb, s1, hs1, htb⟩ : ∃ tb s1, s = tb ++ s1 ∧ tb.length = ext tf :=
        ⟨s.take (ext tf), s.drop (ext tf), (List.take_append_drop _ _).symm, by simp; omega⟩
      cases s1 with
      | nil => rw [hs1] at h1; simp at h1; omega
      | cons lf s2 =>
        by_cases h2 : ext lf ≤ s2.length
        · obtain ⟨lb, s3, hs3, hlb⟩ : ∃ lb s3, s2 = lb ++ s3 ∧ lb.length = ext lf :=
            ⟨s2.take (ext lf), s2.drop (ext lf), (List.take_append_drop _ _).symm, by simp; omega⟩
          obtain ⟨n, hn⟩ := shape_varNumForm lf lb hlb
          by_cases h3 : n ≤ s3.length
          · right
            refine ⟨tf :: (tb ++ lf :: (lb ++ s3.take n)), s3.drop n, ?_, by simp [hs1, hs3]⟩
            exact Shape.isElement ⟨rfl, htb, hlb, by rw [List.length_take, Nat.min_eq_left h3]; exact hn⟩
          · left
            refine ⟨List.replicate (n - s3.length) 0, by simp; omega, ?_⟩
            rw [hs1, hs3]
            exact Shape.isElement (v := s3 ++ List.replicate (n - s3.length) 0) ⟨by simp, htb, hlb, by
              have : (s3 ++ List.replicate (n - s3.length) (0 : UInt8)).length = n := by simp; omega
              rw [this]; exact hn⟩
        · left
          have hlb := hfill lf s2 h2
          obtain ⟨n, hn⟩ := shape_varNumForm lf _ hlb
          refine ⟨List.replicate (ext lf - s2.length) 0 ++ List.replicate n 0, by simp; omega, ?_⟩
          rw [hs1]
          exact Shape.isElement (lb := s2 ++ List.replicate (ext lf - s2.length) 0) (v := List.replicate n 0)
            ⟨by simp, htb, hlb, by simpa using hn⟩
    · left
      by_cases h2 : ext tf = s.length
      · refine ⟨[0], by simp, ?_⟩
        exact Shape.isElement (tb := s) (lf := 0) (lb := []) (v := []) ⟨by simp, h2.symm, by decide, .inl ⟨by simp, by simp [be]⟩⟩
      · have htb := hfill tf s (by omega)
        refine ⟨List.replicate (ext tf - s.length) 0 ++ [0], by simp, ?_⟩
        exact Shape.isElement (tb := s ++ List.replicate (ext tf - s.length) 0) (lf := 0) (lb := []) (v := [])
          ⟨by simp, htb, by decide, .inl ⟨by simp, by simp [be]⟩⟩

theorem frames_exist (s : Bytes) : ∃ es p, Frames s es p := by
  suffices h : ∀ n, ∀ s : Bytes, s.length ≤ n → ∃ es p, Frames s es p from h s.length s (Nat.le_refl _)
  intro n
  induction n with
  | zero =>
    intro s hs
    have : s = [] := List.length_eq_zero_iff.mp (by omega)
    subst this
    exact ⟨[], [], rfl, by simp, incomplete_nil⟩
  | succ n ih =>
    intro s hs
    rcases incomplete_or_element s with h | ⟨e, r, he, hsr⟩
    · exact ⟨[], s, by simp, by simp, h⟩
    · have hpos := List.length_pos_iff.mpr (isElement_ne_nil he)
      have hlen := congrArg List.length hsr
      rw [List.length_append] at hlen
      obtain ⟨es, p, h1, h2, h3⟩ := ih r (by omega)
      refine ⟨e :: es, p, by rw [hsr, h1]; simp, ?_, h3⟩
      intro x hx
      rcases List.mem_cons.mp hx with rfl | hx
      · exact he
      · exact h2 x hx

/-- ... in only one way. -/
theorem frames_unique {s : Bytes} {es es' : List Bytes} {p p' : Bytes} (h : Frames s es p)
    (h' : Frames s es' p') : es = es' ∧ p = p' := by
  induction es generalizing s es' with
  | nil =>
    cases es' with
    | nil => have := h.eq; have h2 := h'.eq; simp at this h2; exact ⟨rfl, by rw [← this, h2]⟩
    | cons e es' =>
      exfalso
      have h1 := h.eq; have h2 := h'.eq
      simp only [List.flatten_nil, List.nil_append, List.flatten_cons, List.append_assoc] at h1 h2
      have hlt := incomplete_lt (x := []) h.rest (h'.elements e (by simp)) (by rw [← h1, h2]; simp; rfl)
      have := congrArg List.length (h1.symm.trans h2)
      simp at this; omega
  | cons e es ih =>
    cases es' with
    | nil =>
      exfalso
      have h1 := h.eq; have h2 := h'.eq
      simp only [List.flatten_nil, List.nil_append, List.flatten_cons, List.append_assoc] at h1 h2
      have hlt := incomplete_lt (x := []) h'.rest (h.elements e (by simp)) (by rw [← h2, h1]; simp; rfl)
      have := congrArg List.length (h2.symm.trans h1)
      simp at this; omega
    | cons e' es' =>
      have h1 := h.eq; have h2 := h'.eq
      simp only [List.flatten_cons, List.append_assoc] at h1 h2
      have hee : e = e' := by
        rcases Nat.le_total e.length e'.length with hl | hl
        · obtain ⟨z, hz⟩ : e <+: e' := List.prefix_of_prefix_length_le ⟨_, h1.symm⟩ ⟨_, h2.symm⟩ hl
          have := element_prefix_free (h.elements e (by simp)) (by rw [hz]; exact h'.elements e' (by simp))
          rw [← hz, this]; simp
        · obtain ⟨z, hz⟩ : e' <+: e := List.prefix_of_prefix_length_le ⟨_, h2.symm⟩ ⟨_, h1.symm⟩ hl
          have := element_prefix_free (h'.elements e' (by simp)) (by rw [hz]; exact h.elements e (by simp))
          rw [← hz, this]; simp
      subst hee
      have h3 : es.flatten ++ p = es'.flatten ++ p' := List.append_cancel_left (h1.symm.trans h2)
      have := ih (s := es.flatten ++ p) ⟨rfl, fun x hx => h.elements x (by simp [hx]), h.rest⟩
        ⟨h3, fun x hx => h'.elements x (by simp [hx]), h'.rest⟩
      exact ⟨by rw [this.1], this.2⟩

end PyNDN
