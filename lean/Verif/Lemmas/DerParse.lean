import Verif.Lemmas.Der
/-
Lemmas for C71: parsing.
-/
namespace PyNDN.Der
open Spec.Der

theorem get_at (pre : Bytes) (b : UInt8) (post : Bytes) : (pre ++ b :: post)[pre.length]? = some b := by
  rw [List.getElem?_append_right (Nat.le_refl _), Nat.sub_self]
  rfl

theorem longLength_spec (l : Bytes) : ∀ (pre post : Bytes) (size : Nat),
    longLength (pre ++ l ++ post) pre.length l.length size = .ok (l, size * 256 ^ l.length + number 256 (l.map (·.toNat))) := by
  induction l with
  | nil =>
    intro pre post size
    show Except.ok ([], size) = _
    simp [number]
  | cons b r ih =>
    intro pre post size
    have h := ih (pre ++ [b]) post (256 * size + b.toNat)
    have e : pre ++ b :: r ++ post = pre ++ [b] ++ r ++ post := by simp
    rw [List.length_append, List.length_singleton] at h
    show longLength (pre ++ b :: r ++ post) pre.length (r.length + 1) size = _
    unfold longLength
    rw [show (pre ++ b :: r ++ post)[pre.length]? = some b by rw [List.append_assoc]; exact get_at ..]
    dsimp only
    rw [e, h]
    show Except.ok (b :: r, _) = _
    congr 2
    show _ = size * 256 ^ (r.length + 1) + (b.toNat * 256 ^ (r.map (·.toNat)).length + number 256 (r.map (·.toNat)))
    rw [List.length_map, Nat.add_mul, Nat.pow_succ, Nat.mul_comm 256 size, Nat.mul_assoc, Nat.mul_comm 256, Nat.add_assoc]

theorem decodeHeader_spec (t : UInt8) (n : Nat) (hn : n < 256 ^ 126) (pre post : Bytes) :
    decodeHeader (pre ++ header t n ++ post) pre.length = .ok (header t n, n) := by
  have e0 : ∀ a l : Bytes, ∀ x y : UInt8, (a ++ x :: y :: l)[a.length + 1]? = some y := by
    intro a l x y
    rw [List.getElem?_append_right (by omega), show a.length + 1 - a.length = 1 by omega]
    rfl
  unfold header
  split
  · next hs =>
    unfold decodeHeader
    have e : pre ++ [t, UInt8.ofNat n] ++ post = pre ++ t :: UInt8.ofNat n :: post := by simp
    rw [e, get_at, e0]
    have hv : (UInt8.ofNat n).toNat = n := by rw [UInt8.toNat_ofNat']; omega
    dsimp only
    rw [hv, if_pos (by omega)]
  · next hs =>
    have hl := beBytes_length 126 n hn
    have hv := or128 (beBytes n).length (by omega)
    unfold decodeHeader
    have e : pre ++ t :: UInt8.ofNat (128 ||| (beBytes n).length) :: beBytes n ++ post =
      pre ++ t :: UInt8.ofNat (128 ||| (beBytes n).length) :: (beBytes n ++ post) := by simp
    rw [e, get_at, e0]
    dsimp only
    rw [hv, if_neg (by omega)]
    have h := longLength_spec (beBytes n) (pre ++ [t, UInt8.ofNat (128 ||| (beBytes n).length)]) post 0
    rw [List.length_append, show [t, UInt8.ofNat (128 ||| (beBytes n).length)].length = 2 from rfl,
      show pre ++ [t, UInt8.ofNat (128 ||| (beBytes n).length)] ++ beBytes n ++ post =
        pre ++ t :: UInt8.ofNat (128 ||| (beBytes n).length) :: (beBytes n ++ post) by simp, beBytes_number, Nat.zero_mul, Nat.zero_add] at h
    rw [show (128 + (beBytes n).length) % 128 = (beBytes n).length by omega, h]
    rfl

mutual
def tdepth : Tree → Nat
  | .prim _ _ => 1
  | .seq items => tdepths items + 1
def tdepths : List Tree → Nat
  | [] => 0
  | t :: ts => max (tdepth t) (tdepths ts)
end

mutual
theorem tdepth_le : (t : Tree) → tdepth t < (der t).length
  | .prim tag c => by
    have := header_length tag c.length
    show 1 < (header tag c.length ++ c).length
    rw [List.length_append]; omega
  | .seq items => by
    have h := tdepths_le items
    have := header_length 48 (ders items).length
    show tdepths items + 1 < (header 48 (ders items).length ++ ders items).length
    rw [List.length_append]; omega
theorem tdepths_le : (ts : List Tree) → tdepths ts ≤ (ders ts).length
  | [] => Nat.le_refl _
  | t :: ts => by
    have h1 := tdepth_le t
    have h2 := tdepths_le ts
    show max (tdepth t) (tdepths ts) ≤ (der t ++ ders ts).length
    rw [List.length_append]; omega
end

theorem ders_count (ts : List Tree) : ts.length ≤ (ders ts).length := by
  induction ts with
  | nil => exact Nat.le_refl _
  | cons t ts ih =>
    have := tdepth_le t
    rw [ders, List.length_append, List.length_cons]
    omega

theorem known_ne (tag : UInt8) (h : tag ∈ tags) : tag ≠ 48 ∧ known tag = true := by
  unfold tags at h
  simp only [List.mem_cons, List.not_mem_nil, or_false] at h
  rcases h with rfl | rfl | rfl | rfl | rfl | rfl | rfl | rfl <;> exact ⟨by decide, by decide⟩

/-- A node as it is right after `parse`. -/
structure Parsed (t : Tree) (n : Node) : Prop where
  tree : treeOf n = t
  good : Good n

mutual
theorem parseDepth_spec : (t : Tree) → Known t → ∀ f, tdepth t ≤ f → ∀ pre post : Bytes,
    ∃ n, parseDepth (pre ++ der t ++ post) f pre.length = .ok n ∧ Parsed t n
  | .prim tag c, h, f, hf, pre, post => by
    obtain ⟨f, rfl⟩ : ∃ g, f = g + 1 := ⟨f - 1, by simp [tdepth] at hf; omega⟩
    obtain ⟨h1, h2⟩ := known_ne tag h.1
    obtain ⟨l, hl, _⟩ := header_isLength tag c.length h.2
    have e : pre ++ der (.prim tag c) ++ post = pre ++ header tag c.length ++ (c ++ post) := by rw [der]; simp
    refine ⟨.leaf tag (header tag c.length) c, ?_, ⟨rfl, rfl⟩⟩
    unfold parseDepth
    rw [e, decodeHeader_spec tag _ h.2,
      show (pre ++ header tag c.length ++ (c ++ post))[pre.length]? = some tag by rw [hl, List.append_assoc]; exact get_at ..]
    dsimp only
    rw [if_neg h1, if_pos h2, ← List.length_append, List.drop_left, List.take_left]
  | .seq items, h, f, hf, pre, post => by
    have hf : tdepths items + 1 ≤ f := hf
    obtain ⟨f, rfl⟩ : ∃ g, f = g + 1 := ⟨f - 1, by omega⟩
    have hsz := h.2 _ (isDers_ders items h.1)
    obtain ⟨l, hl, _⟩ := header_isLength 48 (ders items).length hsz
    have e : pre ++ der (.seq items) ++ post = pre ++ header 48 (ders items).length ++ (ders items ++ post) := by rw [der]; simp
    have hc := children_spec items h.1 f (by omega) (pre ++ header 48 (ders items).length) post
      ((pre ++ der (.seq items) ++ post).length + 1) (by
        have := ders_count items
        rw [e]
        simp only [List.length_append]
        omega) 0
    obtain ⟨ns, hns, h1, h2⟩ := hc
    refine ⟨.seq (header 48 (ders items).length) (ders items).length (!ns.isEmpty) ns, ?_, ⟨?_, ⟨fun _ => by rw [h1], h2⟩⟩⟩
    · unfold parseDepth
      rw [show (pre ++ der (.seq items) ++ post)[pre.length]? = some 48 by rw [e, hl, List.append_assoc]; exact get_at ..]
      dsimp only
      rw [if_pos rfl]
      rw [show decodeHeader (pre ++ der (.seq items) ++ post) pre.length = .ok (header 48 (ders items).length, (ders items).length) by
        rw [e]; exact decodeHeader_spec 48 _ hsz pre _]
      dsimp only
      rw [show pre ++ der (.seq items) ++ post = pre ++ header 48 (ders items).length ++ ders items ++ post by rw [e]; simp] at *
      rw [← List.length_append]
      rw [Nat.zero_add] at hns
      rw [hns]
      rfl
    · show Tree.seq (treesOf ns) = _
      rw [h1]
theorem children_spec : (ts : List Tree) → Knowns ts → ∀ f, tdepths ts ≤ f → ∀ pre post : Bytes, ∀ g, ts.length < g → ∀ acc,
    ∃ ns, children (parseDepth (pre ++ ders ts ++ post) f) g pre.length acc (acc + (ders ts).length) = .ok ns ∧ treesOf ns = ts ∧ Goods ns
  | [], _, f, _, pre, post, g, hg, acc => by
    obtain ⟨g, rfl⟩ : ∃ k, g = k + 1 := ⟨g - 1, by simp at hg; omega⟩
    refine ⟨[], ?_, rfl, trivial⟩
    unfold children
    rw [if_neg (by simp [ders])]
  | t :: ts, h, f, hf, pre, post, g, hg, acc => by
    have hf : max (tdepth t) (tdepths ts) ≤ f := hf
    rw [List.length_cons] at hg
    obtain ⟨g, rfl⟩ : ∃ k, g = k + 1 := ⟨g - 1, by omega⟩
    obtain ⟨n, hn, hp⟩ := parseDepth_spec t h.1 f (by omega) pre (ders ts ++ post)
    obtain ⟨s1, s2, s3, _⟩ := getSize_spec n hp.good
    rw [hp.tree] at s1 s2
    obtain ⟨ns, hns, h1, h2⟩ := children_spec ts h.2 f (by omega) (pre ++ der t) post g (by omega) (acc + (der t).length)
    have e1 : pre ++ ders (t :: ts) ++ post = pre ++ der t ++ (ders ts ++ post) := by rw [ders]; simp
    have e2 : pre ++ der t ++ ders ts ++ post = pre ++ der t ++ (ders ts ++ post) := by simp
    refine ⟨n.getSize.2 :: ns, ?_, by rw [treesOf, s2, h1], s3, h2⟩
    unfold children
    have hpos := tdepth_le t
    rw [if_pos (by rw [ders, List.length_append]; omega), e1, hn]
    dsimp only
    rw [s1]
    rw [e2, List.length_append] at hns
    rw [show acc + (ders (t :: ts)).length = acc + (der t).length + (ders ts).length by rw [ders, List.length_append]; omega, hns]
    rfl
end

theorem parse_spec (t : Tree) (h : Known t) (pre post : Bytes) :
    ∃ n, parse (pre ++ der t ++ post) pre.length = .ok n ∧ treeOf n = t ∧ Good n := by
  have hd := tdepth_le t
  obtain ⟨n, h1, h2⟩ := parseDepth_spec t h ((pre ++ der t ++ post).length + 1) (by simp only [List.length_append]; omega) pre post
  exact ⟨n, h1, h2.tree, h2.good⟩

/-! ### Any input -/

/-- What the exceptions are. -/
def Documented (e : Err) : Prop := e = .decoding ∨ e = .index

theorem longLength_safe (buf : Bytes) (n : Nat) : ∀ idx size, (∀ e, longLength buf idx n size = .error e → e = .decoding) ∧
    ∀ r, longLength buf idx n size = .ok r → r.1 = (buf.drop idx).take n ∧ idx + n ≤ buf.length ∨ n = 0 ∧ r.1 = [] := by
  induction n with
  | zero =>
    intro idx size
    exact ⟨fun e h => (nomatch h), fun r h => .inr ⟨rfl, by cases h; rfl⟩⟩
  | succ n ih =>
    intro idx size
    unfold longLength
    rcases hb : buf[idx]? with _ | b
    · exact ⟨fun e h => by cases h; rfl, fun r h => nomatch h⟩
    · obtain ⟨i1, i2⟩ := ih (idx + 1) (256 * size + b.toNat)
      dsimp only
      have hlt : idx < buf.length := (List.getElem?_eq_some_iff.mp hb).1
      have hd : buf.drop idx = b :: buf.drop (idx + 1) := by
        rw [List.drop_eq_getElem_cons hlt, (List.getElem?_eq_some_iff.mp hb).2]
      rcases hr : longLength buf (idx + 1) n (256 * size + b.toNat) with e | r
      · exact ⟨fun e' h => by cases h; exact i1 e hr, fun r h => nomatch h⟩
      · refine ⟨fun e' h => (nomatch h), fun r' h => ?_⟩
        cases h
        left
        rw [hd, List.take_succ_cons]
        rcases i2 r hr with ⟨h1, h2⟩ | ⟨h1, h2⟩
        · exact ⟨by show b :: r.1 = _; rw [h1], by omega⟩
        · subst h1
          exact ⟨by show b :: r.1 = _; rw [h2]; rfl, by omega⟩

theorem decodeHeader_safe (buf : Bytes) (idx : Nat) : (∀ e, decodeHeader buf idx = .error e → Documented e) ∧
    ∀ r, decodeHeader buf idx = .ok r → 2 ≤ r.1.length ∧ idx + r.1.length ≤ buf.length := by
  unfold decodeHeader
  rcases h0 : buf[idx]? with _ | t <;> rcases h1 : buf[idx + 1]? with _ | s
  · exact ⟨fun e h => by cases h; exact .inr rfl, fun r h => nomatch h⟩
  · exact ⟨fun e h => by cases h; exact .inr rfl, fun r h => nomatch h⟩
  · exact ⟨fun e h => by cases h; exact .inr rfl, fun r h => nomatch h⟩
  · have hlt : idx + 1 < buf.length := (List.getElem?_eq_some_iff.mp h1).1
    dsimp only
    split
    · exact ⟨fun e h => (nomatch h), fun r h => by cases h; exact ⟨Nat.le_refl _, by show idx + 2 ≤ _; omega⟩⟩
    · obtain ⟨i1, i2⟩ := longLength_safe buf (s.toNat % 128) (idx + 2) 0
      rcases hr : longLength buf (idx + 2) (s.toNat % 128) 0 with e | r
      · exact ⟨fun e' h => by cases h; exact .inl (i1 e hr), fun r h => nomatch h⟩
      · refine ⟨fun e' h => (nomatch h), fun r' h => ?_⟩
        cases h
        refine ⟨by show 2 ≤ r.1.length + 1 + 1; omega, ?_⟩
        show idx + (r.1.length + 1 + 1) ≤ _
        rcases i2 r hr with ⟨h2, h3⟩ | ⟨h2, h3⟩
        · rw [h2, List.length_take]; omega
        · rw [h3]
          show idx + 2 ≤ _
          omega

mutual
theorem getSize_tree : (n : Node) → treeOf n.getSize.2 = treeOf n
  | .leaf _ _ _ => rfl
  | .seq h size changed cs => by
    cases changed with
    | true =>
      show Tree.seq (treesOf (sizes cs).2) = _
      rw [sizes_tree cs, treeOf]
    | false => rfl
theorem sizes_tree : (ns : List Node) → treesOf (sizes ns).2 = treesOf ns
  | [] => rfl
  | n :: ns => by
    show treeOf n.getSize.2 :: treesOf (sizes ns).2 = _
    rw [getSize_tree n, sizes_tree ns, treesOf]
end

/-- What is known of any node that was parsed. -/
structure Sane (buf : Bytes) (n : Node) : Prop where
  size : 2 ≤ n.getSize.1
  part : ∀ x ∈ leaves (treeOf n), x.1 ∈ tags ∧ x.2 <:+: buf

theorem children_safe {buf : Bytes} (parse : Nat → Except Err Node) (start : Nat)
    (ih : ∀ idx, start ≤ idx → (∀ e, parse idx = .error e → Documented e) ∧ ∀ n, parse idx = .ok n → idx < buf.length ∧ Sane buf n) :
    ∀ f idx acc size, start ≤ idx → buf.length < f + idx → 0 < f →
      (∀ e, children parse f idx acc size = .error e → Documented e) ∧
      ∀ ns, children parse f idx acc size = .ok ns → ∀ x ∈ leavesAll (treesOf ns), x.1 ∈ tags ∧ x.2 <:+: buf := by
  intro f
  induction f with
  | zero => intro idx acc size _ _ h; omega
  | succ f ihf =>
    intro idx acc size hs hf _
    obtain ⟨p1, p2⟩ := ih idx hs
    unfold children
    split
    · rcases hp : parse idx with e | n
      · exact ⟨fun e' h => by cases h; exact p1 e hp, fun r h => nomatch h⟩
      · obtain ⟨hlt, hsane⟩ := p2 n hp
        have h2 := hsane.size
        obtain ⟨r1, r2⟩ := ihf (idx + n.getSize.1) (acc + n.getSize.1) size (by omega) (by omega) (by omega)
        dsimp only
        rcases hr : children parse f (idx + n.getSize.1) (acc + n.getSize.1) size with e | ns
        · exact ⟨fun e' h => by cases h; exact r1 e hr, fun r h => nomatch h⟩
        · refine ⟨fun e' h => (nomatch h), fun ns' h x hx => ?_⟩
          cases h
          rw [treesOf, leavesAll, getSize_tree] at hx
          rcases List.mem_append.mp hx with hx | hx
          · exact hsane.part x hx
          · exact r2 ns hr x hx
    · exact ⟨fun e h => (nomatch h), fun ns h x hx => by cases h; cases hx⟩

theorem known_tags {t : UInt8} (h : known t = true) : t ∈ tags := List.contains_iff_mem.mp h

theorem parseDepth_safe (buf : Bytes) : ∀ f idx, buf.length < f + idx → 0 < f →
    (∀ e, parseDepth buf f idx = .error e → Documented e) ∧ ∀ n, parseDepth buf f idx = .ok n → idx < buf.length ∧ Sane buf n := by
  intro f
  induction f with
  | zero => intro idx _ h; omega
  | succ f ih =>
    intro idx hf _
    unfold parseDepth
    rcases hb : buf[idx]? with _ | t
    · exact ⟨fun e h => by cases h; exact .inl rfl, fun n h => nomatch h⟩
    · have hlt : idx < buf.length := (List.getElem?_eq_some_iff.mp hb).1
      obtain ⟨d1, d2⟩ := decodeHeader_safe buf idx
      dsimp only
      split
      · rcases hd : decodeHeader buf idx with e | ⟨h, size⟩
        · exact ⟨fun e' h => by cases h; exact d1 e hd, fun r h => nomatch h⟩
        · obtain ⟨g1, g2⟩ := d2 _ hd
          dsimp only at g1 g2 ⊢
          have hc := children_safe (buf := buf) (parseDepth buf f) (idx + h.length)
            (fun i hi => ih i (by omega) (by omega)) (buf.length + 1) (idx + h.length) 0 size (Nat.le_refl _) (by omega) (by omega)
          rcases hr : children (parseDepth buf f) (buf.length + 1) (idx + h.length) 0 size with e | ns
          · exact ⟨fun e' h => by cases h; exact hc.1 e hr, fun r h => nomatch h⟩
          · refine ⟨fun e' h => (nomatch h), fun n hn => ?_⟩
            cases hn
            refine ⟨hlt, ⟨?_, fun x hx => ?_⟩⟩
            · have := header_length 48 (if (!ns.isEmpty) = true then sizes ns else (size, ns)).1
              show 2 ≤ (if (!ns.isEmpty) = true then sizes ns else (size, ns)).1 +
                (header 48 (if (!ns.isEmpty) = true then sizes ns else (size, ns)).1).length
              omega
            · exact hc.2 ns hr x hx
      · split
        · next hk =>
          rcases hd : decodeHeader buf idx with e | ⟨h, size⟩
          · exact ⟨fun e' h => by cases h; exact d1 e hd, fun r h => nomatch h⟩
          · obtain ⟨g1, g2⟩ := d2 _ hd
            dsimp only at g1 g2 ⊢
            refine ⟨fun e' h => (nomatch h), fun n hn => ?_⟩
            cases hn
            refine ⟨hlt, ⟨?_, fun x hx => ?_⟩⟩
            · show 2 ≤ h.length + ((buf.drop (idx + h.length)).take size).length
              omega
            · rw [List.mem_singleton.mp hx]
              exact ⟨known_tags hk, (List.take_prefix ..).isInfix.trans (List.drop_suffix ..).isInfix⟩
        · exact ⟨fun e h => by cases h; exact .inl rfl, fun n h => nomatch h⟩

end PyNDN.Der
