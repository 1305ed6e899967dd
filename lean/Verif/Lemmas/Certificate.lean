import Verif.Spec.Certificate
import Verif.Lemmas.ProtobufTlv
import Verif.Props.Der
/-
Lemmas about certificates of version 1.
-/
namespace PyNDN.Certificate
open Der Spec.Der Spec.Certificate

/-! ### Trees and nodes -/

theorem of_prim {n : Node} {t : UInt8} {c : Bytes} (h : treeOf n = .prim t c) : ∃ hd, n = .leaf t hd c := by
  cases n with
  | leaf t' hd p =>
    have h : Tree.prim t' p = .prim t c := h
    cases h
    exact ⟨hd, rfl⟩
  | seq => cases h

theorem of_seq {n : Node} {ts : List Tree} (h : treeOf n = .seq ts) : ∃ hd size ch cs, n = .seq hd size ch cs ∧ treesOf cs = ts := by
  cases n with
  | leaf => cases h
  | seq hd size ch cs =>
    have h : Tree.seq (treesOf cs) = .seq ts := h
    cases h
    exact ⟨hd, size, ch, cs, rfl, rfl⟩

theorem of_cons {cs : List Node} {t : Tree} {ts : List Tree} (h : treesOf cs = t :: ts) : ∃ n ns, cs = n :: ns ∧ treeOf n = t ∧ treesOf ns = ts := by
  cases cs with
  | nil => cases h
  | cons n ns =>
    have h : treeOf n :: treesOf ns = t :: ts := h
    cases h
    exact ⟨n, ns, rfl, rfl, rfl⟩

theorem of_nil {cs : List Node} (h : treesOf cs = []) : cs = [] := by
  cases cs with
  | nil => rfl
  | cons => cases h

theorem add_spec {p c : Node} {ts : List Tree} (hp : Good p) (ht : treeOf p = .seq ts) (hc : Good c) :
    Good (add p c) ∧ treeOf (add p c) = .seq (ts ++ [treeOf c]) := by
  obtain ⟨hd, size, ch, cs, rfl, rfl⟩ := of_seq ht
  refine ⟨⟨fun h => (by cases h), goods_snoc hp.2 hc⟩, ?_⟩
  show Tree.seq (treesOf (cs ++ [c])) = _
  rw [trees_snoc]

theorem good_empty : Good Node.empty ∧ treeOf Node.empty = .seq [] := ⟨⟨fun _ => rfl, trivial⟩, rfl⟩

/-! ### Sizes -/

mutual
def Tagged : Tree → Prop
  | .prim tag _ => tag ∈ tags
  | .seq items => Taggeds items
def Taggeds : List Tree → Prop
  | [] => True
  | t :: ts => Tagged t ∧ Taggeds ts
end

mutual
theorem known_tagged : (t : Tree) → Known t → Tagged t
  | .prim _ _, h => h.1
  | .seq items, h => knowns_tagged items h.1
theorem knowns_tagged : (ts : List Tree) → Knowns ts → Taggeds ts
  | [], _ => trivial
  | t :: ts, h => ⟨known_tagged t h.1, knowns_tagged ts h.2⟩
end

mutual
theorem tagged_known : (t : Tree) → Tagged t → (der t).length < 256 ^ 126 → Known t
  | .prim tag c, h, hl => by
    rw [der, List.length_append] at hl
    exact ⟨h, Nat.lt_of_le_of_lt (Nat.le_add_left _ _) hl⟩
  | .seq items, h, hl => by
    rw [der, List.length_append] at hl
    have hl := Nat.lt_of_le_of_lt (Nat.le_add_left _ _) hl
    have hk := taggeds_knowns items h hl
    exact ⟨hk, fun b hb => by rw [ders_unique items hk b hb]; exact hl⟩
theorem taggeds_knowns : (ts : List Tree) → Taggeds ts → (ders ts).length < 256 ^ 126 → Knowns ts
  | [], _, _ => trivial
  | t :: ts, h, hl => by
    rw [ders, List.length_append] at hl
    exact ⟨tagged_known t h.1 (Nat.lt_of_le_of_lt (Nat.le_add_right _ _) hl), taggeds_knowns ts h.2 (Nat.lt_of_le_of_lt (Nat.le_add_left _ _) hl)⟩
end

theorem taggeds_all {α : Type} {R : α → Tree → Prop} (h : ∀ x t, R x t → Tagged t) {xs : List α} {ts : List Tree} (hf : List.Forall₂ R xs ts) :
    Taggeds ts := by
  induction hf with
  | nil => exact trivial
  | cons hx _ ih => exact ⟨h _ _ hx, ih⟩

/-! ### Times -/

theorem decimals2 (n : Nat) : decimals 2 n = pad2 n := rfl

theorem strftime_digits (t : DateTime) (h1 : 1000 ≤ t.year) (h2 : t.year ≤ 9999) : strftimeDer t =
    decimals 4 t.year ++ decimals 2 t.month ++ decimals 2 t.day ++ decimals 2 t.hour ++ decimals 2 t.minute ++ decimals 2 t.second ++ [90] := by
  unfold strftimeDer
  rw [decimal4 _ h1 h2]
  congr 6
  simp only [decimals, List.nil_append, List.cons_append, digitChar]
  congr 2
  · omega
  · congr 1; omega

theorem time_ok (ms : Int) (h1 : -30610224000000 ≤ ms) (h2 : ms < 253402300800000) :
    ∃ c, generalizedTime ms = .ok (prim 24 c) ∧ IsTime (ms / 1000) c := by
  obtain ⟨t, ht, hs, y1, y2, m1, m2, d1, d2, hh, hm, hsec⟩ := datetimeFromSeconds_spec (ms / 1000) (by omega) (by omega)
  refine ⟨asciiBytes (strftimeDer t), ?_, t.year, t.month, t.day, t.hour, t.minute, t.second, y1, y2, m1, m2, d1, d2, hh, hm, hsec, hs, ?_⟩
  · unfold generalizedTime timeString
    rw [ht]
    rfl
  · rw [ascii_back _ (strftimeDer_ascii t), strftime_digits t y1 y2]

theorem time_val {second : Int} {c : Bytes} (h : IsTime second c) (hd : Bytes) :
    (Node.leaf 24 hd c).toVal = .ok (.time (1000 * second)) := by
  obtain ⟨y, m, d, hh, mi, s, y1, y2, m1, m2, d1, d2, h1, h2, h3, e, hc⟩ := h
  show (match strptime (c.map (·.toNat)) with
    | .error e => Except.error e
    | .ok d => .ok (Val.time (secondsOfDatetime d * 1000))) = _
  rw [hc, ← strftime_digits ⟨y, m, d, hh, mi, s⟩ y1 y2, strptime_strftime _ ⟨y1, y2, m1, m2, d1, d2, h1, h2, h3⟩]
  show Except.ok (Val.time (secondsOfDatetime _ * 1000)) = _
  rw [e]
  congr 2
  omega

/-! ### Object identifiers -/

theorem oid_val {l : List Nat} {c : Bytes} (hl : OidOk l) (h : IsOid l c) (hd : Bytes) :
    (Node.leaf 6 hd c).toVal = .ok (.str (dotted l)) := by
  obtain ⟨a, b, rest, rfl, ha, hb⟩ := hl
  show (oidString c).map Val.str = _
  rw [oidString_spec h (fun a' b' r' e => by cases e; omega)]
  rfl

theorem oid_back {l : List Nat} (hl : OidOk l) : oidValue (.str (dotted l)) = .ok (.oid (l.map Int.ofNat)) := by
  obtain ⟨a, b, rest, rfl, ha, hb⟩ := hl
  unfold oidValue
  dsimp only
  rw [dotted_eq, C71_oid_string _ (by simp)]
  rfl

theorem oid_node {l : List Nat} (hl : OidOk l) : ∃ c, oidNode (.oid (l.map Int.ofNat)) = .ok (prim 6 c) ∧ IsOid l c := by
  obtain ⟨a, b, rest, rfl, ha, hb⟩ := hl
  obtain ⟨c, h1, h2⟩ := oid_spec a b rest ha hb
  refine ⟨c, ?_, h2⟩
  unfold oidNode
  dsimp only
  rw [show (a :: b :: rest).map Int.ofNat = (a :: b :: rest).map (fun n : Nat => (n : Int)) from rfl, h1]
  rfl

/-! ### Text -/

theorem utf8_ascii (b : Bytes) (h : ∀ x ∈ b, x < 128) : (b.map UInt8.toNat).flatMap Protobuf.utf8Encode = b := by
  induction b with
  | nil => rfl
  | cons x b ih =>
    rw [List.map_cons, List.flatMap_cons, ih (fun y hy => h y (List.mem_cons_of_mem _ hy))]
    have hx : x.toNat < 128 := h x (List.mem_cons_self ..)
    unfold Protobuf.utf8Encode
    rw [if_pos hx, UInt8.ofNat_toNat]
    rfl

/-! ### The items -/

theorem subject_node (d : List Nat × Bytes) (hl : OidOk d.1) :
    ∃ n, subjectNode (.oid (d.1.map Int.ofNat), d.2) = .ok n ∧ Good n ∧ IsDescription d (treeOf n) := by
  obtain ⟨c, h1, h2⟩ := oid_node hl
  obtain ⟨g1, t1⟩ := add_spec good_empty.1 good_empty.2 (good_prim 6 c)
  obtain ⟨g2, t2⟩ := add_spec g1 t1 (good_prim 19 d.2)
  refine ⟨_, ?_, g2, c, h2, t2⟩
  unfold subjectNode
  rw [h1]
  rfl

theorem extension_node (e : List Nat × Bool × Bytes) (hl : OidOk e.1) :
    ∃ n, extensionNode ⟨.oid (e.1.map Int.ofNat), .bool e.2.1, e.2.2⟩ = .ok n ∧ Good n ∧ IsExtension e (treeOf n) := by
  obtain ⟨c, h1, h2⟩ := oid_node hl
  obtain ⟨g1, t1⟩ := add_spec good_empty.1 good_empty.2 (good_prim 6 c)
  obtain ⟨g2, t2⟩ := add_spec g1 t1 (good_prim 1 [if e.2.1 then 255 else 0])
  obtain ⟨g3, t3⟩ := add_spec g2 t2 (good_prim 4 e.2.2)
  refine ⟨_, ?_, g3, c, h2, t3⟩
  unfold extensionNode
  dsimp only
  rw [h1]
  rfl

theorem addAll_spec {α β : Type} {toDer : β → Except Err Node} {g : α → β} {R : α → Tree → Prop} :
    ∀ (xs : List α) (_ : ∀ x ∈ xs, ∃ n, toDer (g x) = .ok n ∧ Good n ∧ R x (treeOf n)) (p : Node) (ts : List Tree), Good p → treeOf p = .seq ts →
      ∃ n us, addAll toDer (xs.map g) p = .ok n ∧ Good n ∧ treeOf n = .seq (ts ++ us) ∧ List.Forall₂ R xs us := by
  intro xs
  induction xs with
  | nil => exact fun _ p ts hp ht => ⟨p, [], rfl, hp, by rw [List.append_nil]; exact ht, .nil⟩
  | cons x xs ih =>
    intro hx p ts hp ht
    obtain ⟨c, h1, h2, h3⟩ := hx x (List.mem_cons_self ..)
    obtain ⟨g1, t1⟩ := add_spec hp ht h2
    obtain ⟨n, us, h4, h5, h6, h7⟩ := ih (fun y hy => hx y (List.mem_cons_of_mem _ hy)) _ _ g1 t1
    refine ⟨n, treeOf c :: us, ?_, h5, by rw [h6, List.append_assoc]; rfl, .cons h3 h7⟩
    rw [List.map_cons]
    unfold addAll
    rw [h1]
    exact h4

theorem decode_subject {d : List Nat × Bytes} {n : Node} (hl : OidOk d.1) (ha : ∀ x ∈ d.2, x < 128) (h : IsDescription d (treeOf n)) :
    decodeSubject n = .ok (.oid (d.1.map Int.ofNat), d.2) := by
  obtain ⟨o, ho, ht⟩ := h
  obtain ⟨hd, size, ch, cs, rfl, hcs⟩ := of_seq ht
  obtain ⟨n1, ns, rfl, h1, hns⟩ := of_cons hcs
  obtain ⟨n2, ns, rfl, h2, _⟩ := of_cons hns
  obtain ⟨hd1, rfl⟩ := of_prim h1
  obtain ⟨hd2, rfl⟩ := of_prim h2
  have v1 : valAt (Node.leaf 6 hd1 o :: Node.leaf 19 hd2 d.2 :: ns) 0 = .ok (.str (dotted d.1)) := by
    show ((Node.leaf 6 hd1 o).toVal).mapError _ = _
    rw [oid_val hl ho]
    rfl
  unfold decodeSubject
  show (do
    let o ← valAt (Node.leaf 6 hd1 o :: Node.leaf 19 hd2 d.2 :: ns) 0
    let v ← (Except.ok (Val.str (d.2.map UInt8.toNat)) : Except Err Val)
    let o ← oidValue o
    let v ← blobOf v
    return (o, v)) = _
  rw [v1]
  show (do
    let o ← oidValue (.str (dotted d.1))
    return (o, (d.2.map UInt8.toNat).flatMap Protobuf.utf8Encode)) = _
  rw [oid_back hl, utf8_ascii _ ha]
  rfl

theorem decode_extension {e : List Nat × Bool × Bytes} {n : Node} (hl : OidOk e.1) (h : IsExtension e (treeOf n)) :
    decodeExtension n = .ok ⟨.oid (e.1.map Int.ofNat), .bool e.2.1, e.2.2⟩ := by
  obtain ⟨o, ho, ht⟩ := h
  obtain ⟨hd, size, ch, cs, rfl, hcs⟩ := of_seq ht
  obtain ⟨n1, ns, rfl, h1, hns⟩ := of_cons hcs
  obtain ⟨n2, ns, rfl, h2, hns⟩ := of_cons hns
  obtain ⟨n3, ns, rfl, h3, _⟩ := of_cons hns
  obtain ⟨hd1, rfl⟩ := of_prim h1
  obtain ⟨hd2, rfl⟩ := of_prim h2
  obtain ⟨hd3, rfl⟩ := of_prim h3
  obtain ⟨l, critical, value⟩ := e
  dsimp only at *
  have v1 : ∀ rest, valAt (Node.leaf 6 hd1 o :: rest) 0 = .ok (.str (dotted l)) := by
    intro rest
    show ((Node.leaf 6 hd1 o).toVal).mapError _ = _
    rw [oid_val hl ho]
    rfl
  have v2 : ∀ x rest, valAt (x :: Node.leaf 1 hd2 [if critical = true then 255 else 0] :: rest) 1 = .ok (.bool critical) := by
    intro x rest
    cases critical <;> rfl
  unfold decodeExtension
  show (do
    let ov ← valAt (Node.leaf 6 hd1 o :: Node.leaf 1 hd2 [if critical = true then 255 else 0] :: Node.leaf 4 hd3 value :: ns) 0
    let critical ← valAt (Node.leaf 6 hd1 o :: Node.leaf 1 hd2 [if critical = true then 255 else 0] :: Node.leaf 4 hd3 value :: ns) 1
    let v ← (Except.ok (Val.bytes value) : Except Err Val)
    let o ← oidValue ov
    let v ← blobOf v
    return Extension.mk o critical v) = _
  rw [v1, v2]
  show (do
    let o ← oidValue (.str (dotted l))
    return Extension.mk o (.bool critical) value) = _
  rw [oid_back hl]
  rfl

theorem decodeAll_spec {α β : Type} {f : Node → Except Err β} {g : α → β} {R : α → Tree → Prop} :
    ∀ (cs : List Node) (xs : List α) (_ : ∀ x ∈ xs, ∀ n, R x (treeOf n) → f n = .ok (g x)) (l : List β), List.Forall₂ R xs (treesOf cs) →
      decodeAll f cs l = (l ++ xs.map g, none) := by
  intro cs
  induction cs with
  | nil =>
    intro xs _ l h
    cases h
    simp [decodeAll]
  | cons n cs ih =>
    intro xs hx l h
    cases h with
    | @cons x _ xs _ h1 h2 =>
      unfold decodeAll
      rw [hx x (List.mem_cons_self ..) n h1]
      show decodeAll f cs (l ++ [g x]) = _
      rw [ih xs (fun y hy => hx y (List.mem_cons_of_mem _ hy)) _ h2, List.append_assoc]
      rfl

/-! ### The public key -/

theorem algorithm_spec {l : List Nat} {t : Tree} {b : Bytes} (hl : OidOk l) (hk : Known t) (hd : IsDer t b) (h : IsKeyOf l t) :
    algorithm b = .ok (.str (dotted l)) := by
  obtain ⟨n, h1, h2, _⟩ := parse_isDer hk hd [] []
  obtain ⟨o, rest, more, ho, rfl⟩ := h
  obtain ⟨hd, size, ch, cs, rfl, hcs⟩ := of_seq h2
  obtain ⟨n1, ns, rfl, h3, _⟩ := of_cons hcs
  obtain ⟨hd', size', ch', cs', rfl, hcs'⟩ := of_seq h3
  obtain ⟨n2, ns', rfl, h4, _⟩ := of_cons hcs'
  obtain ⟨hd2, rfl⟩ := of_prim h4
  have h1 : parse b = .ok (.seq hd size ch (.seq hd' size' ch' (.leaf 6 hd2 o :: ns') :: ns)) := by
    rw [List.append_nil] at h1
    exact h1
  unfold algorithm
  rw [h1]
  show (match (Node.leaf 6 hd2 o).toVal with
    | .ok v => Except.ok v
    | .error .decoding => .error Err.unrecognizedKey
    | .error e => .error (Err.der e)) = _
  rw [oid_val hl ho]

theorem key_ok {L : Lib} {t : Tree} {b : Bytes} (hk : Known t) (hd : IsDer t b) (h : IsKeyOf ec t ∨ IsKeyOf rsa t ∧ L.load b = true) :
    publicKeyError L b = none := by
  unfold publicKeyError
  rcases h with h | ⟨h, h1⟩
  · rw [algorithm_spec ⟨1, 2, _, rfl, by decide, by decide⟩ hk hd h]
    dsimp only
    rw [if_neg (by decide +kernel)]
    exact if_pos rfl
  · rw [algorithm_spec ⟨1, 2, _, rfl, by decide, by decide⟩ hk hd h]
    dsimp only
    exact (if_pos rfl).trans (if_pos h1)

end PyNDN.Certificate
