import Verif.Props.Der
import Verif.Lemmas.NacSystem
import Verif.Spec.PrivateKey
/-
Lemmas about nodes by their tree, for the private keys.
-/
namespace PyNDN.PrivateKey
open Der Spec.Der

theorem children_of {n : Node} {items : List Tree} (ht : treeOf n = .seq items) (hg : Good n) :
    ∃ cs, n.getChildren = .ok cs ∧ treesOf cs = items ∧ Goods cs := by
  cases n with
  | leaf => cases ht
  | seq h s c cs =>
    cases ht
    exact ⟨cs, rfl, rfl, hg.2⟩

theorem nth_of {cs : List Node} {items : List Tree} (ht : treesOf cs = items) (hg : Goods cs) {i : Nat} {t : Tree} (hi : items[i]? = some t) :
    ∃ n, nth cs i = .ok n ∧ treeOf n = t ∧ Good n := by
  subst ht
  rw [trees_get] at hi
  rcases e : cs[i]? with _ | n
  · rw [e] at hi; cases hi
  · rw [e] at hi
    cases hi
    exact ⟨n, by unfold nth; rw [e], rfl, goods_get hg e⟩

theorem sequence_of {cs : List Node} {items : List Tree} (ht : treesOf cs = items) (hg : Goods cs) {i : Nat} {its : List Tree}
    (hi : items[i]? = some (.seq its)) : ∃ n, getSequence cs i = .ok n ∧ treeOf n = .seq its ∧ Good n := by
  subst ht
  rw [trees_get] at hi
  rcases e : cs[i]? with _ | n
  · rw [e] at hi; cases hi
  · rw [e] at hi
    have h1 := goods_get hg e
    cases n with
    | leaf => cases hi
    | seq h s c ns =>
      cases hi
      exact ⟨.seq h s c ns, by unfold getSequence; rw [e], rfl, h1⟩

theorem toVal_of {n : Node} {tag : UInt8} {c : Bytes} (ht : treeOf n = .prim tag c) (hg : Good n) : n.toVal = (prim tag c).toVal :=
  toVal_tree hg (good_prim tag c) ht

theorem toVal_oid {n : Node} {c : Bytes} {a b : Nat} {rest : List Nat} (ht : treeOf n = .prim 6 c) (hg : Good n) (hc : IsOid (a :: b :: rest) c)
    (hb : b < 40) : n.toVal = .ok (.str (dotted (a :: b :: rest))) := by
  rw [toVal_of ht hg]
  show (oidString c).map Val.str = _
  rw [oidString_spec hc (fun a' b' r' e => by cases e; exact hb)]
  rfl

theorem toVal_octets {n : Node} {c : Bytes} (ht : treeOf n = .prim 4 c) (hg : Good n) : n.toVal = .ok (.bytes c) := by
  rw [toVal_of ht hg]
  rfl

theorem toVal_integer {n : Node} {c : Bytes} {i : Nat} (ht : treeOf n = .prim 2 c) (hg : Good n) (hc : IsInteger i c) : n.toVal = .ok (.int i) := by
  rw [toVal_of ht hg]
  obtain ⟨h1, b, r, h2, h3, _⟩ := hc
  show (if (c.headD 0).toNat ≥ 0x80 then Except.error Der.Err.decoding else .ok (Val.int (fromBe c))) = _
  rw [if_neg (by rw [h2]; show ¬ b.toNat ≥ 128; omega), fromBe_number, h1]

theorem dotted_inj {a b : List Nat} (ha : a ≠ []) (hb : b ≠ []) (h : dotted a = dotted b) : a = b := by
  rw [dotted_eq, dotted_eq] at h
  have e := congrArg oidOfString h
  rw [C71_oid_string _ (by simpa using ha), C71_oid_string _ (by simpa using hb)] at e
  injection e with e
  exact (List.map_inj_right (fun x y h => Int.ofNat.inj h)).mp e

theorem parse_of {t : Tree} {b : Bytes} (hk : Known t) (hd : IsDer t b) : ∃ n, parse b = .ok n ∧ treeOf n = t ∧ Good n := by
  obtain ⟨n, h1, h2⟩ := parse_isDer hk hd [] []
  rw [List.nil_append, List.append_nil] at h1
  exact ⟨n, h1, h2⟩

/-! ### Sizes -/

mutual
def TagsOk : Tree → Prop
  | .prim tag _ => tag ∈ tags
  | .seq items => TagsOks items
def TagsOks : List Tree → Prop
  | [] => True
  | t :: ts => TagsOk t ∧ TagsOks ts
end

mutual
theorem known_of : (t : Tree) → TagsOk t → (der t).length < 256 ^ 126 → Known t
  | .prim tag c, h, hl => ⟨h, by rw [der, List.length_append] at hl; omega⟩
  | .seq items, h, hl => by
    rw [der, List.length_append] at hl
    have h1 := knowns_of items h (by omega)
    exact ⟨h1, fun b hb => by rw [ders_unique items h1 b hb]; omega⟩
theorem knowns_of : (ts : List Tree) → TagsOks ts → (ders ts).length < 256 ^ 126 → Knowns ts
  | [], _, _ => trivial
  | t :: ts, h, hl => by
    rw [ders, List.length_append] at hl
    exact ⟨known_of t h.1 (by omega), knowns_of ts h.2 (by omega)⟩
end

theorem header_le (t : UInt8) (n : Nat) : (header t n).length ≤ n + 2 := by
  unfold header
  split
  · simp
  · have h := beBytes_length n n (Nat.lt_pow_self (by omega))
    simp only [List.length_cons]
    omega

theorem prim_le (tag : UInt8) (c : Bytes) : (der (.prim tag c)).length ≤ 2 * c.length + 2 := by
  have h := header_le tag c.length
  rw [der, List.length_append]
  omega

theorem seq_le (items : List Tree) : (der (.seq items)).length ≤ 2 * (ders items).length + 2 := by
  have h := header_le 48 (ders items).length
  rw [der, List.length_append]
  omega

theorem ders_cons (t : Tree) (ts : List Tree) : (ders (t :: ts)).length = (der t).length + (ders ts).length := by
  rw [ders, List.length_append]

theorem ders_nil : (ders []).length = 0 := rfl

end PyNDN.PrivateKey
