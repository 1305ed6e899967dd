import Verif.Lemmas.ChronoSync
import Verif.Lemmas.Decoder
/-
C60: the digest tree of ChronoSync.
-/
namespace PyNDN
namespace Chrono
open Spec.Chrono

/-- Updates in turn: prefix, session, number. -/
def updates (sha : Bytes → Bytes) (us : List (Text × Nat × Nat)) : Tree := us.foldl (fun t u => (t.update sha u.1 u.2.1 u.2.2).1) {}

/-- The number of a producer after updates: the greatest one. -/
def Greatest (us : List (Text × Nat × Nat)) (p : Producer) : Option Nat → Prop
  | none => ∀ u ∈ us, (u.1, u.2.1) ≠ p
  | some k => (p.1, p.2, k) ∈ us ∧ ∀ u ∈ us, (u.1, u.2.1) = p → u.2.2 ≤ k

theorem updates_holds (sha : Bytes → Bytes) (us : List (Text × Nat × Nat)) :
    Holds sha (updates sha us) (us.foldl (fun m u => m.raise (u.1, u.2.1) u.2.2) none') := by
  have : ∀ (us : List (Text × Nat × Nat)) t m, Holds sha t m →
      Holds sha (us.foldl (fun t u => (t.update sha u.1 u.2.1 u.2.2).1) t) (us.foldl (fun m u => m.raise (u.1, u.2.1) u.2.2) m) := by
    intro us
    induction us with
    | nil => intro t m h; exact h
    | cons u us ih => intro t m h; exact ih _ _ (update_holds h _ _ _).1
  exact this us _ _ (holds_empty sha)

theorem greatest_raise {us : List (Text × Nat × Nat)} {m : Numbers} (h : ∀ p, Greatest us p (m p)) (u : Text × Nat × Nat) (p : Producer) :
    Greatest (us ++ [u]) p (m.raise (u.1, u.2.1) u.2.2 p) := by
  have hp := h p
  unfold Numbers.raise
  by_cases hq : p = (u.1, u.2.1)
  · rw [if_pos hq, ← hq]
    cases hm : m p with
    | none =>
      rw [hm] at hp
      refine ⟨List.mem_append_right _ (by rw [hq]; exact List.mem_singleton.2 rfl), ?_⟩
      intro v hv he
      rcases List.mem_append.1 hv with hv | hv
      · exact absurd he (hp v hv)
      · rw [List.mem_singleton.1 hv]; exact Nat.le_refl _
    | some j =>
      rw [hm] at hp
      refine ⟨?_, ?_⟩
      · rcases Nat.le_total j u.2.2 with hj | hj
        · rw [show max j u.2.2 = u.2.2 by omega]
          exact List.mem_append_right _ (by rw [hq]; exact List.mem_singleton.2 rfl)
        · rw [show max j u.2.2 = j by omega]
          exact List.mem_append_left _ hp.1
      · intro v hv he
        rcases List.mem_append.1 hv with hv | hv
        · have := hp.2 v hv he; omega
        · rw [List.mem_singleton.1 hv]; omega
  · rw [if_neg hq]
    cases hm : m p with
    | none =>
      rw [hm] at hp
      intro v hv he
      rcases List.mem_append.1 hv with hv | hv
      · exact hp v hv he
      · rw [List.mem_singleton.1 hv] at he; exact hq he.symm
    | some j =>
      rw [hm] at hp
      refine ⟨List.mem_append_left _ hp.1, ?_⟩
      intro v hv he
      rcases List.mem_append.1 hv with hv | hv
      · exact hp.2 v hv he
      · rw [List.mem_singleton.1 hv] at he; exact absurd he.symm hq

theorem updates_greatest (us : List (Text × Nat × Nat)) (p : Producer) :
    Greatest us p (us.foldl (fun m u => m.raise (u.1, u.2.1) u.2.2) none' p) := by
  have : ∀ (us vs : List (Text × Nat × Nat)) (m : Numbers), (∀ p, Greatest vs p (m p)) →
      ∀ p, Greatest (vs ++ us) p (us.foldl (fun m u => m.raise (u.1, u.2.1) u.2.2) m p) := by
    intro us
    induction us with
    | nil => intro vs m h p; rw [List.append_nil]; exact h p
    | cons u us ih =>
      intro vs m h p
      have := ih (vs ++ [u]) _ (greatest_raise h u) p
      rw [List.append_assoc] at this
      exact this
  have := this us [] none' (fun p u hu => nomatch hu) p
  rwa [List.nil_append] at this

/-- After any updates the nodes are in the order of prefix and session, there is exactly one for each producer that was
updated, it has the greatest number, and the root is the digest of that list.  An update tells whether its number was greater
than all before. -/
theorem C60_tree (sha : Bytes → Bytes) (us : List (Text × Nat × Nat)) :
    let t := updates sha us
    (t.nodes.map Node.pair).Pairwise (fun a b => Before a.1 b.1) ∧
    (∀ p k, (p, k) ∈ t.nodes.map Node.pair ↔ Greatest us p (some k)) ∧
    t.root = digestAll sha (t.nodes.map Node.pair) ∧
    ∀ p s k, (t.update sha p s k).2 = true ↔ ∀ u ∈ us, (u.1, u.2.1) = (p, s) → u.2.2 < k := by
  intro t
  have h := updates_holds sha us
  have hg := updates_greatest us
  generalize us.foldl (fun m u => m.raise (u.1, u.2.1) u.2.2) none' = m at h hg
  have key : ∀ p k, m p = some k ↔ Greatest us p (some k) := by
    intro p k
    constructor
    · intro hm; rw [← hm]; exact hg p
    · rintro ⟨h1, h2⟩
      have := hg p
      cases hm : m p with
      | none => rw [hm] at this; exact absurd rfl (this _ h1)
      | some j =>
        rw [hm] at this
        have a1 := h2 _ this.1 rfl
        have a2 := this.2 _ h1 rfl
        dsimp only at a1 a2
        congr 1
        omega
  refine ⟨h.listing.1, fun p k => by rw [h.listing.2, key], h.rootEq, ?_⟩
  intro p s k
  rw [(update_holds h p s k).2.1]
  constructor
  · intro hx u hu he
    have := hg (p, s)
    cases hm : m (p, s) with
    | none => rw [hm] at this; exact absurd he (this u hu)
    | some j =>
      rw [hm] at this
      have a1 := this.2 u hu he
      have a2 := hx j hm
      omega
  · intro hx j hj
    exact hx _ ((key _ _).1 hj).1 rfl

/-- The tree, and with it the root, does not depend on the order of the updates, or on repeated and outdated ones: only on the
greatest number of each producer. -/
theorem C60_order (sha : Bytes → Bytes) (us vs : List (Text × Nat × Nat)) (h : ∀ p k, Greatest us p (some k) ↔ Greatest vs p (some k)) :
    updates sha us = updates sha vs := by
  have key : ∀ (us : List (Text × Nat × Nat)) p k, us.foldl (fun m u => m.raise (u.1, u.2.1) u.2.2) none' p = some k ↔ Greatest us p (some k) := by
    intro us p k
    rw [← (C60_tree sha us).2.1, (updates_holds sha us).listing.2]
  refine (updates_holds sha us).same (m := us.foldl (fun m u => m.raise (u.1, u.2.1) u.2.2) none') ?_
  have e : us.foldl (fun m u => m.raise (u.1, u.2.1) u.2.2) none' = vs.foldl (fun m u => m.raise (u.1, u.2.1) u.2.2) none' := by
    funext p
    refine Option.ext fun k => ?_
    rw [key, key, h]
  rw [e]
  exact updates_holds sha vs

/-! ### Different trees have different roots -/

theorem toHex_inj {a b : Bytes} (h : toHex a = toHex b) : a = b := by
  have h1 := fromHex_toHex a
  rw [h, fromHex_toHex] at h1
  cases h1
  rfl

theorem toHex_length (a : Bytes) : (toHex a).length = 2 * a.length := by
  unfold toHex
  induction a with
  | nil => rfl
  | cons x a ih => rw [List.flatMap_cons, List.length_append, ih]; simp [hex2]; omega

theorem char_scalar (c : Char) : Spec.Scalar c.toNat := by
  have := c.valid
  unfold Spec.Scalar
  rcases this with h | ⟨h1, h2⟩
  · exact .inl h
  · exact .inr ⟨by show 0xe000 ≤ c.val.toNat; omega, h2⟩

theorem encodeUtf8_eq (s : Text) : encodeUtf8 s = (s.map Char.toNat).flatMap Spec.utf8 := by
  unfold encodeUtf8
  rw [List.flatMap_map]
  rfl

theorem encodeUtf8_inj {s t : Text} (h : encodeUtf8 s = encodeUtf8 t) : s = t := by
  have key : ∀ s : Text, utf8Decode (encodeUtf8 s) = .ok (s.map Char.toNat) := by
    intro s
    rw [encodeUtf8_eq]
    refine utf8Decode_text _ ?_
    intro c hc
    obtain ⟨d, _, rfl⟩ := List.mem_map.1 hc
    exact char_scalar d
  have h1 := key s
  rw [h, key t] at h1
  have h2 := (Except.ok.inj h1).symm
  clear h1 h key
  induction s generalizing t with
  | nil => cases t with
    | nil => rfl
    | cons b t => exact nomatch h2
  | cons a s ih => cases t with
    | nil => exact nomatch h2
    | cons b t =>
      rw [List.map_cons, List.map_cons, List.cons.injEq] at h2
      rw [char_eq h2.1, ih h2.2]

theorem int32_length (n : Nat) : (int32ToLittleEndian n).length = 4 := rfl

theorem int32_inj {a b : Nat} (ha : a < 2 ^ 32) (hb : b < 2 ^ 32) (h : int32ToLittleEndian a = int32ToLittleEndian b) : a = b := by
  unfold int32ToLittleEndian at h
  simp only [List.cons.injEq, and_true] at h
  obtain ⟨h1, h2, h3, h4⟩ := h
  have e1 := congrArg UInt8.toNat h1
  have e2 := congrArg UInt8.toNat h2
  have e3 := congrArg UInt8.toNat h3
  have e4 := congrArg UInt8.toNat h4
  rw [byteAtShift_toNat, byteAtShift_toNat] at e1 e2 e3 e4
  simp only [Nat.reducePow] at e1 e2 e3 e4 ha hb
  omega

theorem blocks_inj {α : Type} {f : α → Bytes} (hf : ∀ x, (f x).length = 32) : ∀ {l l' : List α}, l.flatMap f = l'.flatMap f → l.map f = l'.map f
  | [], [], _ => rfl
  | [], y :: l', h => by
    have := congrArg List.length h
    rw [List.flatMap_cons, List.length_append, hf] at this
    simp at this
    omega
  | x :: l, [], h => by
    have := congrArg List.length h
    rw [List.flatMap_cons, List.length_append, hf] at this
    simp at this
  | x :: l, y :: l', h => by
    rw [List.flatMap_cons, List.flatMap_cons] at h
    obtain ⟨h1, h2⟩ := List.append_inj h (by rw [hf, hf])
    rw [List.map_cons, List.map_cons, h1, blocks_inj hf h2]

theorem mem_hashed {sha : Bytes → Bytes} {l : List (Producer × Nat)} {x : Producer × Nat} (hx : x ∈ l) :
    encodeUtf8 x.1.1 ∈ hashed sha l ∧ int32ToLittleEndian x.1.2 ++ int32ToLittleEndian x.2 ∈ hashed sha l ∧
    sha (encodeUtf8 x.1.1) ++ sha (int32ToLittleEndian x.1.2 ++ int32ToLittleEndian x.2) ∈ hashed sha l := by
  unfold hashed
  refine ⟨List.mem_append_left _ (List.mem_flatMap.2 ⟨x, hx, ?_⟩), List.mem_append_left _ (List.mem_flatMap.2 ⟨x, hx, ?_⟩),
    List.mem_append_left _ (List.mem_flatMap.2 ⟨x, hx, ?_⟩)⟩ <;> simp

theorem digest_inj {sha : Bytes → Bytes} (h32 : ∀ b, (sha b).length = 32) {l l' : List (Producer × Nat)}
    (hc : NoCollision sha (hashed sha l ++ hashed sha l')) (hs : Small l) (hs' : Small l') (h : digestAll sha l = digestAll sha l') : l = l' := by
  unfold digestAll at h
  by_cases hl : l = []
  · by_cases hl' : l' = []
    · rw [hl, hl']
    · rw [if_pos hl, if_neg hl'] at h
      have := congrArg List.length h
      rw [toHex_length, h32] at this
      simp at this
  · by_cases hl' : l' = []
    · rw [if_neg hl, if_pos hl'] at h
      have := congrArg List.length h
      rw [toHex_length, h32] at this
      simp at this
    · rw [if_neg hl, if_neg hl'] at h
      have h1 := hc _ (List.mem_append_left _ (List.mem_append_right _ (List.mem_singleton.2 rfl))) _
        (List.mem_append_right _ (List.mem_append_right _ (List.mem_singleton.2 rfl))) (toHex_inj h)
      have h2 := blocks_inj (fun x => h32 _) h1
      have key : ∀ (a b : List (Producer × Nat)), (∀ x ∈ a, x ∈ l) → (∀ x ∈ b, x ∈ l') → a.map (digestOne sha) = b.map (digestOne sha) → a = b := by
        intro a
        induction a with
        | nil =>
          intro b _ _ hab
          cases b with
          | nil => rfl
          | cons y b => exact nomatch hab
        | cons x a ih =>
          intro b ha hb hab
          cases b with
          | nil => exact nomatch hab
          | cons y b =>
            rw [List.map_cons, List.map_cons, List.cons.injEq] at hab
            rw [ih b (fun z hz => ha z (List.mem_cons_of_mem _ hz)) (fun z hz => hb z (List.mem_cons_of_mem _ hz)) hab.2]
            congr 1
            have hx := ha x (List.mem_cons_self ..)
            have hy := hb y (List.mem_cons_self ..)
            obtain ⟨a1, a2, a3⟩ := mem_hashed (sha := sha) hx
            obtain ⟨b1, b2, b3⟩ := mem_hashed (sha := sha) hy
            have e1 := hc _ (List.mem_append_left _ a3) _ (List.mem_append_right _ b3) hab.1
            obtain ⟨e2, e3⟩ := List.append_inj e1 (by rw [h32, h32])
            have e4 := encodeUtf8_inj (hc _ (List.mem_append_left _ a1) _ (List.mem_append_right _ b1) e2)
            have e5 := hc _ (List.mem_append_left _ a2) _ (List.mem_append_right _ b2) e3
            obtain ⟨e6, e7⟩ := List.append_inj e5 rfl
            obtain ⟨s1, s2⟩ := hs x hx
            obtain ⟨s3, s4⟩ := hs' y hy
            exact Prod.ext (Prod.ext e4 (int32_inj s1 s3 e6)) (int32_inj s2 s4 e7)
      exact key l l' (fun _ h => h) (fun _ h => h) h2

/-- If the hash has no collision among what was hashed for two trees, and sessions and numbers have 32 bits, equal roots
mean equal trees: the same producers with the same numbers. -/
theorem C60_differ (sha : Bytes → Bytes) (h32 : ∀ b, (sha b).length = 32) (us vs : List (Text × Nat × Nat))
    (hc : NoCollision sha (hashed sha ((updates sha us).nodes.map Node.pair) ++ hashed sha ((updates sha vs).nodes.map Node.pair)))
    (hs : ∀ u ∈ us ++ vs, u.2.1 < 2 ^ 32 ∧ u.2.2 < 2 ^ 32) (h : (updates sha us).root = (updates sha vs).root) :
    ∀ p k, Greatest us p (some k) ↔ Greatest vs p (some k) := by
  have small : ∀ (ws : List (Text × Nat × Nat)), (∀ u ∈ ws, u.2.1 < 2 ^ 32 ∧ u.2.2 < 2 ^ 32) → Small ((updates sha ws).nodes.map Node.pair) := by
    rintro ws hw ⟨p, k⟩ hx
    exact hw _ (((C60_tree sha ws).2.1 p k).1 hx).1
  rw [(C60_tree sha us).2.2.1, (C60_tree sha vs).2.2.1] at h
  have e := digest_inj h32 hc (small us fun u hu => hs u (List.mem_append_left _ hu)) (small vs fun u hu => hs u (List.mem_append_right _ hu)) h
  intro p k
  rw [← (C60_tree sha us).2.1, ← (C60_tree sha vs).2.1, e]

/-- Only 32 bits of the numbers are digested: a user who jumps ahead by 2^32 leaves the root as it was, whatever the hash. -/
theorem C60_wraps (sha : Bytes → Bytes) (p : Text) (s k : Nat) :
    (updates sha [(p, s, k)]).root = (updates sha [(p, s, k), (p, s, k + 2 ^ 32)]).root := by
  have hb : int32ToLittleEndian (k + 2 ^ 32) = int32ToLittleEndian k := by
    unfold int32ToLittleEndian
    have e : ∀ j, (k + 2 ^ 32) / 2 ^ j % 256 = k / 2 ^ j % 256 → byteAtShift (k + 2 ^ 32) j = byteAtShift k j := by
      intro j hj
      apply UInt8.toNat_inj.1
      rw [byteAtShift_toNat, byteAtShift_toNat, hj]
    rw [e 0 (by simp only [Nat.reducePow]; omega), e 8 (by simp only [Nat.reducePow]; omega), e 16 (by simp only [Nat.reducePow]; omega),
      e 24 (by simp only [Nat.reducePow]; omega)]
  rw [(C60_tree sha _).2.2.1, (C60_tree sha [(p, s, k), (p, s, k + 2 ^ 32)]).2.2.1]
  have h1 : (updates sha [(p, s, k)]).nodes = [mkNode sha p s k] := rfl
  have h2 : (updates sha [(p, s, k), (p, s, k + 2 ^ 32)]).nodes = [mkNode sha p s (k + 2 ^ 32)] := by
    show (Tree.update sha ⟨[mkNode sha p s k], _⟩ p s (k + 2 ^ 32)).1.nodes = _
    unfold Tree.update Tree.find
    simp [mkNode, Node.setSequenceNo, List.findIdx?_cons]
  rw [h1, h2]
  unfold digestAll
  rw [if_neg (by simp), if_neg (by simp)]
  congr 2
  show digestOne sha ((p, s), k) ++ [] = digestOne sha ((p, s), k + 2 ^ 32) ++ []
  unfold digestOne
  dsimp only
  rw [hb]

/-- A hash for the examples. -/
def exSha (b : Bytes) : Bytes := List.replicate 28 0 ++ int32ToLittleEndian (b.foldl (fun h x => 31 * h + x.toNat + 1) 0)

/-- The hypotheses of C60_differ are met: a hash of 32 bytes that has no collision among what these two trees hash. -/
example : let sha := exSha
    let us : List (Text × Nat × Nat) := [(['b'], 0, 1), (['a'], 0, 3), (['b'], 0, 0)]
    let vs : List (Text × Nat × Nat) := [(['a'], 0, 3)]
    (∀ b, (sha b).length = 32) ∧
    NoCollision sha (hashed sha ((updates sha us).nodes.map Node.pair) ++ hashed sha ((updates sha vs).nodes.map Node.pair)) ∧
    (∀ u ∈ us ++ vs, u.2.1 < 2 ^ 32 ∧ u.2.2 < 2 ^ 32) ∧ (updates sha us).nodes.map Node.pair = [((['a'], 0), 3), ((['b'], 0), 1)] ∧
    (updates sha us).root ≠ (updates sha vs).root := by
  intro sha us vs
  refine ⟨fun b => rfl, ?_, by decide, by decide +kernel, by decide +kernel⟩
  unfold NoCollision
  decide +kernel

end Chrono
end PyNDN
