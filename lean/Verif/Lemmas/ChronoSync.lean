import Verif.Spec.ChronoSync
import Verif.Lemmas.NameUri
import Verif.Lemmas.Utf8
/-
Lemmas about the digest tree.
-/
namespace PyNDN
namespace Chrono
open Spec.Chrono

/-! ### The order -/

theorem textLess_irrefl : ∀ s : Text, textLess s s = false
  | [] => rfl
  | a :: s => by
    unfold textLess
    rw [if_neg (Nat.lt_irrefl _), if_neg (Nat.lt_irrefl _)]
    exact textLess_irrefl s

theorem textLess_trans : ∀ {s t u : Text}, textLess s t = true → textLess t u = true → textLess s u = true
  | _, [], _, h, _ => by unfold textLess at h; exact nomatch h
  | _, _ :: _, [], _, h => by unfold textLess at h; exact nomatch h
  | [], _ :: _, _ :: _, _, _ => rfl
  | a :: s, b :: t, c :: u, h, h' => by
    unfold textLess at h h' ⊢
    by_cases h1 : a.toNat < b.toNat
    · by_cases h2 : b.toNat < c.toNat
      · rw [if_pos (by omega)]
      · rw [if_neg h2] at h'
        by_cases h3 : c.toNat < b.toNat
        · rw [if_pos h3] at h'; exact nomatch h'
        · rw [if_pos (by omega)]
    · rw [if_neg h1] at h
      by_cases h2 : b.toNat < a.toNat
      · rw [if_pos h2] at h; exact nomatch h
      · rw [if_neg h2] at h
        by_cases h3 : b.toNat < c.toNat
        · rw [if_pos (by omega)]
        · rw [if_neg h3] at h'
          by_cases h4 : c.toNat < b.toNat
          · rw [if_pos h4] at h'; exact nomatch h'
          · rw [if_neg h4] at h'
            rw [if_neg (by omega), if_neg (by omega)]
            exact textLess_trans h h'

theorem char_eq {a b : Char} (h : a.toNat = b.toNat) : a = b := Char.ext (UInt32.toNat_inj.1 h)

theorem textLess_total : ∀ {s t : Text}, textLess s t = false → textLess t s = false → s = t
  | [], [], _, _ => rfl
  | [], _ :: _, h, _ => by unfold textLess at h; exact nomatch h
  | _ :: _, [], _, h => by unfold textLess at h; exact nomatch h
  | a :: s, b :: t, h, h' => by
    unfold textLess at h h'
    by_cases h1 : a.toNat < b.toNat
    · rw [if_pos h1] at h; exact nomatch h
    · rw [if_neg h1] at h
      by_cases h2 : b.toNat < a.toNat
      · rw [if_pos h2] at h'; exact nomatch h'
      · rw [if_neg h2] at h h'
        rw [if_neg h1] at h'
        rw [char_eq (by omega : a.toNat = b.toNat), textLess_total h h']

theorem before_irrefl (p : Producer) : ¬ Before p p := by
  rintro (h | h)
  · rw [textLess_irrefl] at h; exact nomatch h
  · exact Nat.lt_irrefl _ h.2

theorem before_trans {p q r : Producer} (h : Before p q) (h' : Before q r) : Before p r := by
  rcases h with h | ⟨h1, h2⟩ <;> rcases h' with h' | ⟨h3, h4⟩
  · exact .inl (textLess_trans h h')
  · exact .inl (h3 ▸ h)
  · exact .inl (h1 ▸ h')
  · exact .inr ⟨h1.trans h3, by omega⟩

theorem before_total {p q : Producer} (h : ¬ Before p q) (h' : ¬ Before q p) : p = q := by
  have h1 : p.1 = q.1 := textLess_total (by simpa using fun hx => h (.inl hx)) (by simpa using fun hx => h' (.inl hx))
  have h2 : ¬ p.2 < q.2 := fun hx => h (.inr ⟨h1, hx⟩)
  have h3 : ¬ q.2 < p.2 := fun hx => h' (.inr ⟨h1.symm, hx⟩)
  exact Prod.ext h1 (by omega)

/-- The producer of a node, and the node as a pair. -/
def Node.producer (n : Node) : Producer := (n.dataPrefix, n.sessionNo)
def Node.pair (n : Node) : Producer × Nat := (n.producer, n.sequenceNo)

theorem lessThan_iff (n m : Node) : n.lessThan m = true ↔ Before n.producer m.producer := by
  unfold Node.lessThan Before Node.producer
  dsimp only
  by_cases h1 : textLess n.dataPrefix m.dataPrefix = true
  · rw [if_pos h1]; simp [h1]
  · rw [if_neg h1]
    by_cases h2 : textLess m.dataPrefix n.dataPrefix = true
    · rw [if_pos h2]
      refine ⟨fun h => (nomatch h), ?_⟩
      rintro (h | ⟨h, _⟩)
      · exact absurd h h1
      · rw [h, textLess_irrefl] at h2; exact nomatch h2
    · rw [if_neg h2]
      have := textLess_total (by simpa using h1) (by simpa using h2)
      simp [textLess_irrefl, this]

/-! ### The tree and its numbers -/

/-- The tree has these numbers. -/
structure Holds (sha : Bytes → Bytes) (t : Tree) (m : Numbers) : Prop where
  sorted : t.nodes.Pairwise fun a b => Before a.producer b.producer
  digests : ∀ n ∈ t.nodes, n.digest = nodeDigest sha n.dataPrefix n.sessionNo n.sequenceNo
  numbers : ∀ p k, (∃ n ∈ t.nodes, n.producer = p ∧ n.sequenceNo = k) ↔ m p = some k
  root : t.root = if t.nodes = [] then ['0', '0'] else recomputeRoot sha t.nodes

theorem holds_empty (sha : Bytes → Bytes) : Holds sha {} none' :=
  ⟨List.Pairwise.nil, nofun, fun _ _ => ⟨fun ⟨_, h, _⟩ => (nomatch h), fun h => (nomatch h)⟩, rfl⟩

theorem insertSorted_mem (x n : Node) : ∀ l, n ∈ insertSorted x l ↔ n = x ∨ n ∈ l
  | [] => by simp [insertSorted]
  | y :: l => by
    unfold insertSorted
    split
    · rw [List.mem_cons, insertSorted_mem x n l, List.mem_cons]
      exact ⟨fun h => by rcases h with h | h | h <;> simp [h], fun h => by rcases h with h | h | h <;> simp [h]⟩
    · rw [List.mem_cons]

theorem insertSorted_sorted (x : Node) : ∀ l : List Node, l.Pairwise (fun a b => Before a.producer b.producer) → (∀ n ∈ l, n.producer ≠ x.producer) →
    (insertSorted x l).Pairwise fun a b => Before a.producer b.producer
  | [], _, _ => List.pairwise_singleton _ _
  | y :: l, h, hx => by
    rw [List.pairwise_cons] at h
    unfold insertSorted
    by_cases hl : y.lessThan x = true
    · rw [if_pos hl, List.pairwise_cons]
      refine ⟨?_, insertSorted_sorted x l h.2 fun n hn => hx n (List.mem_cons_of_mem _ hn)⟩
      intro n hn
      rcases (insertSorted_mem x n l).1 hn with rfl | hn
      · exact (lessThan_iff _ _).1 hl
      · exact h.1 n hn
    · rw [if_neg hl, List.pairwise_cons, List.pairwise_cons]
      have hxy : Before x.producer y.producer := by
        have h1 : ¬ Before y.producer x.producer := fun hb => hl ((lessThan_iff _ _).2 hb)
        by_cases h2 : Before x.producer y.producer
        · exact h2
        · exact absurd (before_total h1 h2) (hx y (List.mem_cons_self ..))
      refine ⟨?_, h.1, h.2⟩
      intro n hn
      rcases List.mem_cons.1 hn with rfl | hn
      · exact hxy
      · exact before_trans hxy (h.1 n hn)

theorem insertSorted_ne_nil (x : Node) (l : List Node) : insertSorted x l ≠ [] := by
  cases l with
  | nil => exact nofun
  | cons y l =>
    unfold insertSorted
    split <;> exact nofun

/-- A node is determined by its producer. -/
theorem Holds.unique {sha : Bytes → Bytes} {t : Tree} {m : Numbers} (h : Holds sha t m) {a b : Node} (ha : a ∈ t.nodes) (hb : b ∈ t.nodes)
    (hp : a.producer = b.producer) : a = b := by
  have h1 := (h.numbers a.producer a.sequenceNo).1 ⟨a, ha, rfl, rfl⟩
  have h2 := (h.numbers b.producer b.sequenceNo).1 ⟨b, hb, rfl, rfl⟩
  rw [hp, h2] at h1
  cases a; cases b
  simp only [Node.producer, Prod.mk.injEq, Option.some.injEq] at hp h1
  have hd1 := h.digests _ ha
  have hd2 := h.digests _ hb
  dsimp only at hd1 hd2
  simp only [Node.mk.injEq]
  exact ⟨hp.1, hp.2, h1.symm, by rw [hd1, hd2, hp.1, hp.2, h1]⟩

theorem Holds.find_none {sha : Bytes → Bytes} {t : Tree} {m : Numbers} (h : Holds sha t m) (p : Text) (s : Nat) :
    t.find p s = none ↔ m (p, s) = none := by
  unfold Tree.find
  rw [List.findIdx?_eq_none_iff]
  constructor
  · intro hn
    cases hm : m (p, s) with
    | none => rfl
    | some k =>
      obtain ⟨n, h1, h2, _⟩ := (h.numbers _ _).2 hm
      have := hn n h1
      simp only [Node.producer, Prod.mk.injEq] at h2
      simp [h2.1, h2.2] at this
  · intro hm n hn
    by_cases hp : n.dataPrefix = p ∧ n.sessionNo = s
    · have := (h.numbers (p, s) n.sequenceNo).1 ⟨n, hn, Prod.ext hp.1 hp.2, rfl⟩
      rw [hm] at this; exact nomatch this
    · simpa using hp

theorem Holds.find_some {sha : Bytes → Bytes} {t : Tree} {m : Numbers} (h : Holds sha t m) {p : Text} {s i : Nat} (hf : t.find p s = some i) :
    ∃ n, t.nodes[i]? = some n ∧ n.producer = (p, s) ∧ m (p, s) = some n.sequenceNo := by
  unfold Tree.find at hf
  rw [List.findIdx?_eq_some_iff_getElem] at hf
  obtain ⟨hi, h1, _⟩ := hf
  have h1' := of_decide_eq_true h1
  have hp : t.nodes[i].producer = (p, s) := Prod.ext h1'.1 h1'.2
  exact ⟨t.nodes[i], List.getElem?_eq_getElem hi, hp, (h.numbers _ _).1 ⟨_, List.getElem_mem hi, hp, rfl⟩⟩

theorem raise_same {m : Numbers} {p : Producer} {k j : Nat} (h : m p = some j) (hk : k ≤ j) : m.raise p k = m := by
  funext q
  unfold Numbers.raise
  by_cases hq : q = p
  · rw [if_pos hq, hq, h]; dsimp only; congr 1; omega
  · rw [if_neg hq]

theorem pairwise_set {α : Type} {R : α → α → Prop} {f : α → Producer} (hR : ∀ a b, R a b ↔ Before (f a) (f b)) : ∀ (l : List α) (i : Nat) (x y : α),
    l[i]? = some x → f y = f x → l.Pairwise R → (l.set i y).Pairwise R
  | [], _, _, _, h, _, _ => nomatch h
  | z :: l, 0, x, y, h, hf, hp => by
    cases h
    rw [List.set_cons_zero]
    rw [List.pairwise_cons] at hp ⊢
    refine ⟨fun a ha => ?_, hp.2⟩
    have := hp.1 a ha
    rw [hR] at this ⊢
    rw [hf]; exact this
  | z :: l, i + 1, x, y, h, hf, hp => by
    rw [List.set_cons_succ]
    rw [List.pairwise_cons] at hp ⊢
    refine ⟨fun a ha => ?_, pairwise_set hR l i x y h hf hp.2⟩
    rcases List.mem_or_eq_of_mem_set ha with ha | rfl
    · exact hp.1 a ha
    · have := hp.1 x (List.mem_of_getElem? h)
      rw [hR] at this ⊢
      rw [hf]; exact this

/-- `update` raises one number, and tells whether anything changed. -/
theorem update_holds {sha : Bytes → Bytes} {t : Tree} {m : Numbers} (h : Holds sha t m) (p : Text) (s k : Nat) :
    Holds sha (t.update sha p s k).1 (m.raise (p, s) k) ∧
    ((t.update sha p s k).2 = true ↔ ∀ j, m (p, s) = some j → j < k) ∧
    ((t.update sha p s k).2 = false → (t.update sha p s k).1 = t) := by
  unfold Tree.update
  cases hf : t.find p s with
  | none =>
    have hm := (h.find_none p s).1 hf
    dsimp only
    refine ⟨⟨?_, ?_, ?_, ?_⟩, ⟨fun _ j hj => (by rw [hm] at hj; exact nomatch hj), fun _ => rfl⟩, fun hx => (nomatch hx)⟩
    · refine insertSorted_sorted _ _ h.sorted ?_
      intro n hn hp
      have := (h.numbers n.producer n.sequenceNo).1 ⟨n, hn, rfl, rfl⟩
      rw [hp] at this
      have hm' : m (mkNode sha p s k).producer = none := hm
      rw [hm'] at this; exact nomatch this
    · intro n hn
      rcases (insertSorted_mem _ _ _).1 hn with rfl | hn
      · rfl
      · exact h.digests n hn
    · intro q j
      unfold Numbers.raise
      by_cases hq : q = (p, s)
      · rw [if_pos hq, hm]
        constructor
        · rintro ⟨n, h1, h2, h3⟩
          rcases (insertSorted_mem _ _ _).1 h1 with rfl | h1
          · rw [← h3]; rfl
          · have := (h.numbers q n.sequenceNo).1 ⟨n, h1, h2, rfl⟩
            rw [hq, hm] at this; exact nomatch this
        · rintro ⟨⟩
          exact ⟨mkNode sha p s k, (insertSorted_mem _ _ _).2 (.inl rfl), hq.symm, rfl⟩
      · rw [if_neg hq, ← h.numbers]
        constructor
        · rintro ⟨n, h1, h2, h3⟩
          rcases (insertSorted_mem _ _ _).1 h1 with rfl | h1
          · exact absurd h2.symm hq
          · exact ⟨n, h1, h2, h3⟩
        · rintro ⟨n, h1, h2, h3⟩
          exact ⟨n, (insertSorted_mem _ _ _).2 (.inr h1), h2, h3⟩
    · rw [if_neg (insertSorted_ne_nil _ _)]
  | some i =>
    obtain ⟨n, hn, hp, hm⟩ := h.find_some hf
    dsimp only
    rw [hn]
    dsimp only
    by_cases hlt : n.sequenceNo < k
    · rw [if_pos hlt]
      have hne : t.nodes.set i (n.setSequenceNo sha k) ≠ [] := by
        intro he
        have := congrArg List.length he
        rw [List.length_set] at this
        obtain ⟨hi, _⟩ := List.getElem?_eq_some_iff.1 hn
        simp only [List.length_nil] at this
        omega
      have hpn : (n.setSequenceNo sha k).producer = n.producer := rfl
      refine ⟨⟨?_, ?_, ?_, ?_⟩, ⟨fun _ j hj => (by rw [hm] at hj; cases hj; exact hlt), fun _ => rfl⟩, fun hx => (nomatch hx)⟩
      · exact pairwise_set (f := Node.producer) (fun _ _ => Iff.rfl) _ _ _ _ hn hpn h.sorted
      · intro x hx
        rcases List.mem_or_eq_of_mem_set hx with hx | rfl
        · exact h.digests x hx
        · rfl
      · intro q j
        unfold Numbers.raise
        obtain ⟨hi, hgi⟩ := List.getElem?_eq_some_iff.1 hn
        by_cases hq : q = (p, s)
        · rw [if_pos hq, hm]
          dsimp only
          rw [show max n.sequenceNo k = k by omega]
          constructor
          · rintro ⟨x, h1, h2, h3⟩
            obtain ⟨i', hi', he⟩ := List.mem_iff_getElem.1 h1
            by_cases hii : i' = i
            · subst hii
              rw [List.getElem_set_self] at he
              rw [← h3, ← he]; rfl
            · rw [List.getElem_set_ne (by omega)] at he
              have hi'' : i' < t.nodes.length := by simpa using hi'
              have hx : x ∈ t.nodes := he ▸ List.getElem_mem hi''
              have := h.unique hx (List.mem_of_getElem? hn) (h2.trans (hq.trans hp.symm))
              -- the same node at two places
              exfalso
              have hs := h.sorted
              rw [List.pairwise_iff_getElem] at hs
              rcases Nat.lt_or_gt_of_ne hii with hl | hl
              · have := hs i' i hi'' hi hl
                rw [he, hgi, h2, hq, hp] at this
                exact before_irrefl _ this
              · have := hs i i' hi hi'' hl
                rw [he, hgi, h2, hq, hp] at this
                exact before_irrefl _ this
          · rintro ⟨⟩
            exact ⟨n.setSequenceNo sha k, List.mem_iff_getElem.2 ⟨i, by simpa using hi, List.getElem_set_self _⟩, hpn.trans (hp.trans hq.symm), rfl⟩
        · rw [if_neg hq, ← h.numbers]
          constructor
          · rintro ⟨x, h1, h2, h3⟩
            rcases List.mem_or_eq_of_mem_set h1 with h1 | rfl
            · exact ⟨x, h1, h2, h3⟩
            · exact absurd (h2.symm.trans (hpn.trans hp)) hq
          · rintro ⟨x, h1, h2, h3⟩
            obtain ⟨i', hi', he⟩ := List.mem_iff_getElem.1 h1
            refine ⟨x, List.mem_iff_getElem.2 ⟨i', by simpa using hi', ?_⟩, h2, h3⟩
            rw [List.getElem_set_ne]
            · exact he
            · rintro rfl
              rw [hgi] at he
              exact hq (h2.symm.trans (he ▸ hp))
      · rw [if_neg hne]
    · rw [if_neg hlt]
      refine ⟨?_, ⟨fun hx => (nomatch hx), fun hx => absurd (hx _ hm) hlt⟩, fun _ => rfl⟩
      rw [raise_same hm (by omega)]
      exact h

/-! ### The tree is determined by the numbers -/

theorem sorted_unique {l l' : List (Producer × Nat)} {m : Numbers} (h : Listing m l) (h' : Listing m l') : l = l' := by
  obtain ⟨h1, h2⟩ := h
  obtain ⟨h3, h4⟩ := h'
  have hperm : ∀ x, x ∈ l ↔ x ∈ l' := by
    rintro ⟨p, k⟩
    rw [h2, h4]
  clear h2 h4
  induction l generalizing l' with
  | nil =>
    cases l' with
    | nil => rfl
    | cons x l' => exact absurd ((hperm x).2 (List.mem_cons_self ..)) nofun
  | cons x l ih =>
    cases l' with
    | nil => exact absurd ((hperm x).1 (List.mem_cons_self ..)) nofun
    | cons y l' =>
      rw [List.pairwise_cons] at h1 h3
      have hxy : x = y := by
        rcases List.mem_cons.1 ((hperm x).1 (List.mem_cons_self ..)) with h | h
        · exact h
        · rcases List.mem_cons.1 ((hperm y).2 (List.mem_cons_self ..)) with h' | h'
          · exact h'.symm
          · exact absurd (before_trans (h3.1 x h) (h1.1 y h')) (before_irrefl _)
      subst hxy
      congr 1
      refine ih h1.2 h3.2 ?_
      intro z
      constructor
      · intro hz
        rcases List.mem_cons.1 ((hperm z).1 (List.mem_cons_of_mem _ hz)) with rfl | h
        · exact absurd (h1.1 z hz) (before_irrefl _)
        · exact h
      · intro hz
        rcases List.mem_cons.1 ((hperm z).2 (List.mem_cons_of_mem _ hz)) with rfl | h
        · exact absurd (h3.1 z hz) (before_irrefl _)
        · exact h

theorem Holds.listing {sha : Bytes → Bytes} {t : Tree} {m : Numbers} (h : Holds sha t m) : Listing m (t.nodes.map Node.pair) := by
  refine ⟨List.pairwise_map.2 h.sorted, ?_⟩
  intro p k
  rw [← h.numbers, List.mem_map]
  constructor
  · rintro ⟨n, h1, h2⟩
    cases h2
    exact ⟨n, h1, rfl, rfl⟩
  · rintro ⟨n, h1, rfl, rfl⟩
    exact ⟨n, h1, rfl⟩

/-- The node for a producer with a number. -/
def nodeOf (sha : Bytes → Bytes) (x : Producer × Nat) : Node := mkNode sha x.1.1 x.1.2 x.2

theorem Holds.nodes {sha : Bytes → Bytes} {t : Tree} {m : Numbers} (h : Holds sha t m) : t.nodes = (t.nodes.map Node.pair).map (nodeOf sha) := by
  rw [List.map_map]
  symm
  conv => rhs; rw [← List.map_id t.nodes]
  refine List.map_congr_left ?_
  intro n hn
  have := h.digests n hn
  cases n
  simp only [Function.comp, nodeOf, Node.pair, Node.producer, mkNode, id]
  simp only at this
  rw [← this]

theorem Holds.same {sha : Bytes → Bytes} {t t' : Tree} {m : Numbers} (h : Holds sha t m) (h' : Holds sha t' m) : t = t' := by
  have e : t.nodes = t'.nodes := by
    rw [h.nodes, h'.nodes, sorted_unique h.listing h'.listing]
  have e' : t.root = t'.root := by rw [h.root, h'.root, e]
  cases t; cases t'
  simp only at e e'
  rw [e, e']

theorem Holds.rootEq {sha : Bytes → Bytes} {t : Tree} {m : Numbers} (h : Holds sha t m) : t.root = digestAll sha (t.nodes.map Node.pair) := by
  rw [h.root]
  unfold digestAll
  by_cases hn : t.nodes = []
  · rw [if_pos hn, if_pos (by rw [hn]; rfl)]
  · rw [if_neg hn, if_neg (by simpa using hn)]
    unfold recomputeRoot
    congr 2
    rw [List.flatMap_map]
    have : ∀ l : List Node, (∀ n ∈ l, n.digest = nodeDigest sha n.dataPrefix n.sessionNo n.sequenceNo) →
        (l.flatMap fun n => (fromHex n.digest).toOption.getD []) = l.flatMap fun n => digestOne sha n.pair := by
      intro l
      induction l with
      | nil => intro _; rfl
      | cons x l ih =>
        intro hl
        rw [List.flatMap_cons, List.flatMap_cons, ih fun n hn => hl n (List.mem_cons_of_mem _ hn), hl x (List.mem_cons_self ..)]
        congr 1
        unfold nodeDigest
        dsimp only
        rw [fromHex_toHex]
        rfl
    exact this _ h.digests

theorem hear_le (m : Numbers) (c : Content) : Le m (m.hear c) := by
  unfold Numbers.hear
  induction c generalizing m with
  | nil => intro p k h; exact ⟨k, h, Nat.le_refl _⟩
  | cons x c ih =>
    intro p k h
    rw [List.foldl_cons]
    have : ∃ k', (if x.type = 0 then m.raise (x.name, x.session) x.seq else m) p = some k' ∧ k ≤ k' := by
      split
      · unfold Numbers.raise
        by_cases hp : p = (x.name, x.session)
        · rw [if_pos hp, ← hp, h]; exact ⟨_, rfl, by omega⟩
        · rw [if_neg hp]; exact ⟨k, h, Nat.le_refl _⟩
      · exact ⟨k, h, Nat.le_refl _⟩
    obtain ⟨k', h1, h2⟩ := this
    obtain ⟨k'', h3, h4⟩ := ih _ p k' h1
    exact ⟨k'', h3, by omega⟩

theorem le_antisymm {m m' : Numbers} (h : Le m m') (h' : Le m' m) : m = m' := by
  funext p
  cases hp : m p with
  | none =>
    cases hp' : m' p with
    | none => rfl
    | some k => obtain ⟨k', h1, _⟩ := h' p k hp'; rw [hp] at h1; exact nomatch h1
  | some k =>
    obtain ⟨k', h1, h2⟩ := h p k hp
    obtain ⟨k'', h3, h4⟩ := h' p k' h1
    rw [hp] at h3
    cases h3
    rw [h1]
    congr 1
    omega

theorem le_trans {a b c : Numbers} (h : Le a b) (h' : Le b c) : Le a c := by
  intro p k hk
  obtain ⟨k', h1, h2⟩ := h p k hk
  obtain ⟨k'', h3, h4⟩ := h' p k' h1
  exact ⟨k'', h3, by omega⟩

theorem le_refl (a : Numbers) : Le a a := fun _ k h => ⟨k, h, Nat.le_refl _⟩

end Chrono
end PyNDN
