import Verif.Spec.SegmentFetcher
import Verif.Props.Match
import Verif.Lemmas.History
/-
C40, C41: the SegmentFetcher.
-/
namespace PyNDN
namespace Fetch
open Fetcher Spec

theorem verified_append (a b : List Ev) : verified (a ++ b) = verified a ++ verified b := List.filterMap_append
theorem outcomes_append (a b : List Ev) : outcomes (a ++ b) = outcomes a ++ outcomes b := List.filter_append ..
theorem expressedIds_append (a b : List Ev) : expressedIds (a ++ b) = expressedIds a ++ expressedIds b := List.filterMap_append
theorem calledBack_append (a b : List Ev) : calledBack (a ++ b) = calledBack a ++ calledBack b := List.filterMap_append

/-! ### The segment numbers -/

theorem numberOf_toSegment (c : Component) : (∀ k, c.toSegment = .ok k ↔ numberOf c.value = some k) ∧ (numberOf c.value = none → ∃ e, c.toSegment = .error e) := by
  unfold Component.toSegment Component.toNumberWithMarker
  cases c.value with
  | nil => exact ⟨fun k => ⟨(fun h => by cases h), (fun h => by cases h)⟩, fun _ => ⟨_, rfl⟩⟩
  | cons b bs =>
    dsimp only
    by_cases hb : b = 0
    · subst hb
      rw [if_neg (by simp)]
      refine ⟨fun k => ?_, fun h => by cases h⟩
      constructor
      · intro h; cases h; rfl
      · intro h; cases h; rfl
    · rw [if_pos hb]
      have : numberOf (b :: bs) = none := by
        unfold numberOf
        split
        · next h => cases h; exact absurd rfl hb
        · rfl
      rw [this]
      exact ⟨fun k => ⟨(fun h => by cases h), (fun h => by cases h)⟩, fun _ => ⟨_, rfl⟩⟩

theorem ends_segment (d : Data) :
    (segmentOf d = none ∧ (endsWithSegmentNumber d.name = false)) ∨
    (∃ p c k, d.name = p ++ [c] ∧ segmentOf d = some k ∧ endsWithSegmentNumber d.name = true ∧ (pyIndex d.name (-1) >>= Component.toSegment) = .ok k) := by
  rcases List.eq_nil_or_concat d.name with h | ⟨p, c, h⟩
  · left
    unfold segmentOf endsWithSegmentNumber
    rw [h]
    exact ⟨rfl, rfl⟩
  · rw [List.concat_eq_append] at h
    have hl := pyIndex_last p c
    unfold segmentOf endsWithSegmentNumber
    rw [h, hl]
    simp only [List.getLast?_append, List.getLast?_singleton, Option.some_or]
    obtain ⟨t, v⟩ := c
    by_cases ht : t = .generic
    · subst ht
      cases hv : numberOf v with
      | none =>
        left
        refine ⟨hv, ?_⟩
        unfold Component.isSegment Component.hasMarker
        cases v with
        | nil => rfl
        | cons b bs =>
          have : b ≠ 0 := by rintro rfl; cases hv
          simp [this]
      | some k =>
        right
        refine ⟨p, ⟨.generic, v⟩, k, rfl, hv, ?_, ((numberOf_toSegment ⟨.generic, v⟩).1 k).mpr hv⟩
        unfold Component.isSegment Component.hasMarker
        cases v with
        | nil => cases hv
        | cons b bs =>
          have : b = 0 := by
            refine Decidable.byContradiction fun hb => ?_
            unfold numberOf at hv
            split at hv
            · next h => cases h; exact absurd rfl hb
            · cases hv
          subst this
          rfl
    · left
      constructor
      · split
        · next h => cases h; exact absurd rfl ht
        · rfl
      · unfold Component.isSegment Component.hasMarker
        cases v with
        | nil => rfl
        | cons b bs => simp [ht]

theorem prefix_last (p : Name) (c : Component) : getPrefix (p ++ [c]) (-1) = .ok p := by
  rw [C16_prefix]
  unfold pySlice
  simp only [List.length_append, List.length_singleton]
  have h1 : ∀ m : Nat, (if (-1 : Int) < 0 then max (((m + 1 : Nat) : Int) + -1) 0 else min (-1) ((m + 1 : Nat) : Int)).toNat = m := by intro m; simp; omega
  have h2 : ∀ m : Nat, (if (0 : Int) < 0 then max (((m + 1 : Nat) : Int) + 0) 0 else min 0 ((m + 1 : Nat) : Int)).toNat = 0 := by intro m; simp; omega
  rw [h1, h2]
  simp

theorem next_eq (n : Fetcher) (i : Interest) {d : Data} {p : Name} {c : Component} (h : d.name = p ++ [c]) (k : Nat) (r : Express) :
    ∃ s, Component.fromSegment k = .ok s ∧
      n.fetchNextSegment i d.name k r = n.express { i with childSelector := some 0, mustBeFresh := false, name := d.name.dropLast ++ [s], nonce := none } r := by
  have h1 := fromNumberWithMarker_eq k 0x00
  refine ⟨_, h1, ?_⟩
  unfold fetchNextSegment
  rw [h, prefix_last]
  have h2 : Component.fromSegment (k : Int) = _ := h1
  rw [h2]
  simp

/-- What `_onVerified` does. -/
inductive Next (n : Fetcher) (d : Data) : Fetcher → Prop where
  | bad (h : segmentOf d = none) : Next n d (n.emit (.error .dataHasNoSegment))
  | again (k : Nat) (h : segmentOf d = some k) (hk : k ≠ n.parts.length) (i : Interest) (s : Component) (hs : Component.fromSegment n.parts.length = .ok s)
      (hi : i.name = d.name.dropLast ++ [s]) (r : Express) : Next n d (n.express i r)
  | more (h : segmentOf d = some n.parts.length) (hf : finalOf d ≠ some n.parts.length) (i : Interest) (s : Component)
      (hs : Component.fromSegment ((n.parts.length + 1 : Nat) : Int) = .ok s) (hi : i.name = d.name.dropLast ++ [s]) (r : Express) :
      Next n d ({ n with parts := n.parts ++ [d.content] }.express i r)
  | badFinal (h : segmentOf d = some n.parts.length) (hf : finalOf d = none) :
      Next n d ({ n with parts := n.parts ++ [d.content] }.emit (.error .dataHasNoSegment))
  | complete (h : segmentOf d = some n.parts.length) (hf : finalOf d = some n.parts.length) (c : Bytes) (hc : concat (n.parts ++ [d.content]) = some c) :
      Next n d ({ n with parts := n.parts ++ [d.content] }.emit (.complete c))
  | null (h : segmentOf d = some n.parts.length) (hf : finalOf d = some n.parts.length) (hc : concat (n.parts ++ [d.content]) = none) :
      Next n d ({ n with parts := n.parts ++ [d.content] }.emit .raised)

theorem onVerified_next (n : Fetcher) (d : Data) (i : Interest) (r : Express) : Next n d (n.onVerified d i r) := by
  unfold onVerified
  rcases ends_segment d with ⟨h1, h2⟩ | ⟨p, c, k, h1, h2, h3, h4⟩
  · rw [h2]
    exact .bad h1
  · rw [h3, h4]
    dsimp only [Bool.not_true]
    rw [if_neg (by simp)]
    by_cases hk : k = n.parts.length
    · rw [if_neg (by simpa using hk)]
      subst hk
      by_cases hl : d.metaInfo.finalBlockId.value.length > 0
      · rw [if_pos hl]
        cases hf : finalOf d with
        | none =>
          obtain ⟨e, he⟩ := (numberOf_toSegment d.metaInfo.finalBlockId).2 hf
          rw [he]
          exact .badFinal h2 hf
        | some f =>
          rw [((numberOf_toSegment d.metaInfo.finalBlockId).1 f).mpr hf]
          dsimp only
          by_cases hff : n.parts.length = f
          · rw [if_pos hff]
            subst hff
            cases hc : concat (n.parts ++ [d.content]) with
            | none => exact .null h2 hf hc
            | some c => exact .complete h2 hf c hc
          · rw [if_neg hff]
            obtain ⟨s, hs, he⟩ := next_eq { n with parts := n.parts ++ [d.content] } i h1 (n.parts.length + 1) r
            rw [he]
            exact .more h2 (by rw [hf]; intro h; cases h; exact hff rfl) _ s hs rfl r
      · rw [if_neg hl]
        obtain ⟨s, hs, he⟩ := next_eq { n with parts := n.parts ++ [d.content] } i h1 (n.parts.length + 1) r
        rw [he]
        refine .more h2 ?_ _ s hs rfl r
        unfold finalOf
        cases hv : d.metaInfo.finalBlockId.value with
        | nil => intro h; cases h
        | cons b bs => rw [hv] at hl; simp at hl
    · rw [if_pos hk]
      obtain ⟨s, hs, he⟩ := next_eq n i h1 n.parts.length r
      rw [he]
      exact .again k h2 hk _ s hs rfl r

/-! ### Concatenation and order -/

theorem concat_spec : ∀ (l : List (Option Bytes)) (c : Bytes), concat l = some c ↔ ∃ cs : List Bytes, l = cs.map some ∧ c = cs.flatten := by
  intro l
  induction l with
  | nil =>
    intro c
    constructor
    · intro h; cases h; exact ⟨[], rfl, rfl⟩
    · rintro ⟨cs, h1, rfl⟩
      cases cs with
      | nil => rfl
      | cons x cs => cases h1
  | cons p l ih =>
    intro c
    cases p with
    | none =>
      constructor
      · intro h; cases h
      · rintro ⟨cs, h1, _⟩
        cases cs with
        | nil => cases h1
        | cons x cs => cases h1
    | some b =>
      unfold concat
      constructor
      · intro h
        obtain ⟨c', h1, rfl⟩ := Option.map_eq_some_iff.mp h
        obtain ⟨cs, rfl, rfl⟩ := (ih c').mp h1
        exact ⟨b :: cs, rfl, rfl⟩
      · rintro ⟨cs, h1, rfl⟩
        cases cs with
        | nil => cases h1
        | cons x cs =>
          cases h1
          rw [(ih _).mpr ⟨cs, rfl, rfl⟩]
          rfl

theorem inOrder_append (ds : List Data) (d : Data) : inOrder (ds ++ [d]) = if segmentOf d = some (inOrder ds).length then inOrder ds ++ [d] else inOrder ds := by
  unfold inOrder
  rw [List.foldl_append]
  rfl

/-- The packets taken in order are numbered 0, 1, ..., and keep their order. -/
theorem inOrder_spec (ds : List Data) : (inOrder ds).Sublist ds ∧ ∀ k d, (inOrder ds)[k]? = some d → segmentOf d = some k := by
  suffices ∀ rs : List Data, (inOrder rs.reverse).Sublist rs.reverse ∧ ∀ k d, (inOrder rs.reverse)[k]? = some d → segmentOf d = some k by
    have := this ds.reverse
    rwa [List.reverse_reverse] at this
  intro rs
  induction rs with
  | nil => exact ⟨List.Sublist.refl _, fun k d h => by cases h⟩
  | cons x rs ih =>
    rw [List.reverse_cons, inOrder_append]
    split
    · next hx =>
      refine ⟨ih.1.append (List.Sublist.refl _), fun k d hk => ?_⟩
      rw [List.getElem?_append] at hk
      split at hk
      · exact ih.2 k d hk
      · next hlt =>
        have : k - (inOrder rs.reverse).length = 0 := by
          refine Decidable.byContradiction fun h0 => ?_
          rw [List.getElem?_eq_none (by simp; omega)] at hk
          cases hk
        rw [this] at hk
        cases hk
        rw [hx]
        congr 1
        omega
    · exact ⟨ih.1.trans (List.sublist_append_left _ _), ih.2⟩

/-! ### The invariant -/

/-- What justifies an event. -/
def Reason (pre : List Ev) : Ev → Prop
  | .complete c => ∃ (d : Data) (cs : List Bytes), (inOrder (verified pre)).getLast? = some d ∧ finalOf d = some ((inOrder (verified pre)).length - 1) ∧
      (inOrder (verified pre)).map (·.content) = cs.map some ∧ c = cs.flatten
  | .express id i => id = 0 ∧ verified pre = [] ∨ ∃ d s, id = (verified pre).length ∧ (verified pre).getLast? = some d ∧ Component.fromSegment (inOrder (verified pre)).length = .ok s ∧ i.name = d.name.dropLast ++ [s]
  | .verified d => Ev.onData (verified pre).length d ∈ pre ∧ ∃ i, Ev.express (verified pre).length i ∈ pre
  | _ => True

structure Inv (n : Fetcher) : Prop where
  parts : n.parts = (inOrder (verified n.trace)).map (·.content)
  one : n.outstanding.length + n.verifying.length + (outcomes n.trace).length ≤ 1
  exact : .raised ∉ n.trace → n.outstanding.length + n.verifying.length + (outcomes n.trace).length = 1
  ids : expressedIds n.trace = List.range n.expressed
  lt : ∀ x ∈ n.outstanding, x.1 < n.expressed
  back : ∀ id ∈ calledBack n.trace, id < n.expressed
  out : .raised ∉ n.trace → n.outstanding.map (·.1) = openIds n.trace
  ver : ∀ id i d, (id, i, d) ∈ n.verifying → Ev.onData id d ∈ n.trace ∧ id = (verified n.trace).length ∧ (∃ i, Ev.express id i ∈ n.trace) ∧ n.expressed = (verified n.trace).length + 1
  num : ∀ x ∈ n.outstanding, x.1 = (verified n.trace).length ∧ Ev.express x.1 x.2 ∈ n.trace ∧ n.expressed = (verified n.trace).length + 1
  just : Justified Reason n.trace

theorem take_spec {α : Type} {id : Nat} : ∀ {l : List (Nat × α)} {a : α} {rest : List (Nat × α)}, take id l = some (a, rest) →
    (id, a) ∈ l ∧ rest.length + 1 = l.length ∧ rest.Sublist l := by
  intro l
  induction l with
  | nil => intro a rest h; cases h
  | cons x l ih =>
    intro a rest h
    obtain ⟨k, b⟩ := x
    unfold take at h
    split at h
    · next hk => cases h; subst hk; exact ⟨List.mem_cons_self .., rfl, List.sublist_cons_self ..⟩
    · obtain ⟨y, hy, he⟩ := Option.map_eq_some_iff.mp h
      obtain ⟨y1, y2⟩ := y
      cases he
      obtain ⟨h1, h2, h3⟩ := ih hy
      exact ⟨List.mem_cons_of_mem _ h1, by simp; omega, h3.cons_cons _⟩

/-- The state between taking a packet or a timeout and what follows from it: nothing is outstanding. -/
structure Mid (n : Fetcher) : Prop where
  none : n.outstanding = [] ∧ n.verifying = [] ∧ outcomes n.trace = []
  ids : expressedIds n.trace = List.range n.expressed
  back : ∀ id ∈ calledBack n.trace, id < n.expressed
  out : .raised ∉ n.trace → openIds n.trace = []
  just : Justified Reason n.trace

/-- An event that ends the fetch, or an exception. -/
theorem mid_end {n : Fetcher} (h : Mid n) (hp : n.parts = (inOrder (verified n.trace)).map (·.content)) (e : Ev)
    (he : (∃ c, e = .error c) ∨ (∃ c, e = .complete c) ∨ e = .raised) (hr : Reason n.trace e) : Inv (n.emit e) := by
  obtain ⟨h1, h2, h3⟩ := h.none
  have hv : verified (n.trace ++ [e]) = verified n.trace := by
    rw [verified_append]; rcases he with ⟨c, rfl⟩ | ⟨c, rfl⟩ | rfl <;> simp [verified]
  have hx : expressedIds (n.trace ++ [e]) = expressedIds n.trace := by
    rw [expressedIds_append]; rcases he with ⟨c, rfl⟩ | ⟨c, rfl⟩ | rfl <;> simp [expressedIds]
  have hb : calledBack (n.trace ++ [e]) = calledBack n.trace := by
    rw [calledBack_append]; rcases he with ⟨c, rfl⟩ | ⟨c, rfl⟩ | rfl <;> simp [calledBack]
  have ho : outcomes (n.trace ++ [e]) = outcomes [e] := by rw [outcomes_append, h3]; rfl
  have hopen : openIds (n.trace ++ [e]) = openIds n.trace := by unfold openIds; rw [hx, hb]
  refine ⟨?_, ?_, ?_, ?_, fun x hx => ?_, ?_, ?_, ?_, fun x hx => ?_, justified_one h.just hr⟩
  · show n.parts = (inOrder (verified (n.trace ++ [e]))).map _
    rw [hv]; exact hp
  · show n.outstanding.length + n.verifying.length + (outcomes (n.trace ++ [e])).length ≤ 1
    rw [h1, h2, ho]
    rcases he with ⟨c, rfl⟩ | ⟨c, rfl⟩ | rfl <;> simp [outcomes]
  · show .raised ∉ n.trace ++ [e] → n.outstanding.length + n.verifying.length + (outcomes (n.trace ++ [e])).length = 1
    rw [h1, h2, ho]
    rcases he with ⟨c, rfl⟩ | ⟨c, rfl⟩ | rfl <;> simp [outcomes]
  · show expressedIds (n.trace ++ [e]) = _
    rw [hx]; exact h.ids
  · have hx : x ∈ n.outstanding := hx
    rw [h1] at hx; cases hx
  · show ∀ id ∈ calledBack (n.trace ++ [e]), _
    rw [hb]; exact h.back
  · intro hne
    show n.outstanding.map _ = openIds (n.trace ++ [e])
    rw [hopen, h1, h.out (fun hm => hne (List.mem_append_left _ hm))]
    rfl
  · intro id i d hm
    have hm : (id, i, d) ∈ n.verifying := hm
    rw [h2] at hm
    cases hm
  · have hx : x ∈ n.outstanding := hx
    rw [h1] at hx; cases hx

theorem mid_express {n : Fetcher} (h : Mid n) (hp : n.parts = (inOrder (verified n.trace)).map (·.content)) (i : Interest) (r : Express)
    (hnum : n.expressed = (verified n.trace).length) (hr : Reason n.trace (.express n.expressed i)) : Inv (n.express i r) := by
  obtain ⟨h1, h2, h3⟩ := h.none
  have hnb : n.expressed ∉ calledBack n.trace := fun hm => by have := h.back _ hm; omega
  have key : ∀ (extra : List Ev) (o : List (Nat × Interest)), (∀ x ∈ o, x = (n.expressed, i)) → (extra = [] ∧ o = [(n.expressed, i)] ∨ extra = [.raised] ∧ o.length ≤ 1) →
      Inv { n with outstanding := n.outstanding ++ o, expressed := n.expressed + 1, trace := n.trace ++ [.express n.expressed i] ++ extra } := by
    intro extra o hlt hex
    have hv : verified (n.trace ++ [.express n.expressed i] ++ extra) = verified n.trace := by
      rw [verified_append, verified_append]; rcases hex with ⟨rfl, _⟩ | ⟨rfl, _⟩ <;> simp [verified]
    have hx : expressedIds (n.trace ++ [.express n.expressed i] ++ extra) = expressedIds n.trace ++ [n.expressed] := by
      rw [expressedIds_append, expressedIds_append]; rcases hex with ⟨rfl, _⟩ | ⟨rfl, _⟩ <;> simp [expressedIds]
    have hb : calledBack (n.trace ++ [.express n.expressed i] ++ extra) = calledBack n.trace := by
      rw [calledBack_append, calledBack_append]; rcases hex with ⟨rfl, _⟩ | ⟨rfl, _⟩ <;> simp [calledBack]
    have ho : outcomes (n.trace ++ [.express n.expressed i] ++ extra) = [] := by
      rw [outcomes_append, outcomes_append, h3]; rcases hex with ⟨rfl, _⟩ | ⟨rfl, _⟩ <;> simp [outcomes]
    refine ⟨?_, ?_, ?_, ?_, fun x hx => ?_, ?_, ?_, ?_, fun x hx => ?_, ?_⟩
    · dsimp only; rw [hv]; exact hp
    · dsimp only; rw [h1, h2, ho]
      rcases hex with ⟨_, rfl⟩ | ⟨_, h4⟩
      · simp
      · simpa using h4
    · dsimp only
      intro hne
      rw [h1, h2, ho]
      rcases hex with ⟨_, rfl⟩ | ⟨rfl, _⟩
      · rfl
      · exact absurd (List.mem_append_right _ (List.mem_singleton.mpr rfl)) hne
    · dsimp only; rw [hx, h.ids, List.range_succ]
    · have hx : x ∈ n.outstanding ++ o := hx
      rw [h1] at hx
      rw [hlt x hx]
      exact Nat.lt_succ_self _
    · dsimp only; rw [hb]; exact fun id hid => Nat.lt_succ_of_lt (h.back id hid)
    · dsimp only
      intro hne
      rcases hex with ⟨rfl, rfl⟩ | ⟨rfl, _⟩
      · unfold openIds
        rw [hx, hb, List.filter_append]
        have := h.out (fun hm => hne (List.mem_append_left _ (List.mem_append_left _ hm)))
        unfold openIds at this
        rw [this, h1]
        simp [hnb]
      · exact absurd (List.mem_append_right _ (List.mem_singleton.mpr rfl)) hne
    · dsimp only; rw [h2]; intro id i d hm; cases hm
    · have hx : x ∈ n.outstanding ++ o := hx
      rw [h1] at hx
      rw [hlt x hx]
      dsimp only
      rw [hv]
      exact ⟨hnum, by simp, by rw [hnum]⟩
    · rcases hex with ⟨rfl, _⟩ | ⟨rfl, _⟩
      · dsimp only; rw [List.append_nil]; exact justified_one h.just hr
      · exact justified_one (justified_one h.just hr) trivial
  unfold express
  cases r with
  | ok =>
    have := key [] [(n.expressed, i)] (by simp) (.inl ⟨rfl, rfl⟩)
    rw [List.append_nil] at this
    exact this
  | raises b => exact key [.raised] (if b then [(n.expressed, i)] else []) (by cases b <;> simp) (.inr ⟨rfl, by cases b <;> simp⟩)

/-- `_onVerified`. -/
theorem mid_verified {n : Fetcher} (h : Mid n) (hp : n.parts = (inOrder (verified n.trace)).map (·.content)) (d : Data) (i : Interest) (r : Express)
    (hnum : n.expressed = (verified n.trace).length + 1)
    (hd : Ev.onData (verified n.trace).length d ∈ n.trace ∧ ∃ i, Ev.express (verified n.trace).length i ∈ n.trace) : Inv ((n.emit (.verified d)).onVerified d i r) := by
  obtain ⟨h1, h2, h3⟩ := h.none
  have hv : verified (n.trace ++ [.verified d]) = verified n.trace ++ [d] := by rw [verified_append]; rfl
  have hx : expressedIds (n.trace ++ [.verified d]) = expressedIds n.trace := by rw [expressedIds_append]; simp [expressedIds]
  have hb : calledBack (n.trace ++ [.verified d]) = calledBack n.trace := by rw [calledBack_append]; simp [calledBack]
  have mid : ∀ ps, Mid { n with parts := ps, trace := n.trace ++ [.verified d] } := by
    intro ps
    refine ⟨⟨h1, h2, ?_⟩, ?_, ?_, ?_, justified_one h.just hd⟩
    · dsimp only; rw [outcomes_append, h3]; simp [outcomes]
    · dsimp only; rw [hx]; exact h.ids
    · dsimp only; rw [hb]; exact h.back
    · dsimp only
      intro hne
      unfold openIds
      rw [hx, hb]
      exact h.out (fun hm => hne (List.mem_append_left _ hm))
  have hlen : n.parts.length = (inOrder (verified n.trace)).length := by rw [hp, List.length_map]
  have hnum' : n.expressed = (verified (n.trace ++ [.verified d])).length := by rw [hv, List.length_append]; exact hnum
  have hlast : (verified (n.trace ++ [.verified d])).getLast? = some d := by rw [hv]; simp
  -- the parts after the packet was taken or not
  have hskip : segmentOf d ≠ some n.parts.length → n.parts = (inOrder (verified (n.trace ++ [.verified d]))).map (·.content) := by
    intro hne
    rw [hv, inOrder_append, ← hlen, if_neg hne]
    exact hp
  have htake : segmentOf d = some n.parts.length → inOrder (verified (n.trace ++ [.verified d])) = inOrder (verified n.trace) ++ [d] := by
    intro he
    rw [hv, inOrder_append, ← hlen, if_pos he]
  have hmap : segmentOf d = some n.parts.length → n.parts ++ [d.content] = (inOrder (verified (n.trace ++ [.verified d]))).map (·.content) := by
    intro he
    rw [htake he, List.map_append, ← hp]
    rfl
  have hn := onVerified_next (n.emit (.verified d)) d i r
  generalize (n.emit (.verified d)).onVerified d i r = n' at hn
  cases hn with
  | bad hs => exact mid_end (mid n.parts) (hskip (by rw [hs]; intro h; cases h)) _ (.inl ⟨_, rfl⟩) trivial
  | again k hs hk i s hfs hi r =>
    have hne : segmentOf d ≠ some n.parts.length := by rw [hs]; intro h; cases h; exact hk rfl
    have hps := hskip hne
    refine mid_express (mid n.parts) hps i r hnum' (.inr ⟨d, s, hnum', hlast, ?_, hi⟩)
    have : (inOrder (verified (n.trace ++ [.verified d]))).length = n.parts.length := by rw [hv, inOrder_append, ← hlen, if_neg hne, hlen]
    dsimp only
    rw [this]; exact hfs
  | more hs hf i s hfs hi r =>
    refine mid_express (mid (n.parts ++ [d.content])) (hmap hs) i r hnum' (.inr ⟨d, s, hnum', hlast, ?_, hi⟩)
    dsimp only
    rw [htake hs, List.length_append, ← hlen]
    exact hfs
  | badFinal hs hf => exact mid_end (mid (n.parts ++ [d.content])) (hmap hs) _ (.inl ⟨_, rfl⟩) trivial
  | complete hs hf c hc =>
    refine mid_end (mid (n.parts ++ [d.content])) (hmap hs) _ (.inr (.inl ⟨_, rfl⟩)) ?_
    obtain ⟨cs, h4, h5⟩ := (concat_spec _ c).mp hc
    refine ⟨d, cs, ?_, ?_, ?_, h5⟩
    · dsimp only; rw [htake hs]; simp
    · dsimp only; rw [htake hs, List.length_append, ← hlen]; exact hf
    · dsimp only; rw [← hmap hs]; exact h4
  | null hs hf hc => exact mid_end (mid (n.parts ++ [d.content])) (hmap hs) _ (.inr (.inr rfl)) trivial

theorem inv_data {n : Fetcher} (h : Inv n) {id : Nat} {i : Interest} {rest : List (Nat × Interest)} (ht : take id n.outstanding = some (i, rest))
    (e : Ev) (he : (∃ d, e = .onData id d) ∨ e = .onTimeout id) : Mid ({ n with outstanding := rest }.emit e) ∧
      n.parts = (inOrder (verified (n.trace ++ [e]))).map (·.content) ∧
      id = (verified (n.trace ++ [e])).length ∧ Ev.express id i ∈ n.trace ++ [e] ∧ n.expressed = (verified (n.trace ++ [e])).length + 1 := by
  obtain ⟨h1, h2, _⟩ := take_spec ht
  have h3 := h.one
  have hv : verified (n.trace ++ [e]) = verified n.trace := by
    rw [verified_append]; rcases he with ⟨c, rfl⟩ | rfl <;> simp [verified]
  have hx : expressedIds (n.trace ++ [e]) = expressedIds n.trace := by
    rw [expressedIds_append]; rcases he with ⟨c, rfl⟩ | rfl <;> simp [expressedIds]
  have hb : calledBack (n.trace ++ [e]) = calledBack n.trace ++ [id] := by
    rw [calledBack_append]; rcases he with ⟨c, rfl⟩ | rfl <;> simp [calledBack]
  have ho : outcomes (n.trace ++ [e]) = outcomes n.trace := by
    rw [outcomes_append]; rcases he with ⟨c, rfl⟩ | rfl <;> simp [outcomes]
  have hout : n.outstanding = [(id, i)] ∧ rest = [] := by
    cases hl : n.outstanding with
    | nil => rw [hl] at h1; cases h1
    | cons x l =>
      rw [hl] at h1 h2 h3
      have : l = [] := List.eq_nil_of_length_eq_zero (by simp at h3; omega)
      subst this
      rw [List.mem_singleton.mp h1]
      exact ⟨rfl, List.eq_nil_of_length_eq_zero (by simpa using h2)⟩
  obtain ⟨hout, rfl⟩ := hout
  rw [hout] at h3
  simp at h3
  have hoc : outcomes n.trace = [] := List.eq_nil_of_length_eq_zero (by omega)
  have hve : n.verifying = [] := List.eq_nil_of_length_eq_zero (by omega)
  refine ⟨⟨⟨rfl, hve, ?_⟩, ?_, ?_, ?_, ?_⟩, by rw [hv]; exact h.parts, ?_⟩
  · show outcomes (n.trace ++ [e]) = []
    rw [ho, hoc]
  · show expressedIds (n.trace ++ [e]) = _
    rw [hx]; exact h.ids
  · show ∀ x ∈ calledBack (n.trace ++ [e]), _
    rw [hb]
    intro x hx'
    rcases List.mem_append.mp hx' with hx' | hx'
    · exact h.back x hx'
    · rw [List.mem_singleton.mp hx']
      exact h.lt (id, i) (by rw [hout]; simp)
  · intro hne
    have hne : Ev.raised ∉ n.trace := fun hm => hne (List.mem_append_left _ hm)
    have h5 := h.out hne
    rw [hout] at h5
    show openIds (n.trace ++ [e]) = []
    unfold openIds at *
    rw [hx, hb, List.filter_eq_nil_iff]
    intro x hx' hc
    simp only [List.mem_append, List.mem_singleton, not_or, decide_eq_true_eq] at hc
    have : x ∈ (expressedIds n.trace).filter (fun id => decide (id ∉ calledBack n.trace)) := List.mem_filter.mpr ⟨hx', by simpa using hc.1⟩
    rw [← h5] at this
    exact hc.2 (by simpa using this)
  · refine justified_one h.just ?_
    rcases he with ⟨d, rfl⟩ | rfl <;> exact trivial
  · obtain ⟨h6, h7, h8⟩ := h.num _ h1
    rw [hv]
    exact ⟨h6, List.mem_append_left _ h7, h8⟩

theorem inv_step {n : Fetcher} (h : Inv n) (a : Action) : Inv (n.step a) := by
  cases a with
  | data id d check r =>
    unfold step
    dsimp only
    split
    · exact h
    · next i rest ht =>
      obtain ⟨hm, hp, hid, hex, hnum⟩ := inv_data h ht (.onData id d) (.inl ⟨d, rfl⟩)
      unfold Fetcher.onData
      split
      · split
        · exact mid_end hm hp _ (.inr (.inr rfl)) trivial
        · -- the packet is being verified
          obtain ⟨⟨h1, h2, h3⟩, h4, h5, h6, h7⟩ := hm
          refine ⟨hp, ?_, ?_, h4, ?_, h5, ?_, ?_, ?_, h7⟩
          · dsimp only; rw [h1, h2, h3]; simp
          · dsimp only; intro _; rw [h1, h2, h3]; simp
          · dsimp only; rw [h1]; intro x hx; cases hx
          · dsimp only
            intro hne
            rw [h1, h6 hne]; rfl
          · dsimp only
            rw [h2]
            intro id' i' d' hmem
            simp only [List.nil_append, List.mem_singleton, Prod.mk.injEq] at hmem
            obtain ⟨rfl, rfl, rfl⟩ := hmem
            exact ⟨by simp [emit], hid, ⟨_, hex⟩, hnum⟩
          · dsimp only; rw [h1]; intro x hx; cases hx
      · split
        · refine mid_verified hm hp d i r hnum ?_
          show Ev.onData (verified (n.trace ++ [.onData id d])).length d ∈ n.trace ++ [.onData id d] ∧ _
          rw [← hid]
          refine ⟨by simp, i, ?_⟩
          show Ev.express (verified (n.trace ++ [.onData id d])).length i ∈ n.trace ++ [.onData id d]
          rw [← hid]; exact hex
        · exact mid_end hm hp _ (.inl ⟨_, rfl⟩) trivial
        · exact mid_end hm hp _ (.inr (.inr rfl)) trivial
  | timeout id =>
    unfold step
    dsimp only
    split
    · exact h
    · next i rest ht =>
      obtain ⟨hm, hp, _⟩ := inv_data h ht (.onTimeout id) (.inr rfl)
      exact mid_end hm hp _ (.inl ⟨_, rfl⟩) trivial
  | validated id good r =>
    unfold step
    dsimp only
    split
    · exact h
    · next i d rest ht =>
      obtain ⟨h1, h2, _⟩ := take_spec ht
      have h3 := h.one
      have hout : n.outstanding = [] := List.eq_nil_of_length_eq_zero (by omega)
      have hrest : rest = [] := List.eq_nil_of_length_eq_zero (by omega)
      have hoc : outcomes n.trace = [] := List.eq_nil_of_length_eq_zero (by omega)
      subst hrest
      have hm : Mid { n with verifying := [] } :=
        ⟨⟨hout, rfl, hoc⟩, h.ids, h.back, fun hne => by have := h.out hne; rw [hout] at this; exact this.symm, h.just⟩
      split
      · obtain ⟨h4, h5, h6, h7⟩ := h.ver id i d h1
        subst h5
        exact mid_verified hm h.parts d i r h7 ⟨h4, h6⟩
      · exact mid_end hm h.parts _ (.inl ⟨_, rfl⟩) trivial

theorem reachable_inv {n : Fetcher} (h : Reachable n) : Inv n := by
  obtain ⟨k, base, r, as, rfl⟩ := h
  have h0 : Inv (fetch k base r) :=
    mid_express (n := { hasKeyChain := k }) ⟨⟨rfl, rfl, rfl⟩, rfl, by simp [calledBack], by simp [openIds, expressedIds], justified_nil⟩ rfl _ r rfl (.inl ⟨rfl, rfl⟩)
  generalize fetch k base r = n at h0
  unfold run
  induction as generalizing n with
  | nil => exact h0
  | cons a as ih => exact ih _ (inv_step h0 a)

/-! ### C40 -/

/-- C40: if onComplete is called with `content` then there are packets that passed the verification, in the order in which they
arrived, with the segment numbers 0, 1, ..., N; the last one announces N as the final segment number; and `content` is the
concatenation of their contents. -/
theorem C40_complete {n : Fetcher} (h : Reachable n) {content : Bytes} {pre post : List Ev} (ht : n.trace = pre ++ .complete content :: post) :
    ∃ (ds : List Data) (last : Data) (contents : List Bytes), ds.Sublist (verified pre) ∧ (∀ k d, ds[k]? = some d → segmentOf d = some k) ∧
      ds.getLast? = some last ∧ finalOf last = some (ds.length - 1) ∧
      ds.map (·.content) = contents.map some ∧ content = contents.flatten := by
  obtain ⟨d, cs, h1, h2, h3, h4⟩ := (reachable_inv h).just pre _ post ht
  obtain ⟨h5, h6⟩ := inOrder_spec (verified pre)
  exact ⟨_, d, cs, h5, h6, h1, h2, h3, h4⟩

/-- C40: only packets that the face gave to the fetcher are verified. -/
theorem C40_received {n : Fetcher} (h : Reachable n) {d : Data} {pre post : List Ev} (ht : n.trace = pre ++ .verified d :: post) :
    ∃ id, .onData id d ∈ pre := ⟨_, ((reachable_inv h).just pre _ post ht).1⟩

/-- C40: every Interest after the first asks for the next segment: its name is that of the packet that was verified last, with
the last component replaced by the number of segments that it has. -/
theorem C40_requests {n : Fetcher} (h : Reachable n) {id : Nat} {i : Interest} {pre post : List Ev} (ht : n.trace = pre ++ .express id i :: post) (hid : id ≠ 0) :
    ∃ d s, (verified pre).getLast? = some d ∧ Component.fromSegment (inOrder (verified pre)).length = .ok s ∧ i.name = d.name.dropLast ++ [s] := by
  rcases (reachable_inv h).just pre _ post ht with ⟨h0, _⟩ | ⟨d, s, _, h1, h2, h3⟩
  · exact absurd h0 hid
  · exact ⟨d, s, h1, h2, h3⟩

/-! ### The Interests that are expressed -/

/-- The first Interest: the application's, for the rightmost child, which must be fresh. -/
def firstInterest (base : Interest) : Interest := { base with childSelector := some 1, mustBeFresh := true, nonce := none }

/-- Every other Interest: the application's with another name, for the leftmost child, which need not be fresh. -/
def nextInterest (base : Interest) (name : Name) : Interest := { base with name := name, childSelector := some 0, mustBeFresh := false, nonce := none }

/-- `i` is one of them. -/
def Ours (base i : Interest) : Prop := i = firstInterest base ∨ ∃ name, i = nextInterest base name

structure Asks (base : Interest) (n : Fetcher) : Prop where
  trace : ∃ rest, n.trace = .express 0 (firstInterest base) :: rest ∧ ∀ id i, .express id i ∈ rest → ∃ name, i = nextInterest base name
  out : ∀ x ∈ n.outstanding, Ours base x.2
  ver : ∀ x ∈ n.verifying, Ours base x.2.1

theorem asks_emit {base : Interest} {n : Fetcher} (h : Asks base n) (e : Ev) (he : ∀ id i, e ≠ .express id i) : Asks base (n.emit e) := by
  obtain ⟨rest, h1, h2⟩ := h.trace
  refine ⟨⟨rest ++ [e], by unfold emit; dsimp only; rw [h1, List.cons_append], ?_⟩, h.out, h.ver⟩
  intro id i hi
  rcases List.mem_append.mp hi with hi | hi
  · exact h2 id i hi
  · exact absurd (List.mem_singleton.mp hi).symm (he id i)

theorem asks_express {base : Interest} {n : Fetcher} (h : Asks base n) (name : Name) (r : Express) : Asks base (n.express (nextInterest base name) r) := by
  have h0 : Asks base ({ n with expressed := n.expressed + 1 }.emit (.express n.expressed (nextInterest base name))) := by
    obtain ⟨rest, h1, h2⟩ := h.trace
    refine ⟨⟨rest ++ [.express n.expressed (nextInterest base name)], by unfold emit; dsimp only; rw [h1, List.cons_append], ?_⟩, h.out, h.ver⟩
    intro id i hi
    rcases List.mem_append.mp hi with hi | hi
    · exact h2 id i hi
    · cases List.mem_singleton.mp hi
      exact ⟨name, rfl⟩
  have h1 : ∀ k : Nat, ∀ x ∈ n.outstanding ++ [(k, nextInterest base name)], Ours base x.2 := by
    intro k x hx
    rcases List.mem_append.mp hx with hx | hx
    · exact h.out x hx
    · cases List.mem_singleton.mp hx
      exact .inr ⟨name, rfl⟩
  unfold Fetcher.express
  dsimp only
  cases r with
  | ok => exact ⟨h0.trace, h1 _, h.ver⟩
  | raises tabled =>
    dsimp only
    apply asks_emit _ _ (fun _ _ hc => by cases hc)
    refine ⟨h0.trace, ?_, h.ver⟩
    cases tabled
    · show ∀ x ∈ n.outstanding ++ [], Ours base x.2
      rw [List.append_nil]
      exact h.out
    · exact h1 _

theorem asks_next {base : Interest} {n : Fetcher} (h : Asks base n) {i : Interest} (hi : Ours base i) (name : Name) (k : Nat) (r : Express) :
    Asks base (n.fetchNextSegment i name k r) := by
  unfold fetchNextSegment
  split
  · next p c _ _ =>
    have he : ({ i with childSelector := some 0, mustBeFresh := false, name := p ++ [c], nonce := none } : Interest) = nextInterest base (p ++ [c]) := by
      rcases hi with rfl | ⟨m, rfl⟩ <;> rfl
    rw [he]
    exact asks_express h _ r
  · exact asks_emit h _ (fun _ _ hc => by cases hc)

theorem asks_verified {base : Interest} {n : Fetcher} (h : Asks base n) {i : Interest} (hi : Ours base i) (d : Data) (r : Express) :
    Asks base (n.onVerified d i r) := by
  have hp : ∀ p, Asks base { n with parts := p } := fun p => ⟨h.trace, h.out, h.ver⟩
  unfold onVerified
  split
  · exact asks_emit h _ (fun _ _ hc => by cases hc)
  split
  · exact asks_emit h _ (fun _ _ hc => by cases hc)
  dsimp only
  split
  · exact asks_next h hi _ _ r
  split
  · split
    · exact asks_emit (hp _) _ (fun _ _ hc => by cases hc)
    · split
      · split
        · exact asks_emit (hp _) _ (fun _ _ hc => by cases hc)
        · exact asks_emit (hp _) _ (fun _ _ hc => by cases hc)
      · exact asks_next (hp _) hi _ _ r
  · exact asks_next (hp _) hi _ _ r

theorem asks_step {base : Interest} {n : Fetcher} (h : Asks base n) (a : Action) : Asks base (n.step a) := by
  cases a with
  | data id d check r =>
    unfold step
    dsimp only
    split
    · exact h
    · next i rest ht =>
      obtain ⟨h1, _, h2⟩ := take_spec ht
      have hi : Ours base i := h.out (id, i) h1
      have h0 : Asks base ({ n with outstanding := rest }.emit (.onData id d)) := by
        apply asks_emit _ _ (fun _ _ hc => by cases hc)
        exact ⟨h.trace, (fun x hx => h.out x (h2.subset hx)), h.ver⟩
      unfold onData
      split
      · split
        · exact asks_emit h0 _ (fun _ _ hc => by cases hc)
        · refine ⟨h0.trace, h0.out, ?_⟩
          intro x hx
          rcases List.mem_append.mp hx with hx | hx
          · exact h0.ver x hx
          · cases List.mem_singleton.mp hx
            exact hi
      · cases check with
        | yes => exact asks_verified (asks_emit h0 _ (fun _ _ hc => by cases hc)) hi d r
        | no => exact asks_emit h0 _ (fun _ _ hc => by cases hc)
        | raises => exact asks_emit h0 _ (fun _ _ hc => by cases hc)
  | timeout id =>
    unfold step
    dsimp only
    split
    · exact h
    · next i rest ht =>
      obtain ⟨h1, _, h2⟩ := take_spec ht
      apply asks_emit _ _ (fun _ _ hc => by cases hc)
      apply asks_emit _ _ (fun _ _ hc => by cases hc)
      exact ⟨h.trace, (fun x hx => h.out x (h2.subset hx)), h.ver⟩
  | validated id good r =>
    unfold step
    dsimp only
    split
    · exact h
    · next i d rest ht =>
      obtain ⟨h1, _, h2⟩ := take_spec ht
      have hi : Ours base i := h.ver (id, i, d) h1
      have h0 : Asks base { n with verifying := rest } :=
        ⟨h.trace, h.out, (fun x hx => h.ver x (h2.subset hx))⟩
      split
      · exact asks_verified (asks_emit h0 _ (fun _ _ hc => by cases hc)) hi d r
      · exact asks_emit h0 _ (fun _ _ hc => by cases hc)

/-- C40: the first Interest of a fetch is the application's, asking for the rightmost child, which must be fresh; every other Interest is the
application's with another name (see `C40_requests`), asking for the leftmost child, which need not be fresh. -/
theorem C40_interests (k : Bool) (base : Interest) (r : Express) (as : List Action) :
    ∃ rest, ((fetch k base r).run as).trace = .express 0 (firstInterest base) :: rest ∧ ∀ id i, .express id i ∈ rest → ∃ name, i = nextInterest base name := by
  have h0 : Asks base (fetch k base r) := by
    have hf : ∀ x ∈ [(0, firstInterest base)], Ours base x.2 := by
      intro x hx
      cases List.mem_singleton.mp hx
      exact .inl rfl
    cases r with
    | ok => exact ⟨⟨[], rfl, fun _ _ hc => by cases hc⟩, hf, fun _ hc => by cases hc⟩
    | raises tabled =>
      refine ⟨⟨[.raised], rfl, ?_⟩, ?_, fun _ hc => by cases hc⟩
      · intro id i hc
        cases List.mem_singleton.mp hc
      · cases tabled
        · intro x hc; cases hc
        · exact hf
  refine Asks.trace (n := (fetch k base r).run as) ?_
  generalize fetch k base r = n at h0
  unfold Fetcher.run
  induction as generalizing n with
  | nil => exact h0
  | cons a as ih => exact ih _ (asks_step h0 a)

theorem verified_split : ∀ (t : List Ev) (k : Nat) (d : Data), (verified t)[k]? = some d → ∃ pre post, t = pre ++ .verified d :: post ∧ (verified pre).length = k := by
  intro t
  induction t with
  | nil => intro k d h; cases h
  | cons e t ih =>
    intro k d h
    by_cases he : ∃ x, e = .verified x
    · obtain ⟨x, rfl⟩ := he
      have hv : verified (Ev.verified x :: t) = x :: verified t := rfl
      rw [hv] at h
      cases k with
      | zero => cases h; exact ⟨[], t, rfl, rfl⟩
      | succ k =>
        obtain ⟨pre, post, h1, h2⟩ := ih k d h
        refine ⟨.verified x :: pre, post, by rw [h1]; rfl, ?_⟩
        have : verified (Ev.verified x :: pre) = x :: verified pre := rfl
        rw [this, List.length_cons, h2]
    · have hv : ∀ t, verified (e :: t) = verified t := by
        intro t
        cases e <;> first | exact absurd ⟨_, rfl⟩ he | rfl
      rw [hv] at h
      obtain ⟨pre, post, h1, h2⟩ := ih k d h
      exact ⟨e :: pre, post, by rw [h1]; rfl, by rw [hv]; exact h2⟩

/-- C40: if the face gives the fetcher only packets that the Interests match, and their names are not longer than the names that were
asked for, then all the packets are from the same place: their names (as values) differ only in the last component. -/
theorem C40_same_prefix_partial {n : Fetcher} (h : Reachable n)
    (hm : ∀ id i d, .express id i ∈ n.trace → .onData id d ∈ n.trace → id ≠ 0 → i.name.matches d.name = true ∧ d.name.length ≤ i.name.length) :
    ∃ p : List Bytes, ∀ d ∈ verified n.trace, d.name.dropLast.map (·.value) = p := by
  have hj := (reachable_inv h).just
  -- the first packet
  have key : ∀ (k : Nat) (d0 d : Data), (verified n.trace)[0]? = some d0 → (verified n.trace)[k]? = some d → d.name.dropLast.map (·.value) = d0.name.dropLast.map (·.value) := by
    intro k d0
    induction k with
    | zero => intro d h0 h1; rw [h0] at h1; cases h1; rfl
    | succ k ih =>
      intro d h0 h1
      obtain ⟨pre, post, ht, hlen⟩ := verified_split n.trace (k + 1) d h1
      obtain ⟨h2, i, h3⟩ := hj pre _ post ht
      rw [hlen] at h2 h3
      obtain ⟨pre1, post1, ht1⟩ := List.append_of_mem h3
      have ht2 : n.trace = pre1 ++ .express (k + 1) i :: (post1 ++ .verified d :: post) := by rw [ht, ht1]; simp
      rcases hj pre1 _ _ ht2 with ⟨h4, _⟩ | ⟨d', s, h4, h5, _, h6⟩
      · cases h4
      · have hd' : (verified n.trace)[k]? = some d' := by
          have hne : verified pre1 ≠ [] := fun h => by rw [h] at h5; cases h5
          rw [ht2, verified_append, List.getElem?_append_left (by omega)]
          rw [List.getLast?_eq_getElem?, ← h4] at h5
          exact h5
        rw [← ih d' h0 hd']
        obtain ⟨h7, h8⟩ := hm (k + 1) i d (by rw [ht2]; simp) (by rw [ht]; exact List.mem_append_left _ h2) (by omega)
        rw [C14_match_values] at h7
        have h9 := h7.eq_of_length_le (by simpa using h8)
        rw [h6, List.map_append] at h9
        rw [List.map_dropLast, ← h9]
        simp
  cases hv : verified n.trace with
  | nil => exact ⟨[], by simp⟩
  | cons d0 ds =>
    refine ⟨d0.name.dropLast.map (·.value), fun d hd => ?_⟩
    obtain ⟨k, hk, rfl⟩ := List.getElem_of_mem hd
    exact key k d0 _ (by rw [hv]; rfl) (by rw [hv]; exact List.getElem?_eq_getElem hk)

theorem verified_step {n : Fetcher} (h : Reachable n) {id : Nat} {d : Data} {r : Express} {i : Interest} (hk : n.hasKeyChain = false) (ho : n.outstanding = [(id, i)]) :
    ∃ m : Fetcher, m.parts = (inOrder (verified n.trace)).map (·.content) ∧ m.trace = n.trace ++ [.onData id d, .verified d] ∧
      n.step (.data id d .yes r) = m.onVerified d i r := by
  have hi := reachable_inv h
  have ht : take id n.outstanding = some (i, []) := by rw [ho]; simp [take]
  refine ⟨({ n with outstanding := [] }.emit (.onData id d)).emit (.verified d), hi.parts, by simp [emit], ?_⟩
  unfold step Fetcher.onData
  dsimp only
  rw [ht]
  dsimp only [emit]
  rw [hk]
  rfl

/-- C40, the other direction (without a key chain): if the expected segment arrives, passes the verification, announces itself as the final segment,
and all segments have content, then onComplete is called. -/
theorem C40_completes_partial {n : Fetcher} (h : Reachable n) {id : Nat} {d : Data} {r : Express} {i : Interest} (hk : n.hasKeyChain = false)
    (ho : n.outstanding = [(id, i)]) (hs : segmentOf d = some (inOrder (verified n.trace)).length) (hf : finalOf d = segmentOf d)
    {contents : List Bytes} (hc : (inOrder (verified n.trace) ++ [d]).map (·.content) = contents.map some) :
    (n.step (.data id d .yes r)).trace = n.trace ++ [.onData id d, .verified d, .complete contents.flatten] := by
  obtain ⟨m, h1, h2, h3⟩ := verified_step h (d := d) (r := r) hk ho
  rw [h3]
  have hn := onVerified_next m d i r
  have hl : m.parts.length = (inOrder (verified n.trace)).length := by rw [h1, List.length_map]
  rw [← hl] at hs
  rw [hs] at hf
  have hcc : concat (m.parts ++ [d.content]) = some contents.flatten := by
    refine (concat_spec _ _).mpr ⟨contents, ?_, rfl⟩
    rw [← hc, h1, List.map_append]
    rfl
  generalize m.onVerified d i r = n' at hn
  cases hn with
  | bad h' => rw [hs] at h'; cases h'
  | again k h' hk' => rw [hs] at h'; cases h'; exact absurd rfl hk'
  | more _ hf' => exact absurd hf hf'
  | badFinal _ hf' => rw [hf] at hf'; cases hf'
  | complete _ _ c hc' =>
    rw [hcc] at hc'
    cases hc'
    show m.trace ++ [_] = _
    rw [h2, List.append_assoc]
    rfl
  | null _ _ hc' => rw [hcc] at hc'; cases hc'

/-! ### C41 -/

/-- C41: in every execution there is at most one call of onComplete or onError. -/
theorem C41_once {n : Fetcher} (h : Reachable n) : (outcomes n.trace).length ≤ 1 := by
  have := (reachable_inv h).one
  omega

/-- C41: if no exception was raised, then as long as neither was called exactly one Interest is outstanding, or (with a key
chain) the packet received for it is being verified; and afterwards none is. -/
theorem C41_not_stuck_partial {n : Fetcher} (h : Reachable n) (hr : .raised ∉ n.trace) :
    (openIds n.trace).length + n.verifying.length + (outcomes n.trace).length = 1 := by
  have hi := reachable_inv h
  have := hi.exact hr
  rw [← hi.out hr, List.length_map]
  exact this

/-- C41: once onComplete or onError was called, nothing more happens. -/
theorem C41_quiet {n : Fetcher} (h : Reachable n) (ho : outcomes n.trace ≠ []) (as : List Action) : n.run as = n := by
  have hi := (reachable_inv h).one
  have : (outcomes n.trace).length ≠ 0 := fun h0 => ho (List.eq_nil_of_length_eq_zero h0)
  have h1 : n.outstanding = [] := List.eq_nil_of_length_eq_zero (by omega)
  have h2 : n.verifying = [] := List.eq_nil_of_length_eq_zero (by omega)
  induction as with
  | nil => rfl
  | cons a as ih =>
    have : n.step a = n := by
      cases a with
      | data id d c r => unfold step; rw [h1]; rfl
      | timeout id => unfold step; rw [h1]; rfl
      | validated id g r => unfold step; rw [h2]; rfl
    unfold run at *
    rw [List.foldl_cons, this]
    exact ih

/-- C41: a timeout of the outstanding Interest, and a packet that fails the verification, are reported. -/
theorem C41_reported {n : Fetcher} {id : Nat} {i : Interest} (ho : n.outstanding = [(id, i)]) (d : Data) (r : Express) :
    (n.step (.timeout id)).trace = n.trace ++ [.onTimeout id, .error .interestTimeout] ∧
    (n.hasKeyChain = false → (n.step (.data id d .no r)).trace = n.trace ++ [.onData id d, .error .segmentVerificationFailed]) := by
  have ht : take id n.outstanding = some (i, []) := by rw [ho]; simp [take]
  constructor
  · unfold step
    dsimp only
    rw [ht]
    simp [emit]
  · intro hk
    unfold step Fetcher.onData
    dsimp only
    rw [ht]
    simp [emit, hk]

/-! ### Examples -/

/-- /A/(segment k) with a content; `final` is the final segment number. -/
def exSeg (k : UInt8) (content : Option Bytes) (final : Bytes) : Data :=
  { name := [⟨.generic, [65]⟩, ⟨.generic, [0, k]⟩], content := content, metaInfo := { finalBlockId := ⟨.generic, final⟩ } }

/-- The first packet is segment 1, so segment 0 is fetched, then segment 1 again. -/
def exFetch : Fetcher := (fetch false { name := [⟨.generic, [65]⟩] } .ok).run
  [.data 0 (exSeg 1 (some [9]) []) .yes .ok, .data 1 (exSeg 0 (some [1, 2]) []) .yes .ok]

example : let n := exFetch.step (.data 2 (exSeg 1 (some [3]) [0, 1]) .yes .ok)
    Reachable exFetch ∧ (exFetch.outstanding.map (fun x => (x.1, x.2.name))) = [(2, [⟨.generic, [65]⟩, ⟨.generic, [0, 1]⟩])] ∧
    (outcomes n.trace) = [.complete [1, 2, 3]] ∧ n.outstanding = [] ∧
    segmentOf (exSeg 1 (some [3]) [0, 1]) = some (inOrder (verified exFetch.trace)).length := by
  refine ⟨⟨_, _, _, _, rfl⟩, ?_⟩
  decide +kernel

/-- Why `C40_same_prefix_partial` is partial: the packet /A/(segment 1)/B/(segment 1) matches the Interest for /A/(segment 1); it
is taken for segment 1, and onComplete is called with the contents of /A/(segment 0) and /A/(segment 1)/B/(segment 1). -/
theorem C40_other_prefix :
    let other : Data := { name := [⟨.generic, [65]⟩, ⟨.generic, [0, 1]⟩, ⟨.generic, [66]⟩, ⟨.generic, [0, 1]⟩], content := some [7], metaInfo := { finalBlockId := ⟨.generic, [0, 1]⟩ } }
    let n := exFetch.step (.data 2 other .yes .ok)
    (∀ x ∈ exFetch.outstanding, x.2.matchesName other.name = .ok true) ∧ outcomes n.trace = [.complete [1, 2, 7]] ∧
    (inOrder (verified n.trace)).map (·.name) = [[⟨.generic, [65]⟩, ⟨.generic, [0, 0]⟩], other.name] := by
  decide +kernel

/-- The hypotheses of `C40_same_prefix_partial` hold in `exFetch`. -/
example : (∀ id i d, Ev.express id i ∈ exFetch.trace → Ev.onData id d ∈ exFetch.trace → id ≠ 0 → i.name.matches d.name = true ∧ d.name.length ≤ i.name.length) ∧
    (verified exFetch.trace).length = 2 := by
  refine ⟨?_, by decide +kernel⟩
  have h : ∀ x ∈ exFetch.trace, ∀ y ∈ exFetch.trace, (match x, y with
      | .express id i, .onData id' d => decide (id = id' → id ≠ 0 → i.name.matches d.name = true ∧ d.name.length ≤ i.name.length)
      | _, _ => true) = true := by
    decide +kernel
  intro id i d h1 h2 h3
  exact of_decide_eq_true (h _ h1 _ h2) rfl h3

/-- With a key chain. -/
example : let n := (fetch true { name := [⟨.generic, [65]⟩] } .ok).run [.data 0 (exSeg 0 (some [1]) [0, 0]) .yes .ok]
    n.outstanding = [] ∧ n.verifying.length = 1 ∧
    outcomes (n.step (.validated 0 true .ok)).trace = [.complete [1]] ∧
    outcomes (n.step (.validated 0 false .ok)).trace = [.error .segmentVerificationFailed] := by
  decide +kernel

/-- Why `C41_not_stuck_partial` is partial: a segment without content makes the concatenation raise, and then neither onComplete nor
onError is ever called, although every segment was received and verified. -/
theorem C41_null_content : let n := exFetch.step (.data 2 (exSeg 1 none [0, 1]) .yes .ok)
    (inOrder (verified n.trace)).length = 2 ∧ outcomes n.trace = [] ∧ n.outstanding = [] ∧ n.verifying = [] ∧ ∀ as, n.run as = n := by
  refine ⟨by decide +kernel, by decide +kernel, by decide +kernel, by decide +kernel, fun as => ?_⟩
  have h1 : (exFetch.step (.data 2 (exSeg 1 none [0, 1]) .yes .ok)).outstanding = [] := by decide +kernel
  have h2 : (exFetch.step (.data 2 (exSeg 1 none [0, 1]) .yes .ok)).verifying = [] := by decide +kernel
  generalize exFetch.step (.data 2 (exSeg 1 none [0, 1]) .yes .ok) = n at h1 h2
  unfold run
  induction as with
  | nil => rfl
  | cons a as ih =>
    have : n.step a = n := by
      cases a with
      | data id d c r => unfold step; rw [h1]; rfl
      | timeout id => unfold step; rw [h1]; rfl
      | validated id g r => unfold step; rw [h2]; rfl
    rw [List.foldl_cons, this]
    exact ih

end Fetch
end PyNDN
