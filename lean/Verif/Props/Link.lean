import Verif.Spec.Link
import Verif.Props.Data
import Verif.Props.Control
/-
C91: the delegations of a Link and its Content agree, and travel with the packet.
-/
namespace PyNDN.LinkPacket
open Spec Spec.LinkPacket

theorem add_ok {s : DelegationSet} {p : Int} {n : Name} (h : DelegationsOk s) (hc : CallOk (.add p n)) : DelegationsOk (s.add p n) := by
  have ins : ∀ (x : Delegation) (l : DelegationSet) (d : Delegation), d ∈ DelegationSet.insertSorted x l → d = x ∨ d ∈ l := by
    intro x l
    induction l with
    | nil => intro d hd; exact .inl (List.mem_singleton.mp hd)
    | cons y l ih =>
      intro d hd
      unfold DelegationSet.insertSorted at hd
      split at hd
      · rcases List.mem_cons.mp hd with h | h
        · exact .inl h
        · exact .inr h
      · rcases List.mem_cons.mp hd with h | h
        · exact .inr (h ▸ List.mem_cons_self ..)
        · exact (ih d h).imp_right (List.mem_cons_of_mem _)
  intro d hd
  rcases ins _ _ d hd with rfl | hd
  · exact hc
  · rw [remove_eq] at hd
    exact h d ((List.mem_filter.mp hd).1)

theorem encodeContent_ok {l : Link} (h : DelegationsOk l.delegations) :
    encodeContent l = ({ l with data := setLinkType { l.data with content := some (contentOf l.delegations) } }, none) := by
  obtain ⟨w, h1, h2, _⟩ := C27_wire l.delegations h
  unfold encodeContent
  rw [h1, h2]
  rfl

/-- The Data of a Link with this Content. -/
def base (name : Name) (content : Option Bytes) : Data := { setLinkType { name := name } with content := content }

theorem after_spec (name : Name) (calls : List Call) (h : ∀ c ∈ calls, CallOk c) :
    (after name calls).delegations = delegationsAfter (calls.map asSet) ∧ DelegationsOk (after name calls).delegations ∧
    ((¬ Added calls ∧ (after name calls).data = base name none ∧ (after name calls).delegations = []) ∨
      (Added calls ∧ (after name calls).data = base name (some (contentOf (after name calls).delegations)))) := by
  induction calls with
  | nil => exact ⟨rfl, fun d hd => (by cases hd), .inl ⟨fun ⟨p, n, hm⟩ => (by cases hm), rfl, rfl⟩⟩
  | cons c calls ih =>
    obtain ⟨h1, h2, h3⟩ := ih (fun x hx => h x (List.mem_cons_of_mem _ hx))
    have hc := h c (List.mem_cons_self ..)
    rw [show after name (c :: calls) = (call (after name calls) c).1 from rfl]
    generalize after name calls = l at h1 h2 h3 ⊢
    have hname : ∀ b, setLinkType { l.data with content := some b } = base name (some b) := by
      intro b
      rcases h3 with ⟨_, h, _⟩ | ⟨_, h⟩ <;> rw [h] <;> rfl
    cases c with
    | add p n =>
      have ha := add_ok h2 hc
      have e : call l (.add p n) = (⟨setLinkType { l.data with content := some (contentOf (l.delegations.add p n)) }, l.delegations.add p n⟩, .done) := by
        unfold call
        dsimp only
        rw [encodeContent_ok (l := { l with delegations := l.delegations.add p n }) ha]
      rw [e]
      refine ⟨by rw [h1]; rfl, ha, .inr ⟨⟨p, n, List.mem_cons_self ..⟩, hname _⟩⟩
    | remove n =>
      have had : Added (.remove n :: calls) ↔ Added calls := by
        constructor
        · rintro ⟨p, m, hm⟩
          rcases List.mem_cons.mp hm with hm | hm
          · cases hm
          · exact ⟨p, m, hm⟩
        · rintro ⟨p, m, hm⟩
          exact ⟨p, m, List.mem_cons_of_mem _ hm⟩
      have hr : DelegationsOk (DelegationSet.remove n l.delegations).1 := by
        rw [remove_eq]
        exact fun d hd => h2 d ((List.mem_filter.mp hd).1)
      unfold call
      dsimp only
      rcases hw : (DelegationSet.remove n l.delegations).2 with _ | _
      · rw [if_neg (by simp)]
        have same : (DelegationSet.remove n l.delegations).1 = l.delegations := by
          rw [remove_eq] at hw ⊢
          dsimp only at hw ⊢
          rw [List.filter_eq_self]
          intro d hd
          have := List.any_eq_false.mp hw d hd
          simpa using this
        refine ⟨by dsimp only; rw [h1]; rfl, hr, ?_⟩
        dsimp only
        rw [same, had]
        exact h3
      · rw [if_pos rfl, encodeContent_ok (l := { l with delegations := (DelegationSet.remove n l.delegations).1 }) hr]
        refine ⟨by dsimp only; rw [h1]; rfl, hr, ?_⟩
        dsimp only
        rw [hname, had]
        rcases h3 with ⟨_, _, h3⟩ | ⟨h3, _⟩
        · rw [h3] at hw; cases hw
        · exact .inr ⟨h3, rfl⟩

/-- C91, with a departure for negative preferences: after any calls of `addDelegation` and `removeDelegation` on a new Link, the delegations are those that were added last and not
removed since, sorted, one for each name; the type is LINK; and the Content is their encoding, or null if none was ever added. -/
theorem C91_content_partial (name : Name) (calls : List Call) (h : ∀ c ∈ calls, CallOk c) :
    (∀ p n, (⟨p, n⟩ : Delegation) ∈ (after name calls).delegations ↔ preferenceAfter n (calls.map asSet) = some p) ∧
    DelegationsSorted (after name calls).delegations ∧ DelegationsUnique (after name calls).delegations ∧
    (after name calls).data.name = name ∧ (after name calls).data.metaInfo.type = 1 ∧
    (Added calls → (after name calls).data.content = some (contentOf (after name calls).delegations)) ∧
    (¬ Added calls → (after name calls).data.content = none) := by
  obtain ⟨h1, _, h3⟩ := after_spec name calls h
  obtain ⟨h4, h5, h6⟩ := C27_set (calls.map asSet)
  rw [h1]
  refine ⟨h6, h4, h5, ?_⟩
  rw [← h1]
  rcases h3 with ⟨ha, h3, _⟩ | ⟨ha, h3⟩ <;> rw [h3]
  · exact ⟨rfl, rfl, fun h => absurd h ha, fun _ => rfl⟩
  · exact ⟨rfl, rfl, fun _ => rfl, fun h => absurd ha h⟩

/-- C91: none of these calls raises, and `removeDelegation` tells whether there was a delegation with the name. -/
theorem C91_result (name : Name) (calls : List Call) (h : ∀ c ∈ calls, CallOk c) :
    (∀ p n, CallOk (.add p n) → (call (after name calls) (.add p n)).2 = .done) ∧
    ∀ n, ∃ was : Bool, (call (after name calls) (.remove n)).2 = .removed was ∧ (was = true ↔ ∃ d ∈ (after name calls).delegations, d.name = n) := by
  obtain ⟨_, h2, _⟩ := after_spec name calls h
  refine ⟨fun p n hc => ?_, fun n => ⟨(DelegationSet.remove n (after name calls).delegations).2, ?_, C27_remove_reports n _⟩⟩
  · unfold call
    dsimp only
    rw [encodeContent_ok (l := { after name calls with delegations := (after name calls).delegations.add p n }) (add_ok h2 hc)]
  · have hr : DelegationsOk (DelegationSet.remove n (after name calls).delegations).1 := by
      rw [remove_eq]
      exact fun d hd => h2 d ((List.mem_filter.mp hd).1)
    unfold call
    dsimp only
    rcases hw : (DelegationSet.remove n (after name calls).delegations).2 with _ | _
    · rw [if_neg (by simp)]
    · rw [if_pos rfl, encodeContent_ok (l := { after name calls with delegations := (DelegationSet.remove n (after name calls).delegations).1 }) hr]

/-- The round trip of C22, with the Content. -/
theorem roundtrip_content (d old : Data) (h : DataOk d) (wire : Bytes) (b e : Nat)
    (henc : encodeData d = .ok (wire, b, e)) (hsize : wire.length < 2 ^ 64) (extra : Bytes) :
    ∃ d', decodeData old (wire ++ extra) = .ok (d', b, e) ∧ SameData d d' ∧ d'.content = some (d.content.getD []) := by
  obtain ⟨v, ⟨b', e', h1, h2, h3⟩, _, hdec⟩ := data_spec d h
  rw [henc] at h1
  cases h1
  obtain ⟨hn, hm, hs⟩ := h
  have hlen : (flat (signedFields d v ++ [(23, d.signature.signature.getD [])])).length < 2 ^ 64 := by
    omega
  have hat := At.start (t := 6) (rest := extra) (by omega) hlen
  obtain ⟨e1, o1, g1, g2, g3⟩ := nested_At hat (by simp [signedFields])
  obtain ⟨w, hd⟩ := hat.head
  have ho1 : o1 = b := by
    rw [readNestedTlvsStart_tlv hat.bound.1 hat.bound.2 hd] at g1
    cases g1; omega
  obtain ⟨o2, n1, n2, k1, k2, _⟩ := name_At hn g2
  obtain ⟨mi', o3, k3, k4, k5⟩ := decodeMetaInfo_At (old := old.metaInfo) hm k2
  obtain ⟨o4, k6, k7⟩ := readOptionalBlobTlv_At (x := some (d.content.getD [])) (t := 21)
    (l := [(22, v), (23, d.signature.signature.getD [])]) k5 (by simp)
  obtain ⟨si', o5, k8, k9, k10⟩ := hdec _ _ _ _ k7
  obtain ⟨o6, k11, k12⟩ := readBlobTlv_At k10
  have ho5 : o5 = e := by
    have s1 := k10.stop
    have s2 := g2.stop
    rw [h3]
    rw [flat_append, List.length_append] at s2
    omega
  unfold decodeData runDec decodeDataFrom
  rw [Dec.bind_ok g1, Dec.bind_ok (getOffset_run _ _), Dec.bind_ok k1]
  dsimp only
  rw [Dec.bind_ok ((optionally_present k2).trans k3), Dec.bind_ok k6, Dec.bind_ok k8,
    Dec.bind_ok (getOffset_run _ _), Dec.bind_ok k11, Dec.bind_ok (finishNestedTlvs_At k12)]
  simp only [Dec.pure_run]
  rw [ho1, ho5]
  refine ⟨_, rfl, ?_⟩
  exact ⟨⟨rfl, k4, rfl, k9, rfl⟩, rfl⟩

/-- C91: a Link that was made by any calls, with any signature and other meta info, and encoded, is decoded by any Link object, whatever it
held before and whatever follows in the buffer, to the same packet and the same delegations. -/
theorem C91_wire (name : Name) (calls : List Call) (h : ∀ c ∈ calls, CallOk c) (d : Data) (hd : DataOk d)
    (hc : d.content = (after name calls).data.content) (ht : d.metaInfo.type = 1) (wire : Bytes) (b e : Nat)
    (henc : encodeData d = .ok (wire, b, e)) (hsize : wire.length < 2 ^ 64) (hcs : (d.content.getD []).length < 2 ^ 64) (old : Link) (extra : Bytes) :
    ∃ l, wireDecode old (wire ++ extra) = .ok l ∧ SameData d l.data ∧ l.delegations = (after name calls).delegations := by
  obtain ⟨_, h2, h3⟩ := after_spec name calls h
  obtain ⟨d', g1, g2, g3⟩ := roundtrip_content d old.data hd wire b e henc hsize extra
  have hdec : decodeDelegationSet (d.content.getD []) = .ok (after name calls).delegations := by
    rw [hc] at hcs ⊢
    rcases h3 with ⟨_, h3, h4⟩ | ⟨_, h3⟩
    · rw [h3, h4]
      rfl
    · rw [h3] at hcs ⊢
      obtain ⟨w, k1, k2, k3⟩ := C27_wire _ h2
      rw [k2] at k3
      exact k3 hcs
  refine ⟨⟨d', (after name calls).delegations⟩, ?_, g2, rfl⟩
  unfold wireDecode
  rw [g1]
  dsimp only
  rw [if_neg (by rw [← g2.2.1.1, ht]; decide), g3]
  dsimp only
  rw [hdec]

/-- C91: `Link(data)` of a Data packet with the Content of a Link has its delegations, and is the same packet with the type LINK. -/
theorem C91_copy (name : Name) (calls : List Call) (h : ∀ c ∈ calls, CallOk c) (d : Data) (hc : d.content = (after name calls).data.content)
    (hcs : (d.content.getD []).length < 2 ^ 64) :
    (ofData d).delegations = (after name calls).delegations ∧
    (Added calls → (ofData d).data = { d with metaInfo := { d.metaInfo with type := 1 } }) ∧ (¬ Added calls → (ofData d).data = d) := by
  obtain ⟨_, h2, h3⟩ := after_spec name calls h
  rcases h3 with ⟨ha, h3, h4⟩ | ⟨ha, h3⟩
  · rw [h3] at hc
    unfold ofData
    rw [show d.content = none from hc, h4]
    exact ⟨rfl, fun h => absurd h ha, fun _ => rfl⟩
  · rw [h3] at hc
    rw [show d.content = some _ from hc] at hcs
    obtain ⟨w, k1, k2, k3⟩ := C27_wire _ h2
    rw [k2] at k3
    unfold ofData
    rw [show d.content = some (contentOf _) from hc]
    dsimp only
    rw [show decodeDelegationSet (contentOf _) = _ from k3 hcs]
    refine ⟨rfl, fun _ => ?_, fun h => absurd ha h⟩
    dsimp only [setLinkType, linkType]
    rw [← show d.content = some (contentOf _) from hc]

/-- C91: whatever the input is, `wireDecode` raises or gives a packet of type LINK whose Content is read as the delegations. -/
theorem C91_any (old : Link) (input : Bytes) (l : Link) (h : wireDecode old input = .ok l) :
    l.data.metaInfo.type = 1 ∧ ∃ b x y, decodeData old.data input = .ok (l.data, x, y) ∧ l.data.content = some b ∧
      decodeDelegationSet b = .ok l.delegations := by
  unfold wireDecode at h
  rcases hd : decodeData old.data input with e | ⟨d, x, y⟩
  · rw [hd] at h; cases h
  · rw [hd] at h
    dsimp only at h
    split at h
    · cases h
    · rename_i ht
      rcases hc : d.content with _ | b
      · rw [hc] at h; cases h
      · rw [hc] at h
        dsimp only at h
        rcases hs : decodeDelegationSet b with e | ds
        · rw [hs] at h; cases h
        · rw [hs] at h
          cases h
          exact ⟨Decidable.not_not.mp ht, b, x, y, rfl, hc, hs⟩

/-! ### Departures -/

theorem encode_negative : ∀ (ds : DelegationSet) (out : Bytes), (∃ d ∈ ds, d.preference < 0) → ∃ e, encodeDelegationSetTo ds out = .error e := by
  intro ds
  induction ds with
  | nil => rintro out ⟨d, hd, _⟩; cases hd
  | cons x ds ih =>
    rintro out ⟨d, hd, hp⟩
    unfold encodeDelegationSetTo
    rcases hx : encodeDelegationSetTo ds out with e | o
    · exact ⟨e, rfl⟩
    · rcases List.mem_cons.mp hd with rfl | hd
      · refine ⟨.value, ?_⟩
        show (writeNonNegativeIntegerTlv 30 d.preference (encodeNameTo d.name o)).bind _ = _
        have : writeNonNegativeIntegerTlv 30 d.preference (encodeNameTo d.name o) = .error .value := by
          unfold writeNonNegativeIntegerTlv
          have : writeNonNegativeInteger d.preference (encodeNameTo d.name o) = .error .value := by
            unfold writeNonNegativeInteger
            exact if_pos hp
          dsimp only
          rw [this]
          rfl
        rw [this]
        rfl
      · obtain ⟨e, he⟩ := ih out ⟨d, hd, hp⟩
        rw [he] at hx
        cases hx

/-- C91, departure: `addDelegation` of a negative preference raises, but the delegation is in the set while the Content is the old one. -/
theorem C91_negative_departure (l : Link) (p : Int) (n : Name) (hp : p < 0) :
    ∃ e, call l (.add p n) = (⟨l.data, l.delegations.add p n⟩, .raised (.wire e)) ∧ (⟨p, n⟩ : Delegation) ∈ l.delegations.add p n := by
  have mem : ∀ (x : Delegation) (s : DelegationSet), x ∈ DelegationSet.insertSorted x s := by
    intro x s
    induction s with
    | nil => exact List.mem_singleton.mpr rfl
    | cons y s ih =>
      unfold DelegationSet.insertSorted
      split
      · exact List.mem_cons_self ..
      · exact List.mem_cons_of_mem _ ih
  have hm : (⟨p, n⟩ : Delegation) ∈ l.delegations.add p n := mem _ _
  obtain ⟨e, he⟩ := encode_negative (l.delegations.add p n) [] ⟨_, hm, hp⟩
  refine ⟨e, ?_, hm⟩
  unfold call encodeContent encodeDelegationSet
  dsimp only
  rw [he]

/-- C91, departure: of a packet of type LINK without a Content TLV, `wireDecode` raises TypeError and not a ValueError of the decoding. -/
theorem C91_absent_departure : wireDecode (ofName []) [6, 14, 7, 0, 20, 3, 24, 1, 1, 22, 3, 27, 1, 0, 23, 0] = .error .type ∧
    (decodeData {} [6, 14, 7, 0, 20, 3, 24, 1, 1, 22, 3, 27, 1, 0, 23, 0]).toOption.isSome = true := by
  constructor <;> decide +kernel

/-! ### An example -/

def exName : Name := [Component.generic [97]]
def exCalls : List Call := [.remove [Component.generic [99]], .add 5 [Component.generic [98]], .add 300 [Component.generic [99]], .add 7 [Component.generic [98]]]
def exData : Data := { (after exName exCalls).data with signature := { info := .digest, signature := some [1, 2, 3] } }

example : (∀ c ∈ exCalls, CallOk c) ∧ Added exCalls ∧ DataOk exData ∧ exData.content = (after exName exCalls).data.content ∧ exData.metaInfo.type = 1 ∧
    (after exName exCalls).delegations = [⟨5, [Component.generic [98]]⟩] ∧
    exData.content = some [31, 8, 30, 1, 5, 7, 3, 8, 1, 98] ∧
    (encodeData exData).toOption.map (·.1) =
      some [6, 32, 7, 3, 8, 1, 97, 20, 3, 24, 1, 1, 21, 10, 31, 8, 30, 1, 5, 7, 3, 8, 1, 98, 22, 3, 27, 1, 0, 23, 3, 1, 2, 3] := by
  have hm : exData.metaInfo = { type := 1 } := by decide +kernel
  have hn : exData.name = exName := by decide +kernel
  have hc : ∀ b : UInt8, CanonicalName [Component.generic [b]] := fun b c h => by
    cases List.mem_singleton.mp h
    exact trivial
  refine ⟨?_, ⟨5, _, List.mem_cons_of_mem _ (List.mem_cons_self ..)⟩, ⟨?_, ?_, trivial⟩, rfl, by rw [hm], by decide +kernel, by decide +kernel, by decide +kernel⟩
  · intro c hcm
    simp only [exCalls, List.mem_cons, List.not_mem_nil, or_false] at hcm
    rcases hcm with rfl | rfl | rfl | rfl
    · trivial
    · exact ⟨by decide, by decide, hc _⟩
    · exact ⟨by decide, by decide, hc _⟩
    · exact ⟨by decide, by decide, hc _⟩
  · rw [hn]; exact hc _
  · rw [hm]
    exact ⟨.inl (by decide), fun f h => (by cases h), by decide, fun _ => rfl⟩

end PyNDN.LinkPacket
