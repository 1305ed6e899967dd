import Verif.Lemmas.ChronoRun
import Verif.Props.DigestTree
/-
C61: a ChronoSync2013 knows the greatest numbers it was told, and instances catch up with each other.
-/
namespace PyNDN
namespace Chrono
open Spec.Chrono

/-! ### One instance -/

theorem run_told (P : Params) (ops : List Op) (p : Producer) (hp : p ≠ own P) : heard (run P ops).applied p = heard (told (run P ops).events) p := by
  refine snoc_induction (Q := fun ops => heard (run P ops).applied p = heard (told (run P ops).events) p) ?_ (fun a op ih => ?_) ops
  · rfl
  · rw [run_snoc]
    obtain ⟨cs, ev, h1, h2, h3⟩ := perform_form P (run P a) op
    rw [h1, h2, told_append]
    exact h3 p hp _ ih

/-- After any history: for each producer except the own one `getProducerSequenceNo` is the greatest number that
`onReceivedSyncState` was told, or -1. -/
theorem C61_numbers (P : Params) (ops : List Op) (p : Text) (session : Nat) (hp : (p, session) ≠ own P) :
    getProducerSequenceNo (run P ops) p session = number (heard (told (run P ops).events) (p, session)) := by
  rw [getProducer_eq (run_kept P ops).holds, run_told P ops _ hp]

/-- `getProducerPrefixes` lists the known producers, in order, once each. -/
theorem C61_prefixes (P : Params) (ops : List Op) :
    (getProducerPrefixes (run P ops)).Pairwise Before ∧
    ∀ p session, (p, session) ∈ getProducerPrefixes (run P ops) ↔ getProducerSequenceNo (run P ops) p session ≠ -1 := by
  have h := (run_kept P ops).holds
  generalize run P ops = s at h
  refine ⟨List.pairwise_map.2 h.sorted, ?_⟩
  intro p k
  rw [getProducer_eq h]
  unfold getProducerPrefixes
  rw [List.mem_map]
  constructor
  · rintro ⟨n, hn, e⟩
    have h1 := (h.numbers (p, k) n.sequenceNo).1 ⟨n, hn, e, rfl⟩
    rw [h1]
    unfold number
    dsimp only
    omega
  · intro h1
    cases hm : heard s.applied (p, k) with
    | none => rw [hm] at h1; exact absurd rfl h1
    | some j =>
      obtain ⟨n, hn, e, _⟩ := (h.numbers (p, k) j).2 hm
      exact ⟨n, hn, e⟩

/-- The numbers never go down. -/
theorem C61_monotone (P : Params) (ops more : List Op) (p : Text) (session : Nat) :
    getProducerSequenceNo (run P ops) p session ≤ getProducerSequenceNo (run P (ops ++ more)) p session := by
  refine snoc_induction (Q := fun more => getProducerSequenceNo (run P ops) p session ≤ getProducerSequenceNo (run P (ops ++ more)) p session)
    (by rw [List.append_nil]; exact Int.le_refl _) (fun a op ih => ?_) more
  refine Int.le_trans ih ?_
  rw [← List.append_assoc, run_snoc]
  have hk := run_kept P (ops ++ a)
  have hk' := perform_kept hk op
  rw [getProducer_eq hk.holds, getProducer_eq hk'.holds]
  obtain ⟨cs, ev, h1, _⟩ := perform_form P (run P (ops ++ a)) op
  rw [h1]
  cases hm : heard (run P (ops ++ a)).applied (p, session) with
  | none =>
    unfold number
    dsimp only
    split <;> omega
  | some j =>
    have hle := heard_take_le ((run P (ops ++ a)).applied ++ cs) (run P (ops ++ a)).applied.length
    rw [List.take_left'] at hle
    · obtain ⟨k, h2, h3⟩ := hle _ _ hm
      rw [h2]
      unfold number
      dsimp only
      omega
    · rfl

/-- The application publishes only after `onInitialized`; nobody else uses the data prefix, with any session; and the wait of
two seconds for an unknown digest is not over before the first Interest, of one second. -/
def Disciplined (P : Params) (ops : List Op) : Prop := ∀ a op b, ops = a ++ op :: b → match op with
  | .publish _ => .initialized ∈ (run P a).events
  | .data _ bytes => ∀ c, P.parse bytes = .ok c → ∀ x ∈ c, x.type = 0 → x.name = P.prefixUri → x.session = P.session
  | .judge _ => ∀ o ∈ (run P a).outstanding, o.2 = false
  | _ => True

theorem disciplined_prefix {P : Params} {a : List Op} {x : Op} (h : Disciplined P (a ++ [x])) : Disciplined P a := by
  intro a' op b e
  exact h a' op (b ++ [x]) (by rw [e]; simp)

theorem update_unchanged {sha : Bytes → Bytes} {t : Tree} {m : Numbers} (h : Holds sha t m) {p : Text} {s k : Nat}
    (hu : (t.update sha p s k).2 = false) : m.raise (p, s) k = m := by
  have h1 := update_holds h p s k
  have h2 := h1.1
  rw [h1.2.2 hu] at h2
  exact listing_numbers h2.listing h.listing

theorem updateLoop_own (P : Params) (c : Content) (hc : ∀ x ∈ c, x.type = 0 → x.name = P.prefixUri → x.session = P.session) {s : State} {m : Numbers}
    (h : Holds P.sha256 s.tree m) (hn : number (m (own P)) = s.sequenceNo) :
    number (m.hear c (own P)) = (updateLoop P s c).sequenceNo := by
  induction c generalizing s m with
  | nil => exact hn
  | cons x c ih =>
    have ih' := fun {s : State} {m : Numbers} => @ih (fun y hy => hc y (List.mem_cons_of_mem _ hy)) s m
    have hx := hc x (List.mem_cons_self ..)
    unfold updateLoop
    show number (Numbers.hear _ c (own P)) = _
    dsimp only
    by_cases ht : x.type = 0
    · rw [if_pos ht, if_pos ht]
      have hu := update_holds h x.name x.session x.seq
      cases hb : (s.tree.update P.sha256 x.name x.session x.seq).2 with
      | true =>
        rw [if_pos rfl]
        have hgt := hu.2.1.1 hb
        by_cases hp : P.prefixUri = x.name
        · rw [if_pos hp]
          refine ih' (s := { s with tree := (s.tree.update P.sha256 x.name x.session x.seq).1, sequenceNo := x.seq }) hu.1 ?_
          have ho : own P = (x.name, x.session) := by rw [hx ht hp.symm, ← hp]; rfl
          rw [ho, raise_self]
          cases hm : m (x.name, x.session) with
          | none => rfl
          | some j =>
            have := hgt j hm
            show ((max j x.seq : Nat) : Int) = x.seq
            omega
        · rw [if_neg hp]
          refine ih' (s := { s with tree := (s.tree.update P.sha256 x.name x.session x.seq).1 }) hu.1 ?_
          rw [raise_other _ _ fun e => hp (congrArg Prod.fst e)]
          exact hn
      | false =>
        rw [if_neg (by decide)]
        refine ih' (s := { s with tree := (s.tree.update P.sha256 x.name x.session x.seq).1 }) hu.1 ?_
        rw [update_unchanged h hb]
        exact hn
    · rw [if_neg ht, if_neg ht]
      exact ih' h hn

/-- The own number is `_sequenceNo`. -/
def OwnNumber (P : Params) (s : State) : Prop := number (heard s.applied (own P)) = s.sequenceNo

theorem update_own {P : Params} {s : State} (hk : Kept P s) (hn : OwnNumber P s) (c : Content)
    (hc : ∀ x ∈ c, x.type = 0 → x.name = P.prefixUri → x.session = P.session) : OwnNumber P (update P s c).1 := by
  obtain ⟨n, e, e'⟩ := update_eq P s c
  unfold OwnNumber
  rw [e]
  dsimp only
  rw [heard_snoc]
  have := updateLoop_own P c hc (s := { s with applied := s.applied ++ [c] }) hk.holds hn
  rw [e'] at this
  exact this

theorem updateLoop_own_cons {P : Params} {s : State} {x : SyncState} {xs : Content} (h1 : x.type = 0)
    (h2 : (s.tree.update P.sha256 x.name x.session x.seq).2 = true) (h3 : P.prefixUri = x.name) :
    updateLoop P s (x :: xs) = updateLoop P { s with tree := (s.tree.update P.sha256 x.name x.session x.seq).1, sequenceNo := x.seq } xs := by
  conv => lhs; unfold updateLoop
  rw [if_pos h1]
  dsimp only
  rw [if_pos h2, if_pos h3]

/-- The next number. -/
theorem update_next {P : Params} {s : State} (hk : Kept P s) (hn : OwnNumber P s) (info : Bytes) :
    OwnNumber P (update P { s with sequenceNo := s.sequenceNo + 1 } [ownState P (s.sequenceNo + 1).toNat info]).1 ∧
    (update P { s with sequenceNo := s.sequenceNo + 1 } [ownState P (s.sequenceNo + 1).toNat info]).1.sequenceNo = s.sequenceNo + 1 := by
  have hge : (-1 : Int) ≤ s.sequenceNo := by
    rw [← hn]
    cases heard s.applied (own P) <;> unfold number <;> dsimp only <;> omega
  have hraise : number ((heard s.applied).hear [ownState P (s.sequenceNo + 1).toNat info] (own P)) = s.sequenceNo + 1 := by
    show number ((heard s.applied).raise (own P) (s.sequenceNo + 1).toNat (own P)) = _
    rw [raise_self]
    unfold OwnNumber at hn
    cases hm : heard s.applied (own P) with
    | none =>
      show (((s.sequenceNo + 1).toNat : Nat) : Int) = _
      omega
    | some j =>
      rw [hm] at hn
      have hj : (j : Int) = s.sequenceNo := hn
      show ((max j (s.sequenceNo + 1).toNat : Nat) : Int) = _
      omega
  have hup : (s.tree.update P.sha256 P.prefixUri P.session (s.sequenceNo + 1).toNat).2 = true := by
    rw [(update_holds hk.holds P.prefixUri P.session (s.sequenceNo + 1).toNat).2.1]
    intro j hj
    unfold OwnNumber at hn
    rw [show heard s.applied (own P) = some j from hj] at hn
    have : (j : Int) = s.sequenceNo := hn
    omega
  obtain ⟨n, e, e'⟩ := update_eq P { s with sequenceNo := s.sequenceNo + 1 } [ownState P (s.sequenceNo + 1).toNat info]
  have hseq : n = s.sequenceNo + 1 := by
    have h1 := congrArg State.sequenceNo e'
    dsimp only at h1
    rw [← h1]
    rw [updateLoop_own_cons rfl hup rfl]
    show (((s.sequenceNo + 1).toNat : Nat) : Int) = _
    omega
  unfold OwnNumber
  rw [e]
  dsimp only
  rw [heard_snoc, hraise, hseq]
  exact ⟨rfl, rfl⟩

theorem initialLoop_own {P : Params} (c : Content) {s : State} (hk : Kept P s) (hn : OwnNumber P s) : OwnNumber P (initialLoop P s c) := by
  induction c generalizing s with
  | nil => exact hn
  | cons x c ih =>
    unfold initialLoop
    have h1 : OwnNumber P (update P s [ownState P (x.seq + 1)]).1 := update_own hk hn _ fun y hy _ _ => by rw [List.mem_singleton.1 hy]; rfl
    have h2 := update_kept hk [ownState P (x.seq + 1)]
    split
    · dsimp only
      split
      · exact ih (s := (update P s [ownState P (x.seq + 1)]).1.emit .initialized) h2 h1
      · exact ih h2 h1
    · exact ih hk hn

theorem initialOndata_own {P : Params} (c : Content) (hc : ∀ x ∈ c, x.type = 0 → x.name = P.prefixUri → x.session = P.session) {s : State}
    (hk : Kept P s) (hn : OwnNumber P s) : OwnNumber P (initialOndata P s c) := by
  unfold initialOndata
  dsimp only
  have h1 : Kept P (initialLoop P (update P s c).1 c) := initialLoop_kept c (update_kept hk c)
  have g1 : OwnNumber P (initialLoop P (update P s c).1 c) := initialLoop_own c (update_kept hk c) (update_own hk hn c hc)
  generalize initialLoop P (update P s c).1 c = s1 at h1 g1
  have h2 : Kept P (broadcastSyncState P s1 (update P s c).1.tree.root [ownState P s1.sequenceNo.toNat]) := h1
  have g2 : OwnNumber P (broadcastSyncState P s1 (update P s c).1.tree.root [ownState P s1.sequenceNo.toNat]) := g1
  generalize broadcastSyncState P s1 (update P s c).1.tree.root [ownState P s1.sequenceNo.toNat] = s2 at h2 g2
  split
  · exact g2
  · have h3 := (update_next h2 g2 []).1
    split
    · exact h3
    · exact h3

/-- The invariant of a disciplined history. -/
structure Orderly (P : Params) (s : State) : Prop where
  ownNumber : OwnNumber P s
  initial : (∃ o ∈ s.outstanding, o.2 = true) → (∃ n, s.outstanding = [(n, true)]) ∧ s.sequenceNo = -1 ∧ .initialized ∉ s.events ∧ s.applied = []

theorem erase_false {l : List (Name × Bool)} (h : ¬ ∃ o ∈ l, o.2 = true) (i : Nat) (o : List (Name × Bool)) (ho : ∀ x ∈ o, x.2 = false) :
    ¬ ∃ x ∈ l.eraseIdx i ++ o, x.2 = true := by
  rintro ⟨x, hx, h1⟩
  rcases List.mem_append.1 hx with hx | hx
  · exact h ⟨x, List.mem_of_mem_eraseIdx hx, h1⟩
  · rw [ho x hx] at h1; exact nomatch h1

theorem append_false {l : List (Name × Bool)} (h : ¬ ∃ o ∈ l, o.2 = true) (o : List (Name × Bool)) (ho : ∀ x ∈ o, x.2 = false) :
    ¬ ∃ x ∈ l ++ o, x.2 = true := by
  rintro ⟨x, hx, h1⟩
  rcases List.mem_append.1 hx with hx | hx
  · exact h ⟨x, hx, h1⟩
  · rw [ho x hx] at h1; exact nomatch h1

theorem Orderly.erased {P : Params} {s : State} (h : Orderly P s) {i : Nat} {x : Name × Bool} (hi : s.outstanding[i]? = some x) :
    ¬ ∃ o ∈ s.outstanding.eraseIdx i, o.2 = true := by
  rintro ⟨o, ho, h1⟩
  obtain ⟨⟨n, hn⟩, _⟩ := h.initial ⟨o, List.mem_of_mem_eraseIdx ho, h1⟩
  rw [hn] at ho hi
  cases i with
  | zero => simp at ho
  | succ i => simp at hi

theorem orderly_step {P : Params} {s : State} (hk : Kept P s) (h : Orderly P s) (op : Op)
    (hd : match op with
      | .publish _ => .initialized ∈ s.events
      | .data _ bytes => ∀ c, P.parse bytes = .ok c → ∀ x ∈ c, x.type = 0 → x.name = P.prefixUri → x.session = P.session
      | .judge _ => ∀ o ∈ s.outstanding, o.2 = false
      | _ => True) : Orderly P (perform P s op).2 := by
  cases op with
  | publish info =>
    have hno : ¬ ∃ o ∈ s.outstanding, o.2 = true := fun hx => (h.initial hx).2.2.1 hd
    obtain ⟨t, lg, n, ev, o, e, _, ho⟩ := publish_form P s info
    refine ⟨?_, ?_⟩
    · show OwnNumber P (publishNextSequenceNo P s info).2
      unfold publishNextSequenceNo
      dsimp only
      have h1 := (update_next (s := broadcastSyncState P s s.tree.root [ownState P (s.sequenceNo + 1).toNat info]) hk h.ownNumber info).1
      have e : ({ broadcastSyncState P s s.tree.root [ownState P (s.sequenceNo + 1).toNat info] with sequenceNo := s.sequenceNo + 1 } : State) =
          broadcastSyncState P { s with sequenceNo := s.sequenceNo + 1 } s.tree.root [ownState P (s.sequenceNo + 1).toNat info] := rfl
      have e2 : (broadcastSyncState P s s.tree.root [ownState P (s.sequenceNo + 1).toNat info]).sequenceNo = s.sequenceNo := rfl
      rw [e2, e] at h1
      generalize update P _ _ = r at h1
      obtain ⟨s', b⟩ := r
      cases b <;> exact h1
    · show (∃ o ∈ (publishNextSequenceNo P s info).2.outstanding, _) → _
      rw [e]
      exact fun hx => absurd hx (append_false hno _ ho)
  | interest nm =>
    obtain ⟨ev, w, e, hev⟩ := onInterest_frame P s nm
    show Orderly P (onInterest P s nm).2
    rw [e]
    refine ⟨h.ownNumber, fun hx => ?_⟩
    obtain ⟨h1, h2, h3, h4⟩ := h.initial hx
    refine ⟨h1, h2, fun hm => ?_, h4⟩
    rcases List.mem_append.1 hm with hm | hm
    · exact h3 hm
    · exact hev _ hm
  | data i b =>
    unfold perform
    dsimp only
    cases hi : s.outstanding[i]? with
    | none => exact h
    | some x =>
      dsimp only
      have hno := h.erased hi
      refine ⟨?_, ?_⟩
      · unfold onData
        split
        · exact h.ownNumber
        · cases hp : P.parse b with
          | error e => exact h.ownNumber
          | ok c =>
            dsimp only
            split
            · exact initialOndata_own (s := { s with outstanding := s.outstanding.eraseIdx i }) c (hd c hp) hk h.ownNumber
            · exact update_own (s := { s with outstanding := s.outstanding.eraseIdx i }) hk h.ownNumber c (hd c hp)
      · rcases onData_form P { s with outstanding := s.outstanding.eraseIdx i } x.1 b with e | ⟨c, hp, _, t, lg, n, ks, ev, isR, e, hev, hks⟩
        · rw [e]
          exact fun hx => absurd hx hno
        · rw [e]
          exact fun hx => absurd hx (append_false hno _ (by simp))
  | timeout i =>
    unfold perform
    dsimp only
    cases hi : s.outstanding[i]? with
    | none => exact h
    | some x =>
      obtain ⟨nm, f⟩ := x
      have hno := h.erased hi
      cases f with
      | true =>
        dsimp only
        have hm1 := (h.initial ⟨_, List.mem_of_getElem? hi, rfl⟩).2.1
        refine ⟨?_, ?_⟩
        · unfold initialTimeOut
          split
          · exact h.ownNumber
          · dsimp only
            rw [if_neg (by rw [hm1]; decide)]
            exact (update_next (s := { s with outstanding := s.outstanding.eraseIdx i }) hk h.ownNumber []).1
        · obtain ⟨t, lg, n, cs, ev, o, e, hev, ho, hcs⟩ := initialTimeOut_form P { s with outstanding := s.outstanding.eraseIdx i }
          rw [e]
          exact fun hx => absurd hx (append_false hno _ ho)
      | false =>
        obtain ⟨ev, o, e, hev, ho⟩ := syncTimeout_frame P { s with outstanding := s.outstanding.eraseIdx i } nm
        dsimp only
        rw [e]
        exact ⟨h.ownNumber, fun hx => absurd hx (append_false hno _ ho)⟩
  | judge i =>
    unfold perform
    dsimp only
    cases hi : s.waits[i]? with
    | none => exact h
    | some d =>
      obtain ⟨ev, o, e, hev, ho⟩ := judge_frame P { s with waits := s.waits.eraseIdx i } d
      dsimp only
      rw [e]
      refine ⟨h.ownNumber, fun hx => absurd hx (append_false ?_ _ ho)⟩
      rintro ⟨x, hx, h1⟩
      rw [hd x hx] at h1
      exact nomatch h1
  | shutdown => exact ⟨h.ownNumber, h.initial⟩

theorem run_orderly {P : Params} (ops : List Op) : Disciplined P ops → Orderly P (run P ops) := by
  refine snoc_induction (Q := fun ops => Disciplined P ops → Orderly P (run P ops)) (fun _ => ?_) (fun a op ih hd => ?_) ops
  · refine ⟨rfl, fun _ => ⟨⟨_, rfl⟩, rfl, ?_, rfl⟩⟩
    intro hm
    rcases List.mem_singleton.1 hm
  · rw [run_snoc]
    exact orderly_step (run_kept P a) (ih (disciplined_prefix hd)) op (hd a op [] (by simp))

/-- `getSequenceNo` is the number of the own producer. -/
theorem C61_own_partial (P : Params) (ops : List Op) (hd : Disciplined P ops) :
    (run P ops).sequenceNo = getProducerSequenceNo (run P ops) P.prefixUri P.session := by
  rw [getProducer_eq (run_kept P ops).holds]
  exact (run_orderly ops hd).ownNumber.symm

end Chrono
end PyNDN
