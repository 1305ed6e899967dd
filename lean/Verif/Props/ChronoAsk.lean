import Verif.Props.ChronoMeet
/-
C62: a ChronoSync2013 always asks for what comes after its state.
-/
namespace PyNDN
namespace Chrono
open Spec.Chrono

theorem Holds.nonempty {sha : Bytes → Bytes} {t : Tree} {m : Numbers} (h : Holds sha t m) : t.nodes ≠ [] ↔ ∃ p k, m p = some k := by
  constructor
  · intro hn
    cases hq : t.nodes with
    | nil => exact absurd hq hn
    | cons n ns => exact ⟨n.producer, n.sequenceNo, (h.numbers _ _).1 ⟨n, by rw [hq]; exact List.mem_cons_self .., rfl, rfl⟩⟩
  · rintro ⟨p, k, hp⟩ he
    obtain ⟨n, hn, _⟩ := (h.numbers p k).2 hp
    rw [he] at hn
    exact nomatch hn

theorem Holds.rootZero {sha : Bytes → Bytes} (h32 : ∀ b, (sha b).length = 32) {t : Tree} {m : Numbers} (h : Holds sha t m) :
    t.root = ['0', '0'] ↔ t.nodes = [] := by
  rw [h.root]
  constructor
  · intro e
    by_cases hn : t.nodes = []
    · exact hn
    · rw [if_neg hn] at e
      unfold recomputeRoot at e
      have := congrArg List.length e
      rw [toHex_length, h32] at this
      exact nomatch this
  · intro hn
    rw [if_pos hn]

/-- If the digest is in the log already, nothing changed. -/
theorem same_tree {P : Params} {s : State} (hk : Kept P s) {c : Content} (hr : RootsDiffer P.sha256 (s.applied ++ [c]))
    (hin : (treeHear P.sha256 s.tree c).root ∈ s.log.map (·.1)) : treeHear P.sha256 s.tree c = s.tree := by
  have h1 := (replays hr).all
  have h2 := (replays (rootsDiffer_prefix hr)).all
  rw [coreOf_snoc, ← hk] at h1
  rw [← hk] at h2
  have e : (coreUpdate P.sha256 (s.tree, s.log) c).2 = s.log := by
    unfold coreUpdate; dsimp only; rw [if_pos hin]
  rw [e] at h1
  have hT := treeHear_holds hk.holds c
  rw [← heard_snoc, ← h1, h2] at hT
  exact hT.same hk.holds

/-- The Interest for the current digest is outstanding. -/
def Asking (P : Params) (s : State) : Prop := s.enabled = true →
  (s.tree.nodes = [] ∧ s.sequenceNo = -1 ∧ (appendText P.broadcast ['0', '0'], true) ∈ s.outstanding) ∨
  (s.tree.nodes ≠ [] ∧ (appendText P.broadcast s.tree.root, false) ∈ s.outstanding)

theorem hear_some {m : Numbers} {p : Producer} {k : Nat} (h : m p = some k) (c : Content) : ∃ p k, m.hear c p = some k :=
  ⟨p, (hear_le m c p k h).choose, (hear_le m c p k h).choose_spec.1⟩

theorem hear_own_some (P : Params) (m : Numbers) (k : Nat) (info : Bytes) : ∃ p v, m.hear [ownState P k info] p = some v :=
  ⟨own P, _, (hear_mem m [ownState P k info] (ownState P k info) (List.mem_singleton.2 rfl) rfl).choose_spec.1⟩

theorem erase_other {l : List (Name × Bool)} {i : Nat} {x y : Name × Bool} (hi : l[i]? = some x) (hne : y ≠ x) (hy : y ∈ l) : y ∈ l.eraseIdx i := by
  obtain ⟨j, hj⟩ := List.mem_iff_getElem?.1 hy
  rw [List.mem_eraseIdx_iff_getElem?]
  refine ⟨j, ?_, hj⟩
  rintro rfl
  rw [hi] at hj
  exact hne (Option.some.inj hj).symm

theorem asking_step {P : Params} (h32 : ∀ b, (P.sha256 b).length = 32) {s : State} (hk : Kept P s) (h : Asking P s) (op : Op)
    (hr : RootsDiffer P.sha256 (perform P s op).2.applied) (hp : ∀ i b, op = .data i b → ∃ c, P.parse b = .ok c) : Asking P (perform P s op).2 := by
  cases op with
  | publish info =>
    intro he
    obtain ⟨t0, lg0, n0, ev0, o0, e0, _⟩ := publish_form P s info
    have happ : (perform P s (.publish info)).2.applied = s.applied ++ [[ownState P (s.sequenceNo + 1).toNat info]] := by
      show (publishNextSequenceNo P s info).2.applied = _
      rw [e0]
    have hes : s.enabled = true := by
      have : (publishNextSequenceNo P s info).2.enabled = s.enabled := by rw [e0]
      rw [← this]; exact he
    rw [happ] at hr
    have hne : (treeHear P.sha256 s.tree [ownState P (s.sequenceNo + 1).toNat info]).nodes ≠ [] :=
      (treeHear_holds hk.holds _).nonempty.2 (hear_own_some P _ _ _)
    show _ ∨ _
    unfold perform publishNextSequenceNo
    dsimp only
    obtain ⟨n, e, _⟩ := update_eq P (broadcastSyncState P { s with sequenceNo := s.sequenceNo + 1 } s.tree.root [ownState P (s.sequenceNo + 1).toNat info])
      [ownState P (s.sequenceNo + 1).toNat info]
    have hc1 : (coreUpdate P.sha256 (s.tree, s.log) [ownState P (s.sequenceNo + 1).toNat info]).1 = treeHear P.sha256 s.tree [ownState P (s.sequenceNo + 1).toNat info] := by
      unfold coreUpdate; dsimp only; split <;> rfl
    by_cases hin : (treeHear P.sha256 s.tree [ownState P (s.sequenceNo + 1).toNat info]).root ∈ s.log.map (·.1)
    · have hfalse : decide ((treeHear P.sha256 (broadcastSyncState P { s with sequenceNo := s.sequenceNo + 1 } s.tree.root [ownState P (s.sequenceNo + 1).toNat info]).tree
          [ownState P (s.sequenceNo + 1).toNat info]).root ∉ (broadcastSyncState P { s with sequenceNo := s.sequenceNo + 1 } s.tree.root [ownState P (s.sequenceNo + 1).toNat info]).log.map (·.1)) = false := by
        exact decide_eq_false (fun hx => hx hin)
      rw [hfalse] at e
      rw [e]
      dsimp only
      right
      have hsame := same_tree hk hr hin
      rw [hsame] at hc1 hne
      have e1 : (coreUpdate P.sha256 ((broadcastSyncState P { s with sequenceNo := s.sequenceNo + 1 } s.tree.root [ownState P (s.sequenceNo + 1).toNat info]).tree,
        (broadcastSyncState P { s with sequenceNo := s.sequenceNo + 1 } s.tree.root [ownState P (s.sequenceNo + 1).toNat info]).log) [ownState P (s.sequenceNo + 1).toNat info]).1 = s.tree := hc1
      rw [e1]
      refine ⟨hne, ?_⟩
      rcases h hes with ⟨h1, _⟩ | ⟨_, h2⟩
      · exact absurd h1 hne
      · exact h2
    · have htrue : decide ((treeHear P.sha256 (broadcastSyncState P { s with sequenceNo := s.sequenceNo + 1 } s.tree.root [ownState P (s.sequenceNo + 1).toNat info]).tree
          [ownState P (s.sequenceNo + 1).toNat info]).root ∉ (broadcastSyncState P { s with sequenceNo := s.sequenceNo + 1 } s.tree.root [ownState P (s.sequenceNo + 1).toNat info]).log.map (·.1)) = true := by
        exact decide_eq_true hin
      rw [htrue] at e
      rw [e]
      dsimp only
      right
      refine ⟨?_, List.mem_append_right _ (List.mem_singleton.2 rfl)⟩
      show (coreUpdate P.sha256 (s.tree, s.log) [ownState P (s.sequenceNo + 1).toNat info]).1.nodes ≠ []
      rw [hc1]
      exact hne
  | interest nm =>
    obtain ⟨ev, w, e, hev⟩ := onInterest_frame P s nm
    show Asking P (onInterest P s nm).2
    rw [e]
    exact h
  | data i b =>
    obtain ⟨c, hc⟩ := hp i b rfl
    intro he
    cases hi : s.outstanding[i]? with
    | none =>
      have e0 : perform P s (.data i b) = (.ok (), s) := by unfold perform; dsimp only; rw [hi]
      rw [e0] at he ⊢
      exact h he
    | some x =>
      have e0 : perform P s (.data i b) = onData P { s with outstanding := s.outstanding.eraseIdx i } x.1 b := by unfold perform; dsimp only; rw [hi]
      have hes : s.enabled = true := by
        rw [e0] at he
        rcases onData_form P { s with outstanding := s.outstanding.eraseIdx i } x.1 b with e | ⟨c', _, hh, _⟩
        · rw [e] at he; exact he
        · exact hh
      obtain ⟨g1, g2, g3, ev, isR, g4, _⟩ := data_heard hk hes hi hc
      right
      have hform : ∃ t lg n ap ev, (perform P s (.data i b)).2 = { s with tree := t, log := lg, sequenceNo := n, applied := ap, events := ev, outstanding := s.outstanding.eraseIdx i ++ [(appendText P.broadcast t.root, false)] } := by
        rw [e0]
        unfold onData
        dsimp only
        rw [if_neg (by rw [hes]; decide), hc]
        dsimp only
        split
        · obtain ⟨t, lg, n, ks, ev, e, _⟩ := initialOndata_form P c { s with outstanding := s.outstanding.eraseIdx i }
          rw [e]
          exact ⟨_, _, _, _, _, rfl⟩
        · obtain ⟨t, lg, n, e⟩ := update_form P { s with outstanding := s.outstanding.eraseIdx i } c
          rw [e]
          exact ⟨_, _, _, _, _, rfl⟩
      constructor
      · rw [g1.holds.nonempty]
        by_cases hroot : s.tree.root = ['0', '0']
        · have hin : (initialOndata P { s with outstanding := s.outstanding.eraseIdx i } c).tree.nodes ≠ [] := by
            have hkc : Kept P (initialOndata P { s with outstanding := s.outstanding.eraseIdx i } c) :=
              initialOndata_kept (s := { s with outstanding := s.outstanding.eraseIdx i }) c hk
            unfold initialOndata
            dsimp only
            have h1 : Kept P (initialLoop P (update P { s with outstanding := s.outstanding.eraseIdx i } c).1 c) :=
              initialLoop_kept c (update_kept (s := { s with outstanding := s.outstanding.eraseIdx i }) hk c)
            generalize initialLoop P (update P { s with outstanding := s.outstanding.eraseIdx i } c).1 c = s1 at h1
            have h2 : Kept P (broadcastSyncState P s1 (update P { s with outstanding := s.outstanding.eraseIdx i } c).1.tree.root [ownState P s1.sequenceNo.toNat]) := h1
            generalize broadcastSyncState P s1 (update P { s with outstanding := s.outstanding.eraseIdx i } c).1.tree.root [ownState P s1.sequenceNo.toNat] = s2 at h2
            split
            · rename_i j hj
              obtain ⟨n, hn, _⟩ := h2.holds.find_some hj
              intro hz
              rw [hz] at hn
              simp at hn
            · have h3 : (update P { s2 with sequenceNo := s2.sequenceNo + 1 } [ownState P (s2.sequenceNo + 1).toNat]).1.tree.nodes ≠ [] := by
                obtain ⟨n, e, _⟩ := update_eq P { s2 with sequenceNo := s2.sequenceNo + 1 } [ownState P (s2.sequenceNo + 1).toNat]
                rw [e]
                have hc1 : (coreUpdate P.sha256 (s2.tree, s2.log) [ownState P (s2.sequenceNo + 1).toNat]).1 = treeHear P.sha256 s2.tree [ownState P (s2.sequenceNo + 1).toNat] := by
                  unfold coreUpdate; dsimp only; split <;> rfl
                dsimp only
                rw [hc1]
                exact (treeHear_holds h2.holds _).nonempty.2 (hear_own_some P _ _ _)
              split
              · exact h3
              · exact h3
          have e5 : (perform P s (.data i b)).2.tree = (initialOndata P { s with outstanding := s.outstanding.eraseIdx i } c).tree := by
            rw [e0]
            unfold onData
            dsimp only
            rw [if_neg (by rw [hes]; decide), hc]
            dsimp only
            rw [if_pos hroot]
            rfl
          rw [← g1.holds.nonempty, e5]
          exact hin
        · rw [g3 hroot]
          have hnn : s.tree.nodes ≠ [] := fun hz => hroot ((hk.holds.rootZero h32).2 hz)
          obtain ⟨p, k, hpk⟩ := hk.holds.nonempty.1 hnn
          exact hear_some hpk c
      · obtain ⟨t, lg, n, ap, ev, e⟩ := hform
        rw [e]
        exact List.mem_append_right _ (List.mem_singleton.2 rfl)
  | timeout i =>
    intro he
    cases hi : s.outstanding[i]? with
    | none =>
      have e0 : perform P s (.timeout i) = (.ok (), s) := by unfold perform; dsimp only; rw [hi]
      rw [e0] at he ⊢
      exact h he
    | some x =>
      obtain ⟨nm, f⟩ := x
      cases f with
      | true =>
        have e0 : perform P s (.timeout i) = initialTimeOut P { s with outstanding := s.outstanding.eraseIdx i } := by unfold perform; dsimp only; rw [hi]
        rw [e0] at he ⊢
        obtain ⟨t0, lg0, n0, cs0, ev0, o0, ef, _⟩ := initialTimeOut_form P { s with outstanding := s.outstanding.eraseIdx i }
        have hes : s.enabled = true := by rw [ef] at he; exact he
        unfold initialTimeOut
        dsimp only
        rw [if_neg (by rw [hes]; decide)]
        have hgood : ∀ k : Int, ((update P { s with sequenceNo := k, outstanding := s.outstanding.eraseIdx i } [ownState P k.toNat]).1.emit .initialized |>.ask P).tree.nodes ≠ [] ∧
            (appendText P.broadcast ((update P { s with sequenceNo := k, outstanding := s.outstanding.eraseIdx i } [ownState P k.toNat]).1.emit .initialized |>.ask P).tree.root, false) ∈
            ((update P { s with sequenceNo := k, outstanding := s.outstanding.eraseIdx i } [ownState P k.toNat]).1.emit .initialized |>.ask P).outstanding := by
          intro k
          refine ⟨?_, List.mem_append_right _ (List.mem_singleton.2 rfl)⟩
          show (update P _ _).1.tree.nodes ≠ []
          obtain ⟨n, e, _⟩ := update_eq P { s with sequenceNo := k, outstanding := s.outstanding.eraseIdx i } [ownState P k.toNat]
          rw [e]
          have hc1 : (coreUpdate P.sha256 (s.tree, s.log) [ownState P k.toNat]).1 = treeHear P.sha256 s.tree [ownState P k.toNat] := by
            unfold coreUpdate; dsimp only; split <;> rfl
          dsimp only
          rw [hc1]
          exact (treeHear_holds hk.holds _).nonempty.2 (hear_own_some P _ _ _)
        rcases h hes with ⟨h1, h2, h3⟩ | ⟨h1, h2⟩
        · rw [if_neg (by rw [h2]; decide)]
          exact .inr (hgood _)
        · split
          · exact .inr ⟨h1, erase_other hi (by intro hx; exact nomatch (congrArg Prod.snd hx)) h2⟩
          · exact .inr (hgood _)
      | false =>
        have e0 : perform P s (.timeout i) = syncTimeout P { s with outstanding := s.outstanding.eraseIdx i } nm := by unfold perform; dsimp only; rw [hi]
        rw [e0] at he ⊢
        obtain ⟨ev, o, ef, _, ho⟩ := syncTimeout_frame P { s with outstanding := s.outstanding.eraseIdx i } nm
        have hes : s.enabled = true := by rw [ef] at he; exact he
        rcases h hes with ⟨h1, h2, h3⟩ | ⟨h1, h2⟩
        · rw [ef]
          exact .inl ⟨h1, h2, List.mem_append_left _ (erase_other hi (by intro hx; exact nomatch (congrArg Prod.snd hx)) h3)⟩
        · right
          by_cases hnm : nm = appendText P.broadcast s.tree.root
          · have hdig := hk.holds.isDigest h32
            have hesc : (⟨.generic, encodeUtf8 s.tree.root⟩ : Component).toEscapedString = s.tree.root := escaped_hex hdig.1 hdig.2
            unfold syncTimeout
            dsimp only
            rw [if_neg (by rw [hes]; decide), hnm]
            rw [show pyIndex (appendText P.broadcast s.tree.root) (P.broadcast.length : Nat) = .ok ⟨.generic, encodeUtf8 s.tree.root⟩ from pyIndex_append P.broadcast [] _]
            dsimp only
            rw [if_pos hesc]
            exact ⟨h1, List.mem_append_right _ (List.mem_singleton.2 rfl)⟩
          · rw [ef]
            exact ⟨h1, List.mem_append_left _ (erase_other hi (by intro hx; exact hnm (congrArg Prod.fst hx).symm) h2)⟩
  | judge i =>
    unfold perform
    dsimp only
    cases hi : s.waits[i]? with
    | none => exact h
    | some d =>
      obtain ⟨ev, o, e, hev, ho⟩ := judge_frame P { s with waits := s.waits.eraseIdx i } d
      dsimp only
      rw [e]
      intro he
      rcases h he with ⟨h1, h2, h3⟩ | ⟨h1, h2⟩
      · exact .inl ⟨h1, h2, List.mem_append_left _ h3⟩
      · exact .inr ⟨h1, List.mem_append_left _ h2⟩
  | shutdown => exact fun he => (nomatch he)

theorem rootsDiffer_of_append {sha : Bytes → Bytes} {a b : List Content} : RootsDiffer sha (a ++ b) → RootsDiffer sha a := by
  refine snoc_induction (Q := fun b => RootsDiffer sha (a ++ b) → RootsDiffer sha a) (fun h => by rwa [List.append_nil] at h) (fun b c ih h => ?_) b
  rw [← List.append_assoc] at h
  exact ih (rootsDiffer_prefix h)

/-- Until `shutdown`, whatever happens, an Interest whose name is the broadcast prefix and the current digest is outstanding:
published, received, timed out.  All that is received can be parsed, and different states have different digests. -/
theorem C62_asks (P : Params) (h32 : ∀ b, (P.sha256 b).length = 32) (ops : List Op) (hp : ∀ i b, .data i b ∈ ops → ∃ c, P.parse b = .ok c)
    (hr : RootsDiffer P.sha256 (run P ops).applied) (he : (run P ops).enabled = true) :
    ∃ initial, (appendText P.broadcast (run P ops).tree.root, initial) ∈ (run P ops).outstanding := by
  have key : Asking P (run P ops) := by
    revert hp hr
    clear he
    refine snoc_induction (Q := fun ops => (∀ i b, Op.data i b ∈ ops → ∃ c, P.parse b = .ok c) → RootsDiffer P.sha256 (run P ops).applied → Asking P (run P ops))
      (fun _ _ _ => .inl ⟨rfl, rfl, List.mem_singleton.2 rfl⟩) (fun a op ih hp hr => ?_) ops
    rw [run_snoc] at hr ⊢
    obtain ⟨cs, ev, h1, _⟩ := perform_form P (run P a) op
    refine asking_step h32 (run_kept P a) (ih (fun i b hx => hp i b (List.mem_append_left _ hx)) (rootsDiffer_of_append (b := cs) (h1 ▸ hr))) op hr ?_
    rintro i b rfl
    exact hp i b (List.mem_append_right _ (List.mem_singleton.2 rfl))
  rcases key he with ⟨h1, _, h3⟩ | ⟨_, h2⟩
  · exact ⟨true, by rw [((run_kept P ops).holds.rootZero h32).2 h1]; exact h3⟩
  · exact ⟨false, h2⟩

end Chrono
end PyNDN
