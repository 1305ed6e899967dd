import Verif.Props.ChronoAsk
/-
C61, continued: when the application is called.
-/
namespace PyNDN
namespace Chrono
open Spec.Chrono

/-- What `onReceivedSyncState` is told: the states of the type UPDATE, all of them, in order; and that it is a recovery exactly
if nothing was known before or the Interest was a recovery Interest. -/
theorem C61_told (P : Params) (ops : List Op) (he : (run P ops).enabled = true) (i : Nat) (name : Name) (initial : Bool)
    (hi : (run P ops).outstanding[i]? = some (name, initial)) (bytes : Bytes) (c : Content) (hp : P.parse bytes = .ok c) :
    let s := run P ops
    let s' := run P (ops ++ [.data i bytes])
    ∃ ev, s'.events = s.events ++ ev ++ [.received (c.filter fun x => x.type = 0) (s.tree.root = ['0', '0'] ∨ name.length = P.broadcast.length + 2),
      .express (appendText P.broadcast s'.tree.root) P.lifetime] ∧ ∀ e ∈ ev, Unreported e := by
  intro s s'
  have e0 : s' = (onData P { s with outstanding := s.outstanding.eraseIdx i } name bytes).2 := by
    show run P (ops ++ [.data i bytes]) = _
    rw [run_snoc]
    unfold perform
    dsimp only
    rw [hi]
  rw [e0]
  unfold onData
  dsimp only
  rw [if_neg (by rw [he]; decide), hp]
  dsimp only
  split
  · rename_i hr
    obtain ⟨t, lg, n, ks, ev, e, hev⟩ := initialOndata_form P c { s with outstanding := s.outstanding.eraseIdx i }
    rw [e]
    refine ⟨ev, ?_, hev⟩
    simp [State.emit, State.ask, State.express, reported, hr]
  · rename_i hr
    obtain ⟨t, lg, n, e⟩ := update_form P { s with outstanding := s.outstanding.eraseIdx i } c
    rw [e]
    refine ⟨[], ?_, nofun⟩
    simp [State.emit, State.ask, State.express, reported, hr]

/-- After the wait for an unknown digest: if it is known by then and not the current one, it is answered as in
`C61_answer_partial`; if it is the current one, nothing is done. -/
theorem C61_judged (P : Params) (ops : List Op) (i : Nat) (d : Text) (hi : (run P ops).waits[i]? = some d) (he : (run P ops).enabled = true)
    (hr : RootsDiffer P.sha256 (run P ops).applied) (hk : d ∈ (run P ops).log.map (·.1)) :
    let s := run P ops
    let s' := { s with waits := s.waits.eraseIdx i }
    (d = s.tree.root → perform P s (.judge i) = (.ok (), s')) ∧
    (d ≠ s.tree.root → ∃ c m, perform P s (.judge i) = (.ok (), s'.emit (.put (appendText P.broadcast d) (P.serialize c) none)) ∧
      (∃ j, m = heard (s.applied.take j)) ∧ (∀ t, Holds P.sha256 t m → t.root = d) ∧
      Le (m.hear c) (heard s.applied) ∧ (InOrder s.applied → m.hear c = heard s.applied)) := by
  intro s s'
  obtain ⟨idx, e, hf, hidx, hed⟩ := logFind_some hk
  have e0 : perform P s (.judge i) = (.ok (), judgeRecovery P s' d) := by
    unfold perform
    dsimp only
    rw [hi]
  have hf' : logFind s' d = some idx := hf
  have hj : judgeRecovery P s' d = if d ≠ s'.tree.root then processSyncInterest P s' idx d else s' := by
    unfold judgeRecovery
    rw [if_neg (by rw [show s'.enabled = true from he]; decide), hf']
  rw [e0, hj]
  constructor
  · intro h
    rw [if_neg (by simpa using h)]
  · intro h
    rw [if_pos h]
    have hks : Kept P s' := run_kept P ops
    obtain ⟨c, m, h1, h2⟩ := processSync_spec hks hr hidx (by rw [hed]; exact h)
    rw [hed] at h1 h2
    exact ⟨c, m, by rw [h1], h2⟩

theorem initialLoop_applied (P : Params) (c : Content) (s : State) : ∃ cs, (initialLoop P s c).applied = s.applied ++ cs := by
  obtain ⟨t, lg, n, ks, ev, e, _⟩ := initialLoop_form P c s
  exact ⟨_, by rw [e]⟩

theorem initialLoop_initialized {P : Params} (c : Content) {s : State} (hk : Kept P s) (hr : RootsDiffer P.sha256 (initialLoop P s c).applied) :
    .initialized ∈ (initialLoop P s c).events ∨ (initialLoop P s c).tree = s.tree := by
  induction c generalizing s with
  | nil => exact .inr rfl
  | cons x c ih =>
    unfold initialLoop at hr ⊢
    by_cases hx : x.name = P.prefixUri ∧ x.session = P.session
    · rw [if_pos hx] at hr ⊢
      dsimp only at hr ⊢
      cases hb : (update P s [ownState P (x.seq + 1)]).2 with
      | true =>
        rw [if_pos rfl]
        left
        obtain ⟨t, lg, n, ks, ev, e, _⟩ := initialLoop_form P c ((update P s [ownState P (x.seq + 1)]).1.emit .initialized)
        rw [e]
        exact List.mem_append_left _ (List.mem_append_right _ (List.mem_singleton.2 rfl))
      | false =>
        rw [hb] at hr
        rw [if_neg (by decide)] at hr ⊢
        have hsame : (update P s [ownState P (x.seq + 1)]).1.tree = s.tree := by
          obtain ⟨n, e, _⟩ := update_eq P s [ownState P (x.seq + 1)]
          rw [e] at hb ⊢
          dsimp only at hb ⊢
          have hin : (treeHear P.sha256 s.tree [ownState P (x.seq + 1)]).root ∈ s.log.map (·.1) := by
            have := of_decide_eq_false hb
            exact Classical.not_not.1 this
          obtain ⟨cs, hcs⟩ := initialLoop_applied P c (update P s [ownState P (x.seq + 1)]).1
          rw [hcs] at hr
          have hr1 := rootsDiffer_of_append hr
          rw [e] at hr1
          have hc1 : (coreUpdate P.sha256 (s.tree, s.log) [ownState P (x.seq + 1)]).1 = treeHear P.sha256 s.tree [ownState P (x.seq + 1)] := by
            unfold coreUpdate; dsimp only; split <;> rfl
          rw [hc1]
          exact same_tree hk hr1 hin
        rw [← hsame]
        exact ih (update_kept hk _) hr
    · rw [if_neg hx] at hr ⊢
      exact ih hk hr

theorem initialLoop_raises {P : Params} (c : Content) {s : State} (x : SyncState) (hx : x ∈ c) (hown : x.name = P.prefixUri ∧ x.session = P.session) :
    ∃ v, heard (initialLoop P s c).applied (own P) = some v ∧ x.seq + 1 ≤ v := by
  induction c generalizing s with
  | nil => exact nomatch hx
  | cons y c ih =>
    unfold initialLoop
    rcases List.mem_cons.1 hx with rfl | hx
    · rw [if_pos hown]
      dsimp only
      have key : ∀ S : State, S.applied = s.applied ++ [[ownState P (x.seq + 1)]] → ∃ v, heard (initialLoop P S c).applied (own P) = some v ∧ x.seq + 1 ≤ v := by
        intro S hS
        obtain ⟨cs, hcs⟩ := initialLoop_applied P c S
        rw [hcs, hS]
        obtain ⟨v, h1, h2⟩ := hear_mem (heard s.applied) [ownState P (x.seq + 1)] (ownState P (x.seq + 1)) (List.mem_singleton.2 rfl) rfl
        rw [← heard_snoc] at h1
        have hle := heard_take_le (s.applied ++ [[ownState P (x.seq + 1)]] ++ cs) (s.applied ++ [[ownState P (x.seq + 1)]]).length
        rw [List.take_left' rfl] at hle
        obtain ⟨v', h3, h4⟩ := hle (own P) v h1
        have h2' : x.seq + 1 ≤ v := h2
        exact ⟨v', h3, by omega⟩
      obtain ⟨t, lg, n, e⟩ := update_form P s [ownState P (x.seq + 1)]
      split
      · exact key _ (by rw [e]; rfl)
      · exact key _ (by rw [e])
    · split
      · dsimp only
        split
        · exact ih hx
        · exact ih hx
      · exact ih hx

theorem initialLoop_none {P : Params} (c : Content) (s : State) (h : ∀ x ∈ c, ¬ (x.name = P.prefixUri ∧ x.session = P.session)) : initialLoop P s c = s := by
  induction c with
  | nil => rfl
  | cons x c ih =>
    unfold initialLoop
    rw [if_neg (h x (List.mem_cons_self ..))]
    exact ih fun y hy => h y (List.mem_cons_of_mem _ hy)

theorem initialOndata_initialized {P : Params} (c : Content) {s : State} (hk : Kept P s) (hempty : s.applied = [])
    (hr : RootsDiffer P.sha256 (initialOndata P s c).applied) : .initialized ∈ (initialOndata P s c).events := by
  have hu : Kept P (update P s c).1 := update_kept hk c
  have huapp : (update P s c).1.applied = [c] := by
    obtain ⟨t, lg, n, e⟩ := update_form P s c
    rw [e, hempty]
    rfl
  have hsum : ∃ cs, (initialOndata P s c).applied = (initialLoop P (update P s c).1 c).applied ++ cs ∧
      ((initialLoop P (update P s c).1 c).tree.find P.prefixUri P.session = none → RootsDiffer P.sha256 ((initialLoop P (update P s c).1 c).applied ++ cs) →
        .initialized ∈ (initialOndata P s c).events) ∧ ∀ e ∈ (initialLoop P (update P s c).1 c).events, e ∈ (initialOndata P s c).events := by
    unfold initialOndata
    dsimp only
    have h1 : Kept P (initialLoop P (update P s c).1 c) := initialLoop_kept c hu
    generalize hS1 : initialLoop P (update P s c).1 c = s1 at h1
    have hb : ∃ ev, broadcastSyncState P s1 (update P s c).1.tree.root [ownState P s1.sequenceNo.toNat] = { s1 with events := s1.events ++ ev } := ⟨_, rfl⟩
    obtain ⟨ev, hb⟩ := hb
    rw [hb]
    dsimp only
    cases hf : s1.tree.find P.prefixUri P.session with
    | some j => exact ⟨[], by simp, fun h => (nomatch h), fun e he => List.mem_append_left _ he⟩
    | none =>
      obtain ⟨t, lg, n, e⟩ := update_form P { s1 with events := s1.events ++ ev, sequenceNo := s1.sequenceNo + 1 } [ownState P (s1.sequenceNo + 1).toNat]
      dsimp only
      refine ⟨[[ownState P (s1.sequenceNo + 1).toNat]], ?_, ?_, ?_⟩
      · split
        · show (update P _ _).1.applied = _
          rw [e]
        · rw [e]
      · intro _ hrr
        obtain ⟨n', e', _⟩ := update_eq P { s1 with events := s1.events ++ ev, sequenceNo := s1.sequenceNo + 1 } [ownState P (s1.sequenceNo + 1).toNat]
        have hnot : (treeHear P.sha256 s1.tree [ownState P (s1.sequenceNo + 1).toNat]).root ∉ s1.log.map (·.1) := by
          intro hin
          have hsame := same_tree h1 hrr hin
          have hT := treeHear_holds h1.holds [ownState P (s1.sequenceNo + 1).toNat]
          rw [hsame] at hT
          obtain ⟨v, hv, _⟩ := hear_mem (heard s1.applied) [ownState P (s1.sequenceNo + 1).toNat] _ (List.mem_singleton.2 rfl) rfl
          have h5 := (hT.find_none P.prefixUri P.session).1 hf
          have : (heard s1.applied).hear [ownState P (s1.sequenceNo + 1).toNat] (P.prefixUri, P.session) = some v := hv
          rw [h5] at this
          exact nomatch this
        have htrue : (update P { s1 with events := s1.events ++ ev, sequenceNo := s1.sequenceNo + 1 } [ownState P (s1.sequenceNo + 1).toNat]).2 = true := by
          rw [e']
          exact decide_eq_true hnot
        rw [if_pos htrue]
        exact List.mem_append_right _ (List.mem_singleton.2 rfl)
      · intro x hx
        split
        · refine List.mem_append_left _ ?_
          rw [e]
          exact List.mem_append_left _ hx
        · rw [e]
          exact List.mem_append_left _ hx
  obtain ⟨cs, happ, hnone, hsub⟩ := hsum
  rw [happ] at hr
  have hr1 := rootsDiffer_of_append hr
  by_cases hex : ∃ x ∈ c, x.name = P.prefixUri ∧ x.session = P.session
  · rcases initialLoop_initialized c hu hr1 with h | h
    · exact hsub _ h
    · exfalso
      have h1 := (initialLoop_kept c hu).holds
      rw [h] at h1
      have h2 : heard (initialLoop P (update P s c).1 c).applied = heard [c] := by
        have := hu.holds
        rw [huapp] at this
        exact listing_numbers h1.listing this.listing
      obtain ⟨x, hx, hxo⟩ := hex
      obtain ⟨v, hv, _⟩ := initialLoop_raises (s := (update P s c).1) c x hx hxo
      rw [h2] at hv
      rcases hear_from none' c (own P) v hv with hn | ⟨y, hy, _, hyo, hyv⟩
      · exact nomatch hn
      · obtain ⟨w, hw, hle⟩ := initialLoop_raises (s := (update P s c).1) c y hy ⟨congrArg Prod.fst hyo, congrArg Prod.snd hyo⟩
        rw [h2, hv] at hw
        cases hw
        omega
  · have hno : ∀ x ∈ c, ¬ (x.name = P.prefixUri ∧ x.session = P.session) := fun x hx hh => hex ⟨x, hx, hh⟩
    refine hnone ?_ hr
    rw [initialLoop_none c _ hno, hu.holds.find_none, huapp]
    rw [heard_flatten]
    refine (hear_other none' _ _ ?_)
    intro x hx _ hxe
    rw [List.flatten_cons, List.flatten_nil, List.append_nil] at hx
    exact hno x hx ⟨congrArg Prod.fst hxe, congrArg Prod.snd hxe⟩

/-- `onInitialized` is called when the first Interest is answered or times out, and not before. -/
theorem C61_initialized (P : Params) (ops : List Op) (hd : Disciplined P ops) (i : Nat) (name : Name) (hi : (run P ops).outstanding[i]? = some (name, true))
    (he : (run P ops).enabled = true) :
    .initialized ∉ (run P ops).events ∧ .initialized ∈ (run P (ops ++ [.timeout i])).events ∧
    ∀ bytes c, P.parse bytes = .ok c → RootsDiffer P.sha256 (run P (ops ++ [.data i bytes])).applied → (run P ops).tree.root = ['0', '0'] ∧
      .initialized ∈ (run P (ops ++ [.data i bytes])).events := by
  obtain ⟨_, h2, h3, h4⟩ := (run_orderly ops hd).initial ⟨_, List.mem_of_getElem? hi, rfl⟩
  refine ⟨h3, ?_, ?_⟩
  · rw [run_snoc]
    have e0 : perform P (run P ops) (.timeout i) = initialTimeOut P { run P ops with outstanding := (run P ops).outstanding.eraseIdx i } := by
      unfold perform; dsimp only; rw [hi]
    rw [e0]
    unfold initialTimeOut
    dsimp only
    rw [if_neg (by rw [he]; decide), if_neg (by rw [h2]; decide)]
    exact List.mem_append_left _ (List.mem_append_right _ (List.mem_singleton.2 rfl))
  · intro bytes c hp hr
    have hroot : (run P ops).tree.root = ['0', '0'] := by
      have hk := run_kept P ops
      unfold Kept at hk
      rw [h4] at hk
      have ht : (run P ops).tree = {} := congrArg Prod.fst hk
      rw [ht]
    refine ⟨hroot, ?_⟩
    rw [run_snoc] at hr ⊢
    have e0 : perform P (run P ops) (.data i bytes) = onData P { run P ops with outstanding := (run P ops).outstanding.eraseIdx i } name bytes := by
      unfold perform; dsimp only; rw [hi]
    rw [e0] at hr ⊢
    unfold onData at hr ⊢
    dsimp only at hr ⊢
    rw [if_neg (by rw [he]; decide), hp] at hr ⊢
    dsimp only at hr ⊢
    rw [if_pos hroot] at hr ⊢
    have hr' : RootsDiffer P.sha256 (initialOndata P { run P ops with outstanding := (run P ops).outstanding.eraseIdx i } c).applied := hr
    have := initialOndata_initialized (s := { run P ops with outstanding := (run P ops).outstanding.eraseIdx i }) c (run_kept P ops) h4 hr'
    exact List.mem_append_left _ (List.mem_append_left _ this)

end Chrono
end PyNDN
