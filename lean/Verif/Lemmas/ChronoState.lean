import Verif.Lemmas.ChronoSync
/-
Lemmas for C61 and C62: the state of a ChronoSync2013.
-/
namespace PyNDN
namespace Chrono
open Spec.Chrono

/-! ### Numbers -/

theorem raise_self (m : Numbers) (p : Producer) (k : Nat) : m.raise p k p = some (match m p with | none => k | some j => max j k) := by
  unfold Numbers.raise
  rw [if_pos rfl]
  cases m p <;> rfl

theorem raise_other (m : Numbers) {p q : Producer} (k : Nat) (h : q ≠ p) : m.raise p k q = m q := if_neg h

theorem hear_append (m : Numbers) (a b : Content) : m.hear (a ++ b) = (m.hear a).hear b := List.foldl_append ..

theorem heard_snoc (cs : List Content) (c : Content) : heard (cs ++ [c]) = (heard cs).hear c := by
  unfold heard; rw [List.foldl_append]; rfl

/-- Contents heard in turn are one content. -/
theorem heard_flatten (cs : List Content) : heard cs = none'.hear cs.flatten := by
  have : ∀ (cs : List Content) (m : Numbers), cs.foldl Numbers.hear m = m.hear cs.flatten := by
    intro cs
    induction cs with
    | nil => intro m; rfl
    | cons c cs ih => intro m; rw [List.foldl_cons, ih, List.flatten_cons, hear_append]
  exact this cs none'

theorem hear_other (m : Numbers) (c : Content) (p : Producer) (h : ∀ x ∈ c, x.type = 0 → (x.name, x.session) ≠ p) : m.hear c p = m p := by
  induction c generalizing m with
  | nil => rfl
  | cons x c ih =>
    show (Numbers.hear _ c) p = _
    rw [ih _ fun y hy => h y (List.mem_cons_of_mem _ hy)]
    dsimp only
    by_cases hx : x.type = 0
    · rw [if_pos hx]
      exact raise_other _ _ (h x (List.mem_cons_self ..) hx).symm
    · rw [if_neg hx]

/-- A state that was heard is known, with at least its number. -/
theorem hear_mem (m : Numbers) (c : Content) (x : SyncState) (hx : x ∈ c) (ht : x.type = 0) :
    ∃ k, m.hear c (x.name, x.session) = some k ∧ x.seq ≤ k := by
  obtain ⟨a, b, rfl⟩ := List.append_of_mem hx
  rw [hear_append]
  have h1 : ∃ k, (m.hear a |>.raise (x.name, x.session) x.seq) (x.name, x.session) = some k ∧ x.seq ≤ k := by
    rw [raise_self]
    refine ⟨_, rfl, ?_⟩
    split
    · exact Nat.le_refl _
    · exact Nat.le_max_right _ _
  obtain ⟨k, h1, h2⟩ := h1
  have e : (m.hear a).hear (x :: b) = ((m.hear a).raise (x.name, x.session) x.seq).hear b := by
    show Numbers.hear (if x.type = 0 then _ else _) b = _
    rw [if_pos ht]
  rw [e]
  obtain ⟨k', h3, h4⟩ := hear_le _ b _ _ h1
  exact ⟨k', h3, by omega⟩

/-- A number that is known was known before or heard. -/
theorem hear_from (m : Numbers) (c : Content) (p : Producer) (k : Nat) (h : m.hear c p = some k) :
    m p = some k ∨ ∃ x ∈ c, x.type = 0 ∧ (x.name, x.session) = p ∧ x.seq = k := by
  induction c generalizing m with
  | nil => exact .inl h
  | cons x c ih =>
    rcases ih _ h with h | ⟨y, hy, h1⟩
    · dsimp only at h
      by_cases ht : x.type = 0
      · rw [if_pos ht] at h
        by_cases hp : p = (x.name, x.session)
        · subst hp
          rw [raise_self] at h
          cases hm : m (x.name, x.session) with
          | none => rw [hm] at h; exact .inr ⟨x, List.mem_cons_self .., ht, rfl, Option.some.inj h⟩
          | some j =>
            rw [hm] at h
            have : max j x.seq = k := Option.some.inj h
            by_cases hj : j ≤ x.seq
            · exact .inr ⟨x, List.mem_cons_self .., ht, rfl, by omega⟩
            · exact .inl (by congr 1; omega)
        · rw [raise_other _ _ hp] at h; exact .inl h
      · rw [if_neg ht] at h; exact .inl h
    · exact .inr ⟨y, List.mem_cons_of_mem _ hy, h1⟩

/-- Numbers that are bounded stay bounded if what is heard is. -/
theorem hear_bound {m M : Numbers} (h : Le m M) (c : Content)
    (hc : ∀ x ∈ c, x.type = 0 → ∃ k, M (x.name, x.session) = some k ∧ x.seq ≤ k) : Le (m.hear c) M := by
  intro p k hk
  rcases hear_from m c p k hk with h1 | ⟨x, hx, ht, rfl, rfl⟩
  · exact h p k h1
  · exact hc x hx ht

theorem hear_none_le {m m' : Numbers} (h : Le m m') (c : Content) : Le (m.hear c) (m'.hear c) :=
  hear_bound (le_trans h (hear_le _ _)) c fun x hx ht => hear_mem _ _ x hx ht

theorem heard_take_le (cs : List Content) (i : Nat) : Le (heard (cs.take i)) (heard cs) := by
  rw [heard_flatten, heard_flatten]
  conv => rhs; rw [← List.take_append_drop i cs, List.flatten_append, hear_append]
  exact hear_le _ _

/-! ### The tree and the log -/

/-- The tree after a content. -/
def treeHear (sha : Bytes → Bytes) (t : Tree) (c : Content) : Tree :=
  c.foldl (fun t x => if x.type = 0 then (t.update sha x.name x.session x.seq).1 else t) t

theorem treeHear_holds {sha : Bytes → Bytes} {t : Tree} {m : Numbers} (h : Holds sha t m) (c : Content) :
    Holds sha (treeHear sha t c) (m.hear c) := by
  unfold treeHear Numbers.hear
  induction c generalizing t m with
  | nil => exact h
  | cons x c ih =>
    rw [List.foldl_cons, List.foldl_cons]
    refine ih ?_
    split
    · exact (update_holds h _ _ _).1
    · exact h

theorem updateLoop_frame (P : Params) (c : Content) (s : State) :
    ∃ n, updateLoop P s c = { s with tree := treeHear P.sha256 s.tree c, sequenceNo := n } := by
  induction c generalizing s with
  | nil => exact ⟨s.sequenceNo, rfl⟩
  | cons x c ih =>
    unfold updateLoop treeHear
    rw [List.foldl_cons]
    split
    · dsimp only
      split
      · split
        · obtain ⟨n, e⟩ := ih { s with tree := (s.tree.update P.sha256 x.name x.session x.seq).1, sequenceNo := x.seq }
          exact ⟨n, e⟩
        · obtain ⟨n, e⟩ := ih { s with tree := (s.tree.update P.sha256 x.name x.session x.seq).1 }
          exact ⟨n, e⟩
      · obtain ⟨n, e⟩ := ih { s with tree := (s.tree.update P.sha256 x.name x.session x.seq).1 }
        exact ⟨n, e⟩
    · obtain ⟨n, e⟩ := ih s
      exact ⟨n, e⟩

theorem logFind_none (s : State) (d : Text) : logFind s d = none ↔ d ∉ s.log.map (·.1) := by
  unfold logFind
  rw [List.findIdx?_eq_none_iff]
  simp only [decide_eq_false_iff_not, List.mem_map, not_exists, not_and]
  exact ⟨fun h x hx e => h x hx e.symm, fun h x hx e => h x hx e.symm⟩

/-- The tree and the log after a content. -/
def coreUpdate (sha : Bytes → Bytes) (k : Tree × List (Text × Content)) (c : Content) : Tree × List (Text × Content) :=
  let t := treeHear sha k.1 c
  if t.root ∈ k.2.map (·.1) then (t, k.2) else (t, k.2 ++ [(t.root, c)])

/-- The tree and the log after contents. -/
def coreOf (sha : Bytes → Bytes) (cs : List Content) : Tree × List (Text × Content) :=
  cs.foldl (coreUpdate sha) ({}, [(['0', '0'], [])])

theorem coreOf_snoc (sha : Bytes → Bytes) (cs : List Content) (c : Content) : coreOf sha (cs ++ [c]) = coreUpdate sha (coreOf sha cs) c := by
  unfold coreOf; rw [List.foldl_append]; rfl

/-- What `update` does. -/
theorem update_eq (P : Params) (s : State) (c : Content) : ∃ n, update P s c =
    ({ s with tree := (coreUpdate P.sha256 (s.tree, s.log) c).1, log := (coreUpdate P.sha256 (s.tree, s.log) c).2,
              applied := s.applied ++ [c], sequenceNo := n },
      decide ((treeHear P.sha256 s.tree c).root ∉ s.log.map (·.1))) ∧
    updateLoop P { s with applied := s.applied ++ [c] } c =
      { s with tree := treeHear P.sha256 s.tree c, applied := s.applied ++ [c], sequenceNo := n } := by
  obtain ⟨n, e⟩ := updateLoop_frame P c { s with applied := s.applied ++ [c] }
  refine ⟨n, ?_, e⟩
  unfold update
  rw [e]
  dsimp only
  by_cases h : (treeHear P.sha256 s.tree c).root ∈ s.log.map (·.1)
  · have hf : logFind { s with tree := treeHear P.sha256 s.tree c, applied := s.applied ++ [c], sequenceNo := n } (treeHear P.sha256 s.tree c).root ≠ none := by
      rw [Ne, logFind_none]; exact fun h' => h' h
    cases hq : logFind { s with tree := treeHear P.sha256 s.tree c, applied := s.applied ++ [c], sequenceNo := n } (treeHear P.sha256 s.tree c).root with
    | none => exact absurd hq hf
    | some i =>
      unfold coreUpdate
      dsimp only
      rw [if_pos h, decide_eq_false (by simpa using h)]
  · have hf : logFind { s with tree := treeHear P.sha256 s.tree c, applied := s.applied ++ [c], sequenceNo := n } (treeHear P.sha256 s.tree c).root = none := by
      rw [logFind_none]; exact h
    rw [hf]
    unfold coreUpdate
    dsimp only
    rw [if_neg h, decide_eq_true h]

/-- The tree and the log are those of the contents. -/
def Kept (P : Params) (s : State) : Prop := (s.tree, s.log) = coreOf P.sha256 s.applied

theorem update_kept {P : Params} {s : State} (h : Kept P s) (c : Content) : Kept P (update P s c).1 := by
  obtain ⟨n, e, _⟩ := update_eq P s c
  rw [e]
  unfold Kept
  dsimp only
  rw [coreOf_snoc, ← h]

theorem initialLoop_kept {P : Params} (c : Content) {s : State} (h : Kept P s) : Kept P (initialLoop P s c) := by
  induction c generalizing s with
  | nil => exact h
  | cons x c ih =>
    unfold initialLoop
    split
    · dsimp only
      split
      · exact ih (update_kept h _)
      · exact ih (update_kept h _)
    · exact ih h

theorem initialOndata_kept {P : Params} (c : Content) {s : State} (h : Kept P s) : Kept P (initialOndata P s c) := by
  unfold initialOndata
  dsimp only
  have h1 : Kept P (initialLoop P (update P s c).1 c) := initialLoop_kept c (update_kept h c)
  generalize initialLoop P (update P s c).1 c = s1 at h1
  have h2 : Kept P (broadcastSyncState P s1 (update P s c).1.tree.root [ownState P s1.sequenceNo.toNat]) := h1
  generalize broadcastSyncState P s1 (update P s c).1.tree.root [ownState P s1.sequenceNo.toNat] = s2 at h2
  split
  · exact h2
  · have h3 : Kept P (update P { s2 with sequenceNo := s2.sequenceNo + 1 } [ownState P (s2.sequenceNo + 1).toNat]).1 := update_kept (s := { s2 with sequenceNo := s2.sequenceNo + 1 }) h2 _
    split
    · exact h3
    · exact h3

/-- Not a callback of the application. -/
def Plain : Event → Prop
  | .received _ _ => False
  | .initialized => False
  | _ => True

theorem processRecovery_frame (P : Params) (s : State) (n : Name) (d : Text) :
    ∃ ev, (processRecoveryInterest P s n d).2 = { s with events := s.events ++ ev } ∧ ∀ e ∈ ev, Plain e := by
  unfold processRecoveryInterest
  split
  · exact ⟨[], by simp, nofun⟩
  · dsimp only
    split
    · split
      · exact ⟨[], by simp, nofun⟩
      · exact ⟨_, rfl, by simp [Plain]⟩
    · exact ⟨[], by simp, nofun⟩

theorem processSync_frame (P : Params) (s : State) (i : Nat) (d : Text) :
    ∃ ev, processSyncInterest P s i d = { s with events := s.events ++ ev } ∧ ∀ e ∈ ev, Plain e := by
  unfold processSyncInterest
  dsimp only
  split
  · exact ⟨_, rfl, by simp [Plain]⟩
  · exact ⟨[], by simp, nofun⟩

theorem answer_frame (P : Params) (s : State) (n : Name) (d : Text) :
    ∃ ev w, (answer P s n d).2 = { s with events := s.events ++ ev, waits := s.waits ++ w } ∧ ∀ e ∈ ev, Plain e := by
  unfold answer
  split
  · obtain ⟨ev, e, hp⟩ := processRecovery_frame P s n d
    exact ⟨ev, [], by rw [e]; simp, hp⟩
  · dsimp only
    split
    · split
      · exact ⟨[.keep n, .wait d], [d], by simp [State.emit], by simp [Plain]⟩
      · obtain ⟨ev, e, hp⟩ := processSync_frame P (s.emit (.keep n)) (by assumption) d
        refine ⟨[.keep n] ++ ev, [], ?_, ?_⟩
        · rw [e]
          simp [State.emit]
        · intro x hx
          rcases List.mem_append.1 hx with hx | hx
          · rw [List.mem_singleton.1 hx]; trivial
          · exact hp x hx
    · exact ⟨[.keep n], [], by simp [State.emit], by simp [Plain]⟩

theorem onInterest_frame (P : Params) (s : State) (n : Name) :
    ∃ ev w, (onInterest P s n).2 = { s with events := s.events ++ ev, waits := s.waits ++ w } ∧ ∀ e ∈ ev, Plain e := by
  unfold onInterest
  split
  · exact ⟨[], [], by simp, nofun⟩
  · split
    · exact ⟨[], [], by simp, nofun⟩
    · split
      · split
        · exact ⟨[], [], by simp, nofun⟩
        · exact answer_frame ..
      · exact answer_frame ..

theorem judge_frame (P : Params) (s : State) (d : Text) :
    ∃ ev o, judgeRecovery P s d = { s with events := s.events ++ ev, outstanding := s.outstanding ++ o } ∧ (∀ e ∈ ev, Plain e) ∧ ∀ x ∈ o, x.2 = false := by
  unfold judgeRecovery
  split
  · exact ⟨[], [], by simp, nofun, nofun⟩
  · split
    · split
      · obtain ⟨ev, e, hp⟩ := processSync_frame P s (by assumption) d
        exact ⟨ev, [], by rw [e]; simp, hp, nofun⟩
      · exact ⟨[], [], by simp, nofun, nofun⟩
    · exact ⟨_, _, rfl, by simp [Plain], by simp⟩

theorem syncTimeout_frame (P : Params) (s : State) (n : Name) :
    ∃ ev o, (syncTimeout P s n).2 = { s with events := s.events ++ ev, outstanding := s.outstanding ++ o } ∧ (∀ e ∈ ev, Plain e) ∧ ∀ x ∈ o, x.2 = false := by
  unfold syncTimeout
  split
  · exact ⟨[], [], by simp, nofun, nofun⟩
  · split
    · exact ⟨[], [], by simp, nofun, nofun⟩
    · dsimp only
      split
      · exact ⟨_, _, rfl, by simp [Plain], by simp⟩
      · exact ⟨[], [], by simp, nofun, nofun⟩

theorem publish_kept {P : Params} {s : State} (h : Kept P s) (info : Bytes) : Kept P (publishNextSequenceNo P s info).2 := by
  unfold publishNextSequenceNo
  dsimp only
  have h1 : Kept P (broadcastSyncState P { s with sequenceNo := s.sequenceNo + 1 } s.tree.root [ownState P (s.sequenceNo + 1).toNat info]) := h
  generalize broadcastSyncState P { s with sequenceNo := s.sequenceNo + 1 } s.tree.root [ownState P (s.sequenceNo + 1).toNat info] = s1 at h1
  have h2 := update_kept h1 [ownState P (s.sequenceNo + 1).toNat info]
  generalize update P s1 [ownState P (s.sequenceNo + 1).toNat info] = r at h2
  obtain ⟨s2, b⟩ := r
  cases b
  · exact h2
  · exact h2

theorem onData_kept {P : Params} {s : State} (h : Kept P s) (n : Name) (b : Bytes) : Kept P (onData P s n b).2 := by
  unfold onData
  split
  · exact h
  · split
    · exact h
    · split
      · exact initialOndata_kept _ h
      · exact update_kept h _

theorem initialTimeOut_kept {P : Params} {s : State} (h : Kept P s) : Kept P (initialTimeOut P s).2 := by
  unfold initialTimeOut
  split
  · exact h
  · dsimp only
    split
    · exact h
    · exact update_kept (s := { s with sequenceNo := s.sequenceNo + 1 }) h _

theorem perform_kept {P : Params} {s : State} (h : Kept P s) (op : Op) : Kept P (perform P s op).2 := by
  cases op with
  | publish info => exact publish_kept h info
  | interest n =>
    obtain ⟨ev, w, e, _⟩ := onInterest_frame P s n
    show Kept P (onInterest P s n).2
    rw [e]
    exact h
  | data i b =>
    unfold perform
    dsimp only
    split
    · exact h
    · exact onData_kept (s := { s with outstanding := s.outstanding.eraseIdx i }) h _ _
  | timeout i =>
    unfold perform
    dsimp only
    split
    · exact h
    · exact initialTimeOut_kept (s := { s with outstanding := s.outstanding.eraseIdx i }) h
    · unfold syncTimeout
      split
      · exact h
      · split
        · exact h
        · dsimp only; split <;> exact h
  | judge i =>
    unfold perform
    dsimp only
    split
    · exact h
    · rename_i d _
      obtain ⟨ev, o, e, _, _⟩ := judge_frame P { s with waits := s.waits.eraseIdx i } d
      dsimp only
      rw [e]
      exact h
  | shutdown => exact h

theorem run_snoc (P : Params) (ops : List Op) (op : Op) : run P (ops ++ [op]) = (perform P (run P ops) op).2 := by
  unfold run; rw [List.foldl_append]; rfl

theorem snoc_cases {α : Type} (l : List α) : l = [] ∨ ∃ a x, l = a ++ [x] := by
  induction l with
  | nil => exact .inl rfl
  | cons y l ih =>
    rcases ih with rfl | ⟨a, x, rfl⟩
    · exact .inr ⟨[], y, rfl⟩
    · exact .inr ⟨y :: a, x, rfl⟩

theorem snoc_induction {α : Type} {Q : List α → Prop} (h0 : Q []) (h1 : ∀ a x, Q a → Q (a ++ [x])) (l : List α) : Q l := by
  have : ∀ n (l : List α), l.length = n → Q l := by
    intro n
    induction n with
    | zero => intro l hl; rw [List.length_eq_zero_iff.1 hl]; exact h0
    | succ n ih =>
      intro l hl
      rcases snoc_cases l with rfl | ⟨a, x, rfl⟩
      · exact h0
      · rw [List.length_append] at hl
        exact h1 a x (ih a (by simpa using hl))
  exact this _ l rfl

theorem run_kept (P : Params) (ops : List Op) : Kept P (run P ops) :=
  snoc_induction (Q := fun ops => Kept P (run P ops)) rfl (fun a x h => by rw [run_snoc]; exact perform_kept h x) ops

theorem core_holds (sha : Bytes → Bytes) (cs : List Content) : Holds sha (coreOf sha cs).1 (heard cs) := by
  refine snoc_induction (Q := fun cs => Holds sha (coreOf sha cs).1 (heard cs)) (holds_empty sha) (fun a c h => ?_) cs
  rw [coreOf_snoc, heard_snoc]
  have e : (coreUpdate sha (coreOf sha a) c).1 = treeHear sha (coreOf sha a).1 c := by
    unfold coreUpdate; dsimp only; split <;> rfl
  rw [e]
  exact treeHear_holds h c

theorem Kept.holds {P : Params} {s : State} (h : Kept P s) : Holds P.sha256 s.tree (heard s.applied) := by
  have := core_holds P.sha256 s.applied
  rw [← h] at this
  exact this

end Chrono
end PyNDN
