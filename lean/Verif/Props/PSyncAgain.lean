import Verif.Props.PSyncPending
/-
C58: when an instance speaks again, and what the delayed calls of answered Interests do.
-/
namespace PyNDN
namespace PSync
open Spec.PSync Spec.Iblt

variable {σ α β : Type}

/-- The method expresses no Interest and does not call the callback with new names. -/
def Silent (m : M σ α) : Prop := ∀ s, (m s).2.log = s.log

theorem Silent.bind {m : M σ α} {f : α → M σ β} (hm : Silent m) (hf : ∀ a, Silent (f a)) : Silent (m >>= f) := by
  intro s
  have h1 := hm s
  cases h : m s with
  | mk r s' =>
    rw [h] at h1
    cases r with
    | ok a => rw [bind_ok h, hf a s']; exact h1
    | error e => rw [bind_error h]; exact h1

theorem silent_pure (a : α) : Silent (pure a : M σ α) := fun _ => rfl
theorem silent_get : Silent (get : M σ (State σ)) := fun _ => rfl
theorem silent_stop (e : Stop) : Silent (stop e : M σ α) := fun _ => rfl
theorem silent_lift (x : Except Err α) : Silent (lift x : M σ α) := fun s => by cases x <;> rfl
theorem silent_modify {f : State σ → State σ} (h : ∀ s, (f s).log = s.log) : Silent (modify f) := h

theorem silent_forEach {f : α → M σ Unit} (h : ∀ a, Silent (f a)) : ∀ l, Silent (forEach f l)
  | [] => silent_pure ()
  | a :: l => (h a).bind fun _ => silent_forEach h l

theorem silent_insertIntoIblt (P : Params σ) (n : Name) : Silent (insertIntoIblt P n) := by
  unfold insertIntoIblt
  exact Silent.bind (silent_modify fun _ => rfl) fun _ => silent_get.bind fun s => (silent_lift _).bind fun t => silent_modify fun _ => rfl

theorem silent_removeName (P : Params σ) (n : Name) : Silent (removeName P n) := by
  unfold removeName
  refine silent_get.bind fun s => ?_
  split
  · exact silent_pure _
  · refine Silent.bind (silent_modify fun _ => rfl) fun _ => silent_get.bind fun s => ?_
    split
    · exact silent_stop _
    · exact Silent.bind (silent_modify fun _ => rfl) fun _ => silent_get.bind fun s => (silent_lift _).bind fun t => silent_modify fun _ => rfl

theorem silent_receiveNames (P : Params σ) : ∀ (ns new : List Name), Silent (receiveNames P ns new)
  | [], new => silent_pure _
  | n :: ns, new => by
    unfold receiveNames
    refine silent_get.bind fun s => ?_
    split
    · exact silent_receiveNames P ns new
    · refine Silent.bind ?_ fun ok => ?_
      · unfold wanted
        split
        · exact silent_pure _
        · refine silent_get.bind fun s => (silent_lift _).bind fun x => ?_
          exact (silent_forEach (silent_removeName P) _).bind fun _ => silent_pure _
      · split
        · exact (silent_insertIntoIblt P n).bind fun _ => silent_receiveNames P ns _
        · exact silent_receiveNames P ns new

theorem silent_deletePending (n : Name) : Silent (deletePendingInterests n : M σ Unit) := by
  unfold deletePendingInterests
  refine silent_get.bind fun s => ?_
  split
  · exact silent_pure _
  · exact silent_modify fun _ => rfl

/-- When the callback is called with new names, a sync Interest with the table that has them follows; otherwise a received
content says nothing. -/
theorem C58_announces (P : Params σ) (hx : ∀ n, P.expressRaises n = none) (s : State σ) (i : Name) (content : Bytes) :
    let s' := (perform P (.data i content) s).2
    s'.log = s.log ∨ ∃ new, new ≠ [] ∧ s'.log = s.log ++ [.update new, .interest (interestName P s')] ∧
      s'.outstanding = interestName P s' := by
  show (onSyncData P i content s).2.log = _ ∨ ∃ new, new ≠ [] ∧ (onSyncData P i content s).2.log =
      s.log ++ [.update new, .interest (interestName P (onSyncData P i content s).2)] ∧
      (onSyncData P i content s).2.outstanding = interestName P (onSyncData P i content s).2
  unfold onSyncData
  have h1 := silent_deletePending i s
  cases e1 : deletePendingInterests i s with
  | mk r s1 =>
  rw [e1] at h1
  dsimp only at h1
  cases r with
  | error e => rw [bind_error e1]; exact .inl h1
  | ok u =>
  rw [bind_ok e1]
  cases decodeState content with
  | error e => exact .inl h1
  | ok state =>
  rw [bind_ok (show lift (Except.ok state) s1 = (.ok state, s1) from rfl)]
  have h2 := silent_receiveNames P state [] s1
  cases e2 : receiveNames P state [] s1 with
  | mk r s2 =>
  rw [e2] at h2
  dsimp only at h2
  cases r with
  | error e => rw [bind_error e2]; exact .inl (h2.trans h1)
  | ok names =>
  rw [bind_ok e2]
  by_cases hn : names.length > 0
  · rw [if_pos hn, modify_bind]
    unfold sendSyncInterest
    rw [get_bind, modify_bind, hx]
    refine .inr ⟨names, List.length_pos_iff.1 hn, ?_, rfl⟩
    show (s2.log ++ [.update names]) ++ [.interest _] = _
    rw [h2, h1, List.append_assoc]
    rfl
  · rw [if_neg hn]
    exact .inl (h2.trans h1)

/-- It does so for a content with a new name. -/
example : let content := encodeState [exName 1, exName 4]
    updatesOf (perform exP (.data [] content) (run exP () [.publishName 0 (exName 1)])).2.log = [[exName 4]] := by decide +kernel

/-! ### Answered Interests -/

/-- A method never forgets that an entry is done. -/
def Remembers (k : Nat) : State σ → Prop := fun s => k ∈ s.removed

theorem Still.remembers {m : M σ α} (hm : Still m) (k : Nat) : Keeps (Remembers k) m := by
  intro s hs
  have := hm s
  unfold waiting at this
  simp only [Prod.mk.injEq] at this
  unfold Remembers
  rw [this.2.1]; exact hs

theorem remembers_modify {k : Nat} {f : State σ → State σ} (h : ∀ s : State σ, k ∈ s.removed → k ∈ (f s).removed) :
    Keeps (Remembers k) (modify f) := fun s hs => h s hs

theorem remembers_deletePending (k : Nat) (n : Name) : Keeps (Remembers k) (deletePendingInterests n : M σ Unit) := by
  unfold deletePendingInterests
  refine Keeps.bind (still_get.remembers k) fun s => ?_
  split
  · exact (still_pure _).remembers k
  · exact remembers_modify fun s hs => List.mem_cons_of_mem _ hs

theorem remembers_satisfyOne (k : Nat) (P : Params σ) (now : Nat) (n : Name) : Keeps (Remembers k) (satisfyOne P now n) := by
  unfold satisfyOne
  refine Keeps.bind (still_get.remembers k) fun s => ?_
  split
  · exact (still_stop _).remembers k
  · refine Keeps.bind ((still_listDifference _ _).remembers k) fun r => ?_
    obtain ⟨ok, positive, negative⟩ := r
    dsimp only
    split
    · exact remembers_modify fun s hs => List.mem_cons_of_mem _ hs
    · refine Keeps.bind ((still_contentNames _ _ _ _).remembers k) fun names => ?_
      split
      · exact Keeps.bind ((still_sendSyncData _ _ _ _).remembers k) fun _ => remembers_modify fun s hs => List.mem_cons_of_mem _ hs
      · exact (still_pure _).remembers k

theorem remembers_perform (k : Nat) (P : Params σ) (op : Op σ) : Keeps (Remembers k) (perform P op) := by
  cases op with
  | publishName now n =>
    show Keeps _ (publishName P now n)
    unfold publishName
    refine Keeps.bind (still_get.remembers k) fun s => ?_
    split
    · exact (still_pure _).remembers k
    · refine Keeps.bind ((still_insertIntoIblt _ _).remembers k) fun _ => ?_
      unfold satisfyPendingInterests
      exact Keeps.bind (still_get.remembers k) fun s => keeps_forEach (remembers_satisfyOne k P now) _
  | removeName n => exact (still_removeName P n).remembers k
  | interest now n l =>
    show Keeps _ (onSyncInterest P now P.syncPrefix.length n l)
    have ans : ∀ name, Keeps (Remembers k) (onSyncInterest.answer P now n l name) := by
      intro name
      unfold onSyncInterest.answer
      refine Keeps.bind ((still_lift _).remembers k) fun c => ?_
      split
      · exact (still_pure _).remembers k
      · refine Keeps.bind ((still_listDifference _ _).remembers k) fun r => ?_
        obtain ⟨ok, positive, negative⟩ := r
        dsimp only
        split
        · refine Keeps.bind (still_get.remembers k) fun s => ?_
          split
          · exact (still_publishContent _ _ _ _ _).remembers k
          · exact (still_pure _).remembers k
        · refine Keeps.bind ((still_contentNames _ _ _ _).remembers k) fun names => ?_
          split
          · exact (still_sendSyncData _ _ _ _).remembers k
          · refine Keeps.bind (still_get.remembers k) fun s => Keeps.bind (remembers_modify fun s hs => hs) fun _ => ?_
            split
            · exact remembers_modify fun s hs => hs
            · exact (still_stop _).remembers k
    unfold onSyncInterest
    refine Keeps.bind (still_get.remembers k) fun s => ?_
    split
    · exact remembers_modify fun s hs => hs
    · refine Keeps.bind ((still_lift _).remembers k) fun rest => ?_
      split
      · exact ans _
      · split
        · exact Keeps.bind ((still_lift _).remembers k) fun _ => ans _
        · exact (still_pure _).remembers k
  | data n c =>
    show Keeps _ (onSyncData P n c)
    unfold onSyncData
    refine Keeps.bind (remembers_deletePending k n) fun _ => Keeps.bind ((still_lift _).remembers k) fun st =>
      Keeps.bind ((still_receiveNames _ _ _).remembers k) fun names => ?_
    split
    · exact Keeps.bind (remembers_modify fun s hs => hs) fun _ => (still_sendSyncInterest P).remembers k
    · exact (still_pure _).remembers k
  | renew => exact (still_sendSyncInterest P).remembers k
  | expire i =>
    show Keeps _ (delayedRemove i)
    unfold delayedRemove
    refine Keeps.bind (still_get.remembers k) fun s => ?_
    split
    · exact (still_pure _).remembers k
    · refine Keeps.bind (remembers_modify fun s hs => hs) fun _ => Keeps.bind (still_get.remembers k) fun s => ?_
      split
      · exact (still_pure _).remembers k
      · exact remembers_modify fun s hs => List.mem_cons_of_mem _ hs
  | expireStore i => exact remembers_modify fun s hs => hs
  | app f => exact remembers_modify fun s hs => hs

/-- An entry that is no longer waiting is done, one that waits was waiting. -/
def Accounted (s0 : State σ) (s : State σ) : Prop :=
  (s.pending.map (·.1)).Nodup ∧ ∀ x ∈ s0.pending, x ∈ s.pending ∨ x.2.entry ∈ s.removed

theorem Still.accounted {m : M σ α} (hm : Still m) (s0 : State σ) : Keeps (Accounted s0) m := by
  intro s hs
  have := hm s
  unfold waiting at this
  simp only [Prod.mk.injEq] at this
  unfold Accounted
  rw [this.1, this.2.1]; exact hs

theorem bind_leads {I J : State σ → Prop} {m : M σ α} {f : α → M σ β} (hm : Keeps I m) (hf : ∀ a s, I s → J (f a s).2)
    (h : ∀ s, I s → J s) : ∀ s, I s → J ((m >>= f) s).2 := by
  intro s hs
  have h1 := hm s hs
  cases e : m s with
  | mk r s' =>
    rw [e] at h1
    cases r with
    | ok a => rw [bind_ok e]; exact hf a s' h1
    | error e' => rw [bind_error e]; exact h _ h1

theorem accounted_satisfyOne (s0 : State σ) (P : Params σ) (now : Nat) (n : Name) : Keeps (Accounted s0) (satisfyOne P now n) := by
  intro s hs
  unfold satisfyOne
  rw [get_bind]
  cases hg : dictGet n s.pending with
  | none => exact hs
  | some e =>
  dsimp only
  let I : State σ → Prop := fun s' => Accounted s0 s' ∧ dictGet n s'.pending = some e
  have still : ∀ {α : Type} {m : M σ α}, Still m → Keeps I m := by
    intro α m hm s' hs'
    refine ⟨hm.accounted s0 s' hs'.1, ?_⟩
    have := hm s'
    unfold waiting at this
    simp only [Prod.mk.injEq] at this
    rw [this.1]; exact hs'.2
  have drop : ∀ s' : State σ, I s' → Accounted s0 { s' with removed := e.entry :: s'.removed, pending := dictDel n s'.pending } := by
    rintro s' ⟨⟨h1, h2⟩, h3⟩
    refine ⟨h1.sublist (List.filter_sublist.map _), ?_⟩
    intro x hx
    rcases h2 x hx with h4 | h4
    · by_cases hxn : x.1 = n
      · right
        have h5 := dictGet_mem h1 (show (x.1, x.2) ∈ s'.pending from h4)
        rw [hxn, h3] at h5
        cases h5
        exact List.mem_cons_self ..
      · exact .inl (mem_dictDel.2 ⟨h4, hxn⟩)
    · exact .inr (List.mem_cons_of_mem _ h4)
  refine bind_leads (I := I) (still (still_listDifference _ _)) (fun r s1 h1 => ?_) (fun _ h => h.1) s ⟨hs, hg⟩
  obtain ⟨ok, positive, negative⟩ := r
  dsimp only
  split
  · exact drop s1 h1
  · refine bind_leads (I := I) (still (still_contentNames _ _ _ _)) (fun names s2 h2 => ?_) (fun _ h => h.1) s1 h1
    split
    · exact bind_leads (I := I) (still (still_sendSyncData _ _ _ _)) (fun _ s3 h3 => drop s3 h3) (fun _ h => h.1) s2 h2
    · exact h2.1

/-- The delayed call of an Interest that was answered by a new name does nothing, whatever came in between: also not to the same
Interest, if it came again. -/
theorem C58_late (P : Params σ) (s : State σ) (hkeys : (s.pending.map (·.1)).Nodup) (N : Name) (e : Pending) (hp : (N, e) ∈ s.pending)
    (now : Nat) (n : Name) (hans : (N, e) ∉ (perform P (.publishName now n) s).2.pending) (ops : List (Op σ)) :
    let s' := ops.foldl (fun s op => (perform P op s).2) (perform P (.publishName now n) s).2
    ∀ i M, s'.timers[i]? = some (M, e.entry) → (perform P (.expire i) s').2 = { s' with timers := s'.timers.eraseIdx i } := by
  intro s' i M hi
  have h1 : e.entry ∈ (perform P (.publishName now n) s).2.removed := by
    have : Accounted s (publishName P now n s).2 := by
      have h0 : Accounted s s := ⟨hkeys, fun x hx => .inl hx⟩
      revert h0
      refine (?_ : Keeps (Accounted s) (publishName P now n)) s
      unfold publishName
      refine Keeps.bind (still_get.accounted s) fun _ => ?_
      split
      · exact (still_pure _).accounted s
      · refine Keeps.bind ((still_insertIntoIblt _ _).accounted s) fun _ => ?_
        unfold satisfyPendingInterests
        exact Keeps.bind (still_get.accounted s) fun _ => keeps_forEach (accounted_satisfyOne s P now) _
    rcases this.2 _ hp with h | h
    · exact absurd h hans
    · exact h
  have h2 : e.entry ∈ s'.removed := by
    have : ∀ (ops : List (Op σ)) (s : State σ), e.entry ∈ s.removed → e.entry ∈ (ops.foldl (fun s op => (perform P op s).2) s).removed := by
      intro ops
      induction ops with
      | nil => exact fun _ h => h
      | cons op ops ih => exact fun s h => ih _ (remembers_perform e.entry P op s h)
    exact this ops _ h1
  show (delayedRemove i s').2 = _
  unfold delayedRemove
  rw [get_bind, hi]
  dsimp only
  rw [modify_bind, get_bind]
  dsimp only
  rw [if_pos h2]
  rfl

end PSync
end PyNDN
