import Verif.Props.PSync
/-
C58: the Interests that wait in full PSync are removed by their timeouts.
-/
namespace PyNDN
namespace PSync
open Spec.PSync Spec.Iblt

variable {σ α β : Type}

/-- The part of the state that is about the waiting Interests. -/
def waiting (s : State σ) : List (Name × Pending) × List Nat × List (Name × Nat) × Nat :=
  (s.pending, s.removed, s.timers, s.nextEntry)

/-- The method does not change this part. -/
def Still (m : M σ α) : Prop := ∀ s, waiting (m s).2 = waiting s

theorem Still.bind {m : M σ α} {f : α → M σ β} (hm : Still m) (hf : ∀ a, Still (f a)) : Still (m >>= f) := by
  intro s
  have h1 := hm s
  cases h : m s with
  | mk r s' =>
    rw [h] at h1
    cases r with
    | ok a => rw [bind_ok h, hf a s']; exact h1
    | error e => rw [bind_error h]; exact h1

theorem still_pure (a : α) : Still (pure a : M σ α) := fun _ => rfl
theorem still_get : Still (get : M σ (State σ)) := fun _ => rfl
theorem still_stop (e : Stop) : Still (stop e : M σ α) := fun _ => rfl
theorem still_lift (x : Except Err α) : Still (lift x : M σ α) := fun s => by cases x <;> rfl
theorem still_modify {f : State σ → State σ} (h : ∀ s, waiting (f s) = waiting s) : Still (modify f) := h

theorem still_forEach {f : α → M σ Unit} (h : ∀ a, Still (f a)) : ∀ l, Still (forEach f l)
  | [] => still_pure ()
  | a :: l => (h a).bind fun _ => still_forEach h l

theorem still_sendSyncInterest (P : Params σ) : Still (sendSyncInterest P) := by
  unfold sendSyncInterest
  refine still_get.bind fun s => Still.bind (still_modify fun _ => rfl) fun _ => ?_
  split
  · exact still_stop _
  · exact still_modify fun _ => rfl

theorem still_publishContent (P : Params σ) (now : Nat) (i d : Name) (c : Bytes) : Still (publishContent P now i d c) := by
  unfold publishContent
  exact still_get.bind fun s => (still_lift _).bind fun p => still_modify fun _ => rfl

theorem still_sendSyncData (P : Params σ) (now : Nat) (n : Name) (c : Bytes) : Still (sendSyncData P now n c) := by
  unfold sendSyncData
  refine still_get.bind fun s => (still_lift _).bind fun p => still_get.bind fun s => ?_
  split
  · exact Still.bind (still_modify fun _ => rfl) fun _ => (still_publishContent _ _ _ _ _).bind fun _ => still_sendSyncInterest P
  · exact still_publishContent _ _ _ _ _

theorem still_listDifference (P : Params σ) (t : Iblt.Table) : Still (listDifference P t) := by
  unfold listDifference
  refine still_get.bind fun s => (still_lift _).bind fun d => (still_lift _).bind fun r => ?_
  split
  · exact still_stop _
  · exact still_pure _

theorem still_contentNames (f : Option (σ → Name → List Nat → Except Err Bool)) (negative : List Nat) :
    ∀ (ks : List Nat) (names : List Name), Still (contentNames f negative ks names)
  | [], names => still_pure _
  | k :: ks, names => by
    unfold contentNames
    refine still_get.bind fun s => ?_
    split
    · exact still_stop _
    · refine still_get.bind fun s => ?_
      split
      · refine Still.bind ?_ fun ok => still_contentNames f negative ks _
        unfold mayAdd
        split
        · exact still_pure _
        · exact still_get.bind fun s => still_lift _
      · exact still_contentNames f negative ks names

theorem still_insertIntoIblt (P : Params σ) (n : Name) : Still (insertIntoIblt P n) := by
  unfold insertIntoIblt
  exact Still.bind (still_modify fun _ => rfl) fun _ => still_get.bind fun s => (still_lift _).bind fun t => still_modify fun _ => rfl

theorem still_removeName (P : Params σ) (n : Name) : Still (removeName P n) := by
  unfold removeName
  refine still_get.bind fun s => ?_
  split
  · exact still_pure _
  · refine Still.bind (still_modify fun _ => rfl) fun _ => still_get.bind fun s => ?_
    split
    · exact still_stop _
    · exact Still.bind (still_modify fun _ => rfl) fun _ => still_get.bind fun s => (still_lift _).bind fun t => still_modify fun _ => rfl

theorem still_receiveNames (P : Params σ) : ∀ (ns new : List Name), Still (receiveNames P ns new)
  | [], new => still_pure _
  | n :: ns, new => by
    unfold receiveNames
    refine still_get.bind fun s => ?_
    split
    · exact still_receiveNames P ns new
    · refine Still.bind ?_ fun ok => ?_
      · unfold wanted
        split
        · exact still_pure _
        · refine still_get.bind fun s => (still_lift _).bind fun r => ?_
          obtain ⟨toRemove, ok⟩ := r
          exact (still_forEach (still_removeName P) _).bind fun _ => still_pure _
      · split
        · exact (still_insertIntoIblt P n).bind fun _ => still_receiveNames P ns _
        · exact still_receiveNames P ns new

/-- A method keeps a property of the state. -/
def Keeps (I : State σ → Prop) (m : M σ α) : Prop := ∀ s, I s → I (m s).2

theorem Keeps.bind {I : State σ → Prop} {m : M σ α} {f : α → M σ β} (hm : Keeps I m) (hf : ∀ a, Keeps I (f a)) : Keeps I (m >>= f) := by
  intro s hs
  have h1 := hm s hs
  cases h : m s with
  | mk r s' =>
    rw [h] at h1
    cases r with
    | ok a => rw [bind_ok h]; exact hf a s' h1
    | error e => rw [bind_error h]; exact h1

/-- Each waiting Interest has a delayed call that will remove it. -/
structure Timed (s : State σ) : Prop where
  keys : (s.pending.map (·.1)).Nodup
  timer : ∀ N e, (N, e) ∈ s.pending → (N, e.entry) ∈ s.timers ∧ e.entry ∉ s.removed
  fresh : (∀ N e, (N, e) ∈ s.pending → e.entry < s.nextEntry) ∧ ∀ k ∈ s.removed, k < s.nextEntry
  timers : ∀ N k, (N, k) ∈ s.timers → k < s.nextEntry
  names : ∀ N N' k, (N, k) ∈ s.timers → (N', k) ∈ s.timers → N = N'
  entries : ∀ N e N' e', (N, e) ∈ s.pending → (N', e') ∈ s.pending → e.entry = e'.entry → N = N'

theorem Timed.of_waiting {s s' : State σ} (h : Timed s) (hw : waiting s' = waiting s) : Timed s' := by
  unfold waiting at hw
  simp only [Prod.mk.injEq] at hw
  obtain ⟨h1, h2, h3, h4⟩ := hw
  exact ⟨by rw [h1]; exact h.keys, by rw [h1, h2, h3]; exact h.timer, by rw [h1, h2, h4]; exact h.fresh, by rw [h3, h4]; exact h.timers,
    by rw [h3]; exact h.names,
    by rw [h1]; exact h.entries⟩

theorem Still.keeps {m : M σ α} (hm : Still m) : Keeps Timed m := fun s hs => hs.of_waiting (hm s)

theorem mem_dictDel {κ ν : Type} [DecidableEq κ] {k k' : κ} {v : ν} {d : List (κ × ν)} : (k, v) ∈ dictDel k' d ↔ (k, v) ∈ d ∧ k ≠ k' := by
  simp [dictDel]

/-- An entry is taken out and marked. -/
theorem timed_drop {s : State σ} (h : Timed s) {N : Name} {k : Nat} (hk : k < s.nextEntry)
    (hN : ∀ N' e, (N', e) ∈ s.pending → e.entry = k → N' = N) :
    Timed { s with removed := k :: s.removed, pending := dictDel N s.pending } := by
  refine ⟨h.keys.sublist (List.filter_sublist.map _), ?_, ⟨?_, ?_⟩, h.timers, h.names, ?_⟩
  · intro N' e he
    obtain ⟨h1, h2⟩ := mem_dictDel.1 he
    refine ⟨(h.timer N' e h1).1, ?_⟩
    rw [List.mem_cons]
    rintro (h3 | h3)
    · exact h2 (hN N' e h1 h3)
    · exact (h.timer N' e h1).2 h3
  · intro N' e he
    exact h.fresh.1 N' e (mem_dictDel.1 he).1
  · intro j hj
    rcases List.mem_cons.1 hj with rfl | hj
    · exact hk
    · exact h.fresh.2 j hj
  · intro N1 e1 N2 e2 h1 h2
    exact h.entries N1 e1 N2 e2 (mem_dictDel.1 h1).1 (mem_dictDel.1 h2).1

theorem drop_found {s : State σ} (h : Timed s) {N : Name} {e : Pending} (hg : dictGet N s.pending = some e) :
    Timed { s with removed := e.entry :: s.removed, pending := dictDel N s.pending } := by
  have hm := dictGet_some hg
  exact timed_drop h (h.fresh.1 N e hm) fun N' e' he' heq => h.entries N' e' N e he' hm heq

theorem keeps_deletePending (n : Name) : Keeps Timed (deletePendingInterests n : M σ Unit) := by
  intro s hs
  unfold deletePendingInterests
  rw [get_bind]
  cases hg : dictGet n s.pending with
  | none => exact hs
  | some e => exact drop_found hs hg

theorem keeps_satisfyOne (P : Params σ) (now : Nat) (N : Name) : Keeps Timed (satisfyOne P now N) := by
  intro s hs
  unfold satisfyOne
  rw [get_bind]
  cases hg : dictGet N s.pending with
  | none => exact hs
  | some e =>
    dsimp only
    have later : ∀ {α : Type} {m : M σ α} {f : α → M σ Unit}, Still m →
        (∀ a s', waiting s' = waiting s → Timed (f a s').2) → Timed ((m >>= f) s).2 := by
      intro α m f hm hf
      cases h : m s with
      | mk r s' =>
        have hw := hm s
        rw [h] at hw
        cases r with
        | ok a => rw [bind_ok h]; exact hf a s' hw
        | error e => rw [bind_error h]; exact hs.of_waiting hw
    have drop : ∀ s' : State σ, waiting s' = waiting s →
        Timed { s' with removed := e.entry :: s'.removed, pending := dictDel N s'.pending } := by
      intro s' hw
      refine drop_found (hs.of_waiting hw) ?_
      unfold waiting at hw
      simp only [Prod.mk.injEq] at hw
      rw [hw.1]; exact hg
    have later' : ∀ {α : Type} {m : M σ α} {f : α → M σ Unit} {s' : State σ}, waiting s' = waiting s → Still m →
        (∀ a s', waiting s' = waiting s → Timed (f a s').2) → Timed ((m >>= f) s').2 := by
      intro α m f s' hw' hm hf
      cases h : m s' with
      | mk r s2 =>
        have hw := hm s'
        rw [h] at hw
        cases r with
        | ok a => rw [bind_ok h]; exact hf a s2 (hw.trans hw')
        | error e => rw [bind_error h]; exact hs.of_waiting (hw.trans hw')
    refine later (still_listDifference _ _) fun r s1 h1 => ?_
    obtain ⟨ok, positive, negative⟩ := r
    dsimp only
    split
    · exact drop s1 h1
    · refine later' h1 (still_contentNames _ _ _ _) fun names s2 h2 => ?_
      split
      · exact later' h2 (still_sendSyncData _ _ _ _) fun _ s3 h3 => drop s3 h3
      · exact hs.of_waiting h2

theorem keeps_forEach {I : State σ → Prop} {f : α → M σ Unit} (h : ∀ a, Keeps I (f a)) : ∀ l, Keeps I (forEach f l)
  | [] => fun _ hs => hs
  | a :: l => (h a).bind fun _ => keeps_forEach h l

theorem mem_dictSet {κ ν : Type} [DecidableEq κ] {key : κ} {v : ν} : ∀ {d : List (κ × ν)} {k : κ} {w : ν}, (k, w) ∈ dictSet key v d →
    ((k, w) ∈ d ∧ k ≠ key) ∨ (k = key ∧ w = v) ∨ ((k, w) ∈ d ∧ (key, w) ∈ d ∧ ¬ (d.map (·.1)).Nodup)
  | [], k, w, h => by
    simp only [dictSet, List.mem_singleton, Prod.mk.injEq] at h
    exact .inr (.inl h)
  | (j, x) :: d, k, w, h => by
    unfold dictSet at h
    by_cases hj : j = key
    · rw [if_pos hj] at h
      rcases List.mem_cons.1 h with h | h
      · cases h; exact .inr (.inl ⟨hj, rfl⟩)
      · by_cases hk : k = key
        · subst hk
          refine .inr (.inr ⟨List.mem_cons_of_mem _ h, List.mem_cons_of_mem _ h, ?_⟩)
          rw [List.map_cons, List.nodup_cons, hj]
          exact fun hn => hn.1 (List.mem_map.2 ⟨_, h, rfl⟩)
        · exact .inl ⟨List.mem_cons_of_mem _ h, hk⟩
    · rw [if_neg hj] at h
      rcases List.mem_cons.1 h with h | h
      · cases h; exact .inl ⟨List.mem_cons_self .., hj⟩
      · rcases mem_dictSet h with ⟨h1, h2⟩ | h1 | ⟨h1, h2, h3⟩
        · exact .inl ⟨List.mem_cons_of_mem _ h1, h2⟩
        · exact .inr (.inl h1)
        · refine .inr (.inr ⟨List.mem_cons_of_mem _ h1, List.mem_cons_of_mem _ h2, ?_⟩)
          rw [List.map_cons, List.nodup_cons]
          exact fun hn => h3 hn.2

theorem dictSet_keys {κ ν : Type} [DecidableEq κ] {key : κ} {v : ν} : ∀ {d : List (κ × ν)}, (d.map (·.1)).Nodup →
    ((dictSet key v d).map (·.1)).Nodup ∧ ∀ k, k ∈ (dictSet key v d).map (·.1) ↔ k ∈ d.map (·.1) ∨ k = key
  | [], _ => by simp [dictSet]
  | (j, x) :: d, hn => by
    rw [List.map_cons, List.nodup_cons] at hn
    obtain ⟨h1, h2⟩ := dictSet_keys (key := key) (v := v) hn.2
    unfold dictSet
    by_cases hj : j = key
    · rw [if_pos hj]
      refine ⟨by rw [List.map_cons, List.nodup_cons]; exact hn, ?_⟩
      intro k
      rw [List.map_cons, List.mem_cons, List.map_cons, List.mem_cons, hj]
      constructor
      · rintro (h | h)
        · exact .inr h
        · exact .inl (.inr h)
      · rintro ((h | h) | h)
        · exact .inl h
        · exact .inr h
        · exact .inl h
    · rw [if_neg hj]
      refine ⟨?_, ?_⟩
      · rw [List.map_cons, List.nodup_cons]
        refine ⟨?_, h1⟩
        rw [h2]
        rintro (h | h)
        · exact hn.1 h
        · exact hj h
      · intro k
        rw [List.map_cons, List.mem_cons, h2, List.map_cons, List.mem_cons, or_assoc]

/-- The Interest waits, with a delayed call for the same name. -/
theorem timed_add {s : State σ} (h : Timed s) (N : Name) (t : Iblt.Table) :
    Timed { s with pending := dictSet N ⟨s.nextEntry, t⟩ s.pending, nextEntry := s.nextEntry + 1,
                   timers := s.timers ++ [(N, s.nextEntry)] } := by
  have cases' : ∀ {N' e}, (N', e) ∈ dictSet N (⟨s.nextEntry, t⟩ : Pending) s.pending →
      ((N', e) ∈ s.pending ∧ N' ≠ N) ∨ (N' = N ∧ e = ⟨s.nextEntry, t⟩) := by
    intro N' e he
    rcases mem_dictSet he with h1 | h1 | h1
    · exact .inl h1
    · exact .inr h1
    · exact absurd h.keys h1.2.2
  refine ⟨(dictSet_keys h.keys).1, ?_, ⟨?_, ?_⟩, ?_, ?_, ?_⟩
  · intro N' e he
    rcases cases' he with ⟨h1, h2⟩ | ⟨rfl, rfl⟩
    · exact ⟨List.mem_append_left _ (h.timer N' e h1).1, (h.timer N' e h1).2⟩
    · refine ⟨List.mem_append_right _ (List.mem_singleton.2 rfl), fun hm => ?_⟩
      have := h.fresh.2 _ hm
      simp at this
  · intro N' e he
    rcases cases' he with ⟨h1, h2⟩ | ⟨rfl, rfl⟩
    · have := h.fresh.1 N' e h1
      dsimp only
      omega
    · exact Nat.lt_succ_self _
  · intro k hk
    have := h.fresh.2 k hk
    dsimp only
    omega
  · intro N' k hk
    dsimp only
    rcases List.mem_append.1 hk with hk | hk
    · have := h.timers N' k hk; omega
    · simp only [List.mem_singleton, Prod.mk.injEq] at hk
      omega
  · intro N1 N2 k h1 h2
    simp only [List.mem_append, List.mem_singleton, Prod.mk.injEq] at h1 h2
    rcases h1 with h1 | h1 <;> rcases h2 with h2 | h2
    · exact h.names N1 N2 k h1 h2
    · have := h.timers _ _ h1; omega
    · have := h.timers _ _ h2; omega
    · rw [h1.1, h2.1]
  · intro N1 e1 N2 e2 h1 h2 heq
    rcases cases' h1 with ⟨a1, a2⟩ | ⟨a1, a2⟩ <;> rcases cases' h2 with ⟨b1, b2⟩ | ⟨b1, b2⟩
    · exact h.entries N1 e1 N2 e2 a1 b1 heq
    · have := h.fresh.1 _ _ a1
      subst b2
      dsimp only at heq
      omega
    · have := h.fresh.1 _ _ b1
      subst a2
      dsimp only at heq
      omega
    · rw [a1, b1]

/-- The Interests of the history have a lifetime, and do not ask for a version and a segment. -/
def Plain (P : Params σ) : Op σ → Prop
  | .interest _ n l => l = true ∧ n.length ≠ P.syncPrefix.length + 3
  | _ => True

theorem keeps_answer (P : Params σ) (now : Nat) (n : Name) : Keeps Timed (onSyncInterest.answer P now n true n) := by
  unfold onSyncInterest.answer
  refine (still_lift _).keeps.bind fun c => ?_
  split
  · exact (still_pure _).keeps
  · refine (still_listDifference _ _).keeps.bind fun r => ?_
    obtain ⟨ok, positive, negative⟩ := r
    dsimp only
    split
    · refine still_get.keeps.bind fun s => ?_
      split
      · exact (still_publishContent _ _ _ _ _).keeps
      · exact (still_pure _).keeps
    · refine (still_contentNames _ _ _ _).keeps.bind fun names => ?_
      split
      · exact (still_sendSyncData _ _ _ _).keeps
      · intro s hs
        rw [get_bind, modify_bind, if_pos rfl]
        exact timed_add hs n _

theorem keeps_delayedRemove (i : Nat) : Keeps Timed (delayedRemove i : M σ Unit) := by
  intro s hs
  unfold delayedRemove
  rw [get_bind]
  cases ht : s.timers[i]? with
  | none => exact hs
  | some x =>
    obtain ⟨N, k⟩ := x
    dsimp only
    rw [modify_bind, get_bind]
    dsimp only
    have hsub : ∀ x ∈ s.timers.eraseIdx i, x ∈ s.timers := fun x hx => (List.eraseIdx_sublist ..).mem hx
    have other : ∀ N' k', (N', k') ∈ s.timers → (N', k') ≠ (N, k) → (N', k') ∈ s.timers.eraseIdx i := by
      intro N' k' h1 h2
      obtain ⟨j, hj⟩ := List.mem_iff_getElem?.1 h1
      rw [List.mem_eraseIdx_iff_getElem?]
      refine ⟨j, ?_, hj⟩
      rintro rfl
      rw [ht] at hj
      cases hj
      exact h2 rfl
    by_cases hk : k ∈ s.removed
    · rw [if_pos hk]
      refine ⟨hs.keys, ?_, hs.fresh, fun N' k' h' => hs.timers N' k' (hsub _ h'),
        fun N1 N2 k' h1 h2 => hs.names N1 N2 k' (hsub _ h1) (hsub _ h2), hs.entries⟩
      intro N' e he
      obtain ⟨h1, h2⟩ := hs.timer N' e he
      refine ⟨other N' e.entry h1 ?_, h2⟩
      rintro heq
      cases heq
      exact h2 hk
    · rw [if_neg hk]
      have hkn : k < s.nextEntry := hs.timers N k (List.mem_of_getElem? ht)
      refine ⟨hs.keys.sublist (List.filter_sublist.map _), ?_, ⟨?_, ?_⟩, fun N' k' h' => hs.timers N' k' (hsub _ h'),
        fun N1 N2 k' h1 h2 => hs.names N1 N2 k' (hsub _ h1) (hsub _ h2), ?_⟩
      · intro N' e he
        obtain ⟨h1, h2⟩ := mem_dictDel.1 he
        obtain ⟨h3, h4⟩ := hs.timer N' e h1
        refine ⟨other N' e.entry h3 (fun heq => by cases heq; exact h2 rfl), ?_⟩
        show e.entry ∉ k :: s.removed
        rw [List.mem_cons]
        rintro (h5 | h5)
        · rw [h5] at h3
          exact h2 (hs.names N' N k h3 (List.mem_of_getElem? ht))
        · exact h4 h5
      · intro N' e he
        exact hs.fresh.1 N' e (mem_dictDel.1 he).1
      · intro j hj
        rcases List.mem_cons.1 hj with rfl | hj
        · exact hkn
        · exact hs.fresh.2 j hj
      · intro N1 e1 N2 e2 h1 h2
        exact hs.entries N1 e1 N2 e2 (mem_dictDel.1 h1).1 (mem_dictDel.1 h2).1

theorem timed_step (P : Params σ) {s : State σ} (hs : Timed s) (op : Op σ) (hp : Plain P op) : Timed (perform P op s).2 := by
  cases op with
  | publishName now n =>
    refine (show Keeps Timed (publishName P now n) from ?_) s hs
    unfold publishName
    refine still_get.keeps.bind fun s => ?_
    split
    · exact (still_pure _).keeps
    · exact (still_insertIntoIblt P n).keeps.bind fun _ => still_get.keeps.bind fun _ => keeps_forEach (keeps_satisfyOne P now) _
  | removeName n => exact (still_removeName P n).keeps s hs
  | interest now n l =>
    obtain ⟨rfl, hlen⟩ := hp
    refine (show Keeps Timed (onSyncInterest P now P.syncPrefix.length n true) from ?_) s hs
    unfold onSyncInterest
    refine still_get.keeps.bind fun s => ?_
    split
    · exact fun s hs => hs.of_waiting rfl
    · rw [C16_subName_rest]
      show Keeps Timed (if (List.drop P.syncPrefix.length n).length = 1 then onSyncInterest.answer P now n true n
        else if (List.drop P.syncPrefix.length n).length = 3 then do
          onSyncInterest.answer P now n true (← lift (getPrefix n (-2)))
        else pure () : M σ Unit)
      split
      · exact keeps_answer P now n
      · rw [if_neg (by rw [List.length_drop]; omega)]
        exact (still_pure _).keeps
  | data i content =>
    refine (show Keeps Timed (onSyncData P i content) from ?_) s hs
    unfold onSyncData
    refine (keeps_deletePending i).bind fun _ => (still_lift _).keeps.bind fun ns => (still_receiveNames P _ _).keeps.bind fun names => ?_
    split
    · exact fun s hs => (still_sendSyncInterest P).keeps _ (Timed.of_waiting (s := s) hs rfl)
    · exact (still_pure _).keeps
  | renew => exact (still_sendSyncInterest P).keeps s hs
  | expire i => exact keeps_delayedRemove i s hs
  | expireStore i => exact hs.of_waiting rfl
  | app f => exact hs.of_waiting rfl

theorem timed_start (P : Params σ) (app : σ) : Timed (start P app) :=
  Timed.of_waiting (s := { iblt := Iblt.new P.expected, app := app })
    ⟨List.nodup_nil, (fun _ _ h => nomatch h), ⟨(fun _ _ h => nomatch h), (fun _ h => nomatch h)⟩, (fun _ _ h => nomatch h),
      (fun _ _ _ h => nomatch h), (fun _ _ _ _ h => nomatch h)⟩ (still_sendSyncInterest P _)

theorem timed_run (P : Params σ) (app : σ) (ops : List (Op σ)) (hp : ∀ op ∈ ops, Plain P op) : Timed (run P app ops) := by
  unfold run
  suffices ∀ (ops : List (Op σ)) (s : State σ), (∀ op ∈ ops, Plain P op) → Timed s →
      Timed (ops.foldl (fun s op => (perform P op s).2) s) from this ops _ hp (timed_start P app)
  intro ops
  induction ops with
  | nil => intro s _ hs; exact hs
  | cons op ops ih =>
    intro s hp hs
    exact ih _ (fun o ho => hp o (List.mem_cons_of_mem _ ho)) (timed_step P hs op (hp op (List.mem_cons_self ..)))

/-- An Interest does not wait for ever: after any history whose Interests have a lifetime and do not ask for a version and a
segment, at most one Interest waits under each name, and each of them has a delayed call that will remove it.  For the
excluded Interests see `C58_versioned` and `C58_no_lifetime`. -/
theorem C58_expires_partial (P : Params σ) (app : σ) (ops : List (Op σ)) (hp : ∀ op ∈ ops, Plain P op) :
    ((run P app ops).pending.map (·.1)).Nodup ∧
    ∀ N e, (N, e) ∈ (run P app ops).pending → ∃ i, (run P app ops).timers[i]? = some (N, e.entry) ∧
      N ∉ (perform P (.expire i) (run P app ops)).2.pending.map (·.1) := by
  have hs := timed_run P app ops hp
  refine ⟨hs.keys, ?_⟩
  intro N e he
  obtain ⟨h1, h2⟩ := hs.timer N e he
  obtain ⟨i, hi⟩ := List.mem_iff_getElem?.1 h1
  refine ⟨i, hi, ?_⟩
  have e0 : (perform P (.expire i) (run P app ops)).2.pending = dictDel N (run P app ops).pending := by
    show (delayedRemove i (run P app ops)).2.pending = _
    unfold delayedRemove
    rw [get_bind, hi]
    dsimp only
    rw [modify_bind, get_bind]
    dsimp only
    rw [if_neg h2]
    rfl
  rw [e0]
  intro hm
  obtain ⟨x, hx, hxe⟩ := List.mem_map.1 hm
  exact ((mem_dictDel (k := x.1) (v := x.2)).1 hx).2 hxe

/-! ### What goes wrong -/

/-- An instance for the examples. -/
def exP : Params Unit where
  hash := fun seed key => if seed = Iblt.nHashCheck then 5 * key + 3 else key % 3
  nameHash := fun n => match n with
    | [c] => (c.value.map UInt8.toNat).sum
    | _ => 0
  compress := id
  decompress := .ok
  rounds := 10
  expected := 6
  syncPrefix := [⟨.generic, [115]⟩]
  pub := ⟨id, fun d => .ok (d.name ++ [⟨.implicit, [1]⟩])⟩
  freshness := 1000
  pyHash := fun _ => 5
  onNamesUpdate := fun _ _ => ()

/-- A name, and the name of the Interest with a table. -/
def exName (k : UInt8) : Name := [⟨.generic, [k]⟩]
def exAsk (t : Iblt.Table) : Name := exP.syncPrefix ++ [⟨.generic, Iblt.encodeRaw t⟩]

/-- The table of one key. -/
def exTable (k : Nat) : Iblt.Table := (Iblt.insert exP.hash (Iblt.new 6) k).toOption.getD []

/-- The same Interest comes a second time while the first waits: the delayed call of the first removes the second, whose own
lifetime is not over. -/
theorem C58_duplicate : let s := run exP () [.interest 0 (exAsk (exTable 1)) true, .interest 1 (exAsk (exTable 1)) true, .expire 0]
    s.pending = [] ∧ s.timers = [(exAsk (exTable 1), 1)] := by decide +kernel

/-- An Interest that asks for a version and a segment waits under the shorter name, but its delayed call has the longer one: it
is not removed, and no delayed call is left. -/
theorem C58_versioned : let name := exAsk (exTable 1) ++ [⟨.generic, [0xFD, 1]⟩, ⟨.generic, [0, 0]⟩]
    let s := run exP () [.interest 0 name true, .expire 0]
    s.pending = [(exAsk (exTable 1), ⟨0, exTable 1⟩)] ∧ s.timers = [] := by decide +kernel

/-- An Interest without a lifetime: the call raises TypeError, and the Interest waits without a delayed call. -/
theorem C58_no_lifetime : let s := run exP () [.interest 0 (exAsk (exTable 1)) false]
    (perform exP (.interest 0 (exAsk (exTable 1)) false) (start exP ())).1 = .error (.raised .type) ∧
    s.pending = [(exAsk (exTable 1), ⟨0, exTable 1⟩)] ∧ s.timers = [] := by decide +kernel

/-- Two names with the same hash: when both are removed, the second call of `removeName` raises KeyError, and the table still
has the hash although the set is empty. -/
theorem C58_collision : let a := exName 4
    let b : Name := [⟨.generic, [3, 1]⟩]
    let s := run exP () [.publishName 0 a, .publishName 0 b, .removeName a]
    (perform exP (.removeName b) s).1 = .error (.raised .key) ∧
    (perform exP (.removeName b) s).2.nameToHash = [] ∧ (perform exP (.removeName b) s).2.iblt = exTable 4 := by decide +kernel

/-- The table of an attacker who guesses the next name. -/
def exPoison : Iblt.Table :=
  [{}, ⟨1, 2, 57⟩, ⟨1, 2, 13⟩, {}, ⟨1, 2, 57⟩, ⟨1, 2, 13⟩, {}, ⟨1, 2, 57⟩, ⟨1, 2, 13⟩]

/-- An Interest whose table was made by an attacker waits; when the name that he guessed is published, the call of `publishName`
raises KeyError, and the Interest that waits behind is not answered, though the instance now has a name for it. -/
theorem C58_poisoned : let s := run exP () [.publishName 0 (exName 1), .interest 0 (exAsk exPoison) true, .interest 0 (exAsk (exTable 1)) true]
    s.pending.map (·.1) = [exAsk exPoison, exAsk (exTable 1)] ∧
    (perform exP (.publishName 1 (exName 4)) s).1 = .error (.raised .key) ∧
    (perform exP (.publishName 1 (exName 4)) s).2.pub.sent = s.pub.sent ∧
    (perform exP (.publishName 1 (exName 4)) s).2.pending = s.pending := by decide +kernel

/-- The difference of these two sets is one hash. -/
theorem ex_differing : differing exP [exName 1, exName 4] [exName 1] = [4] := by decide +kernel

theorem ex_clear : NoCollision exP.hash (differing exP [exName 1, exName 4] [exName 1]) := by
  rw [ex_differing]
  have key : ∀ T : List Nat, T.Nodup → (∀ k ∈ T, k ∈ [4]) → T.length ≤ 1
    | [], _, _ => by simp
    | [_], _, _ => by simp
    | a :: b :: T, h1, h2 => by
      have ha := h2 a (by simp)
      have hb := h2 b (by simp)
      simp only [List.mem_singleton] at ha hb
      rw [ha, hb] at h1
      simp at h1
  exact ⟨fun T h1 h2 h3 _ => by have := key T h1 h2; omega, fun T h1 h2 h3 _ => by have := key T h1 h2; omega⟩

theorem ex_readable : Readable exP [exName 1, exName 4] [exName 1] := by
  rintro ⟨S, h1, h2, h3⟩
  rw [ex_differing] at h1
  cases S with
  | nil => exact h2 rfl
  | cons k S =>
    obtain ⟨k', a1, a2, _⟩ := h3 k (by simp) 0 (by decide)
    have b1 := h1 k (by simp)
    have b2 := h1 k' a1
    simp only [List.mem_singleton] at b1 b2
    exact a2 (b2.trans b1.symm)

/-- The table of one name, and that its hashes differ. -/
theorem ex_table : TableOf exP [exName 1] (exTable 1) := by
  refine ⟨[(true, 1)], ⟨by decide +kernel, ?_⟩, by decide +kernel⟩
  intro k
  have : (exP.nameHash (exName 1)) = 1 := by decide +kernel
  simp only [Spec.Iblt.net, List.map_cons, List.map_nil, this, List.mem_singleton]
  by_cases hk : k = 1
  · subst hk; decide
  · have : (1 == k) = false := by simp [Ne.symm hk]
    simp [this, hk]

theorem ex_differ : HashesDiffer exP ([exName 1, exName 4] ++ [exName 1]) := by
  unfold HashesDiffer
  decide +kernel

/-- The hypotheses of C58_pending are met: without the attacker the Interest waits, its table is that of `exName 1`, and what it
asks for when `exName 4` is published can be read. -/
example : (run exP () [.publishName 0 (exName 1), .interest 0 (exAsk (exTable 1)) true]).pending = [(exAsk (exTable 1), ⟨0, exTable 1⟩)] ∧
    Askable exP [exName 1, exName 4] [exName 1] (exAsk (exTable 1)) (exTable 1) ∧
    missing [exName 1, exName 4] [exName 1] = [exName 4] :=
  ⟨by decide +kernel, ⟨by decide +kernel, ex_table, ex_differ, ex_clear, by rw [ex_differing]; decide, ex_readable⟩, by decide +kernel⟩

/-- Those of C58_answer, for an instance with both names that is asked with the table of the one. -/
example : let s := run exP () [.publishName 0 (exName 1), .publishName 0 (exName 4)]
    Knows exP s [exName 1, exName 4] ∧
    Iblt.initializeTable exP.decompress (Iblt.new exP.expected) (Iblt.encodeRaw (exTable 1)) = .ok (exTable 1) ∧
    replyFromStore s.pub (exAsk (exTable 1)) = none := by
  refine ⟨?_, by decide +kernel, by decide +kernel⟩
  exact (C58_set exP (by decide) () [.publishName 0 (exName 1), .publishName 0 (exName 4)] (by unfold HashesDiffer; decide +kernel)).1

/-- An Interest with a table that has one key in an entry where it does not belong: the handler runs for ever, however many
rounds are allowed.  Here for a new instance. -/
theorem C58_hangs (P : Params σ) (he : 0 < P.expected) (app : σ) (k : Nat) (c : Component) (l : Bool) (now : Nat)
    (hk : Iblt.bucket P.hash (Iblt.new P.expected).length 0 k ≠ 0)
    (hc : Iblt.initializeTable P.decompress (Iblt.new P.expected) c.value =
      .ok (⟨1, k, P.hash Iblt.nHashCheck k⟩ :: List.replicate ((Iblt.new P.expected).length - 1) {})) :
    (perform P (.interest now (P.syncPrefix ++ [c]) l) (start P app)).1 = .error .hangs := by
  obtain ⟨n, hnew, hnz⟩ := Props.new_eq P.expected
  have hn := hnz he
  rw [hnew, Iblt.empty_length] at hk hc
  have hs : (start P app).iblt = Iblt.empty n := by
    have := quiet_sendSyncInterest P { iblt := Iblt.new P.expected, app := app }
    unfold core at this
    simp only [Prod.mk.injEq] at this
    exact this.2.2.1.trans hnew
  have hpub : replyFromStore (start P app).pub (P.syncPrefix ++ [c]) = none := by
    have : (start P app).pub = {} := by
      show (sendSyncInterest P _).2.pub = _
      unfold sendSyncInterest
      rw [get_bind, modify_bind]
      dsimp only
      cases P.expressRaises _ <;> rfl
    rw [this]
    rfl
  show (onSyncInterest P now P.syncPrefix.length (P.syncPrefix ++ [c]) l (start P app)).1 = _
  rw [onSyncInterest_one now c l hpub]
  unfold onSyncInterest.answer
  rw [last_eq]
  show ((match Iblt.initializeTable P.decompress (Iblt.new P.expected) c.value with
      | .error _ => _ | .ok iblt => _ : M σ Unit) (start P app)).1 = _
  rw [hnew, hc]
  dsimp only
  have hd : listDifference P (⟨1, k, P.hash Iblt.nHashCheck k⟩ :: List.replicate (n - 1) {}) (start P app) =
      (.error .hangs, start P app) := by
    unfold listDifference
    have e : Iblt.difference (Iblt.empty n) (⟨1, k, P.hash Iblt.nHashCheck k⟩ :: List.replicate (n - 1) {}) =
        .ok (⟨-1, k, P.hash Iblt.nHashCheck k⟩ :: List.replicate (n - 1) {}) := by
      obtain ⟨m, rfl⟩ : ∃ m, n = m + 1 := ⟨n - 1, by
        rcases Nat.eq_zero_or_pos n with h0 | h0
        · rw [h0] at hn; exact absurd rfl hn
        · omega⟩
      unfold Iblt.difference
      rw [if_neg (by simp [Iblt.empty])]
      unfold Iblt.empty
      rw [List.replicate_succ, List.zipWith_cons_cons, Nat.add_sub_cancel]
      congr 2
      · simp
      · rw [List.zipWith_replicate]
        simp
    rw [get_bind, hs, e]
    show (lift (Iblt.listEntries P.hash P.rounds _) >>= fun r => match r with
      | none => stop .hangs | some r => pure r : M σ _) (start P app) = _
    rw [Props.diverges P.hash n k hn hk (-1) (.inr rfl)]
    rfl
  have key : ∀ {α β : Type} (m : M σ α) (f : α → M σ β) (s s' : State σ) (e : Stop), m s = (.error e, s') → ((m >>= f) s).1 = .error e := by
    intro α β m f s s' e h
    show (match m s with
      | (.ok a, s') => f a s' | (.error e, s') => (.error e, s') : Except Stop β × State σ).1 = _
    rw [h]
  exact key _ _ _ _ _ hd

/-- Such an Interest: its name has the encoding of such a table. -/
example : Iblt.bucket exP.hash (Iblt.new exP.expected).length 0 1 ≠ 0 ∧
    Iblt.initializeTable exP.decompress (Iblt.new exP.expected) (Iblt.encodeRaw (⟨1, 1, 8⟩ :: List.replicate 8 {})) =
      .ok (⟨1, 1, exP.hash Iblt.nHashCheck 1⟩ :: List.replicate ((Iblt.new exP.expected).length - 1) {}) := by decide +kernel

end PSync
end PyNDN
