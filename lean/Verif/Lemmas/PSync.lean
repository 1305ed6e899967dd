import Verif.Spec.PSync
import Verif.Props.Iblt
/-
Lemmas about the model of full PSync.
-/
namespace PyNDN
namespace PSync
open Spec.PSync Spec.Iblt

/-! ### Dictionaries -/

section
variable {κ ν : Type} [DecidableEq κ]

theorem dictGet_none {key : κ} : ∀ {d : List (κ × ν)}, dictGet key d = none ↔ key ∉ d.map (·.1)
  | [] => by simp [dictGet]
  | (k, v) :: d => by
    unfold dictGet
    by_cases h : k = key
    · rw [if_pos h]; simp [h]
    · rw [if_neg h, dictGet_none (d := d)]
      simp [Ne.symm h]

theorem dictGet_some {key : κ} {v : ν} : ∀ {d : List (κ × ν)}, dictGet key d = some v → (key, v) ∈ d
  | [], h => nomatch h
  | (k, w) :: d, h => by
    unfold dictGet at h
    by_cases hk : k = key
    · rw [if_pos hk] at h; cases h; subst hk; exact List.mem_cons_self ..
    · rw [if_neg hk] at h; exact List.mem_cons_of_mem _ (dictGet_some h)

theorem dictGet_mem {key : κ} {v : ν} : ∀ {d : List (κ × ν)}, (d.map (·.1)).Nodup → (key, v) ∈ d → dictGet key d = some v
  | [], _, h => nomatch h
  | (k, w) :: d, hn, h => by
    rw [List.map_cons, List.nodup_cons] at hn
    unfold dictGet
    rcases List.mem_cons.1 h with h | h
    · cases h; rw [if_pos rfl]
    · have : k ≠ key := by
        rintro rfl
        exact hn.1 (List.mem_map.2 ⟨_, h, rfl⟩)
      rw [if_neg this]
      exact dictGet_mem hn.2 h

theorem dictSet_new {key : κ} {v : ν} : ∀ {d : List (κ × ν)}, key ∉ d.map (·.1) → dictSet key v d = d ++ [(key, v)]
  | [], _ => rfl
  | (k, w) :: d, h => by
    have h1 : k ≠ key := by rintro rfl; exact h (by simp)
    unfold dictSet
    rw [if_neg h1, dictSet_new (d := d) (fun hk => h (List.mem_cons_of_mem _ hk))]
    rfl
end

/-! ### Methods -/

variable {σ α β : Type}

theorem bind_ok {m : M σ α} {f : α → M σ β} {s s' : State σ} {a : α} (h : m s = (.ok a, s')) : (m >>= f) s = f a s' := by
  show (match m s with | (.ok a, s') => f a s' | (.error e, s') => (.error e, s')) = _
  rw [h]

theorem bind_error {m : M σ α} {f : α → M σ β} {s s' : State σ} {e : Stop} (h : m s = (.error e, s')) :
    (m >>= f) s = (.error e, s') := by
  show (match m s with | (.ok a, s') => f a s' | (.error e, s') => (.error e, s')) = _
  rw [h]

theorem get_bind {f : State σ → M σ β} {s : State σ} : ((get : M σ (State σ)) >>= f) s = f s s := rfl
theorem modify_bind {g : State σ → State σ} {f : Unit → M σ β} {s : State σ} : (modify g >>= f) s = f () (g s) := rfl
theorem pure_bind' {a : α} {f : α → M σ β} {s : State σ} : ((pure a : M σ α) >>= f) s = f a s := rfl

/-- The part of the state that is the set of names, the state of the application, and what the application was told. -/
def core (s : State σ) : List (Name × Nat) × List (Nat × Name) × Iblt.Table × σ × List (List Name) :=
  (s.nameToHash, s.hashToName, s.iblt, s.app, updatesOf s.log)

/-- The method does not change this part. -/
def Quiet (m : M σ α) : Prop := ∀ s, core (m s).2 = core s

theorem Quiet.bind {m : M σ α} {f : α → M σ β} (hm : Quiet m) (hf : ∀ a, Quiet (f a)) : Quiet (m >>= f) := by
  intro s
  have h1 := hm s
  cases h : m s with
  | mk r s' =>
    rw [h] at h1
    cases r with
    | ok a => rw [bind_ok h, hf a s']; exact h1
    | error e => rw [bind_error h]; exact h1

theorem quiet_pure (a : α) : Quiet (pure a : M σ α) := fun _ => rfl
theorem quiet_get : Quiet (get : M σ (State σ)) := fun _ => rfl
theorem quiet_stop (e : Stop) : Quiet (stop e : M σ α) := fun _ => rfl
theorem quiet_lift (x : Except Err α) : Quiet (lift x : M σ α) := fun s => by cases x <;> rfl
theorem quiet_modify {f : State σ → State σ} (h : ∀ s, core (f s) = core s) : Quiet (modify f) := h

theorem quiet_forEach {f : α → M σ Unit} (h : ∀ a, Quiet (f a)) : ∀ l, Quiet (forEach f l)
  | [] => quiet_pure ()
  | a :: l => (h a).bind fun _ => quiet_forEach h l

theorem updatesOf_interest (log : List Event) (n : Name) : updatesOf (log ++ [.interest n]) = updatesOf log := by
  simp [updatesOf, List.filterMap_append]

theorem quiet_sendSyncInterest (P : Params σ) : Quiet (sendSyncInterest P) := by
  unfold sendSyncInterest
  refine quiet_get.bind fun s => Quiet.bind (quiet_modify fun _ => rfl) fun _ => ?_
  split
  · exact quiet_stop _
  · refine quiet_modify fun s => ?_
    unfold core
    dsimp only
    rw [updatesOf_interest]

theorem quiet_publishContent (P : Params σ) (now : Nat) (i d : Name) (c : Bytes) : Quiet (publishContent P now i d c) := by
  unfold publishContent
  exact quiet_get.bind fun s => (quiet_lift _).bind fun p => quiet_modify fun _ => rfl

theorem quiet_sendSyncData (P : Params σ) (now : Nat) (n : Name) (c : Bytes) : Quiet (sendSyncData P now n c) := by
  unfold sendSyncData
  refine quiet_get.bind fun s => (quiet_lift _).bind fun p => quiet_get.bind fun s => ?_
  split
  · exact Quiet.bind (quiet_modify fun _ => rfl) fun _ => (quiet_publishContent _ _ _ _ _).bind fun _ => quiet_sendSyncInterest P
  · exact quiet_publishContent _ _ _ _ _

theorem quiet_listDifference (P : Params σ) (t : Iblt.Table) : Quiet (listDifference P t) := by
  unfold listDifference
  refine quiet_get.bind fun s => (quiet_lift _).bind fun d => (quiet_lift _).bind fun r => ?_
  split
  · exact quiet_stop _
  · exact quiet_pure _

theorem quiet_mayAdd (f : Option (σ → Name → List Nat → Except Err Bool)) (n : Name) (negative : List Nat) :
    Quiet (mayAdd f n negative) := by
  unfold mayAdd
  split
  · exact quiet_pure _
  · exact quiet_get.bind fun s => quiet_lift _

theorem quiet_contentNames (f : Option (σ → Name → List Nat → Except Err Bool)) (negative : List Nat) :
    ∀ (ks : List Nat) (names : List Name), Quiet (contentNames f negative ks names)
  | [], names => quiet_pure _
  | k :: ks, names => by
    unfold contentNames
    refine quiet_get.bind fun s => ?_
    split
    · exact quiet_stop _
    · refine quiet_get.bind fun s => ?_
      split
      · exact (quiet_mayAdd _ _ _).bind fun ok => quiet_contentNames f negative ks _
      · exact quiet_contentNames f negative ks names

theorem quiet_satisfyOne (P : Params σ) (now : Nat) (n : Name) : Quiet (satisfyOne P now n) := by
  unfold satisfyOne
  refine quiet_get.bind fun s => ?_
  split
  · exact quiet_stop _
  · refine (quiet_listDifference _ _).bind fun r => ?_
    obtain ⟨ok, positive, negative⟩ := r
    dsimp only
    split
    · exact quiet_modify fun _ => rfl
    · refine (quiet_contentNames _ _ _ _).bind fun names => ?_
      split
      · exact (quiet_sendSyncData _ _ _ _).bind fun _ => quiet_modify fun _ => rfl
      · exact quiet_pure _

theorem quiet_satisfyPending (P : Params σ) (now : Nat) : Quiet (satisfyPendingInterests P now) :=
  quiet_get.bind fun _ => quiet_forEach (quiet_satisfyOne P now) _

theorem quiet_onSyncInterest (P : Params σ) (now k : Nat) (n : Name) (l : Bool) : Quiet (onSyncInterest P now k n l) := by
  have ha : ∀ name, Quiet (onSyncInterest.answer P now n l name) := by
    intro name
    unfold onSyncInterest.answer
    refine (quiet_lift _).bind fun c => ?_
    split
    · exact quiet_pure _
    · refine (quiet_listDifference _ _).bind fun r => ?_
      obtain ⟨ok, positive, negative⟩ := r
      dsimp only
      split
      · refine quiet_get.bind fun s => ?_
        split
        · exact quiet_publishContent _ _ _ _ _
        · exact quiet_pure _
      · refine (quiet_contentNames _ _ _ _).bind fun names => ?_
        split
        · exact quiet_sendSyncData _ _ _ _
        · refine quiet_get.bind fun s => Quiet.bind (quiet_modify fun _ => rfl) fun _ => ?_
          split
          · exact quiet_modify fun _ => rfl
          · exact quiet_stop _
  unfold onSyncInterest
  refine quiet_get.bind fun s => ?_
  split
  · exact quiet_modify fun _ => rfl
  · refine (quiet_lift _).bind fun rest => ?_
    split
    · exact ha _
    · split
      · exact (quiet_lift _).bind fun m => ha m
      · exact quiet_pure _

theorem quiet_deletePending (n : Name) : Quiet (deletePendingInterests n : M σ Unit) := by
  unfold deletePendingInterests
  refine quiet_get.bind fun s => ?_
  split
  · exact quiet_pure _
  · exact quiet_modify fun _ => rfl

theorem quiet_delayedRemove (i : Nat) : Quiet (delayedRemove i : M σ Unit) := by
  unfold delayedRemove
  refine quiet_get.bind fun s => ?_
  split
  · exact quiet_pure _
  · refine Quiet.bind (quiet_modify fun _ => rfl) fun _ => quiet_get.bind fun s => ?_
    split
    · exact quiet_pure _
    · exact quiet_modify fun _ => rfl

/-! ### Tables of names -/

theorem net_append (a b : List (Bool × Nat)) (k : Nat) : net (a ++ b) k = net a k + net b k := by
  unfold net
  simp only [List.filter_append, List.length_append]
  omega

theorem length_ok (P : Params σ) (he : 0 < P.expected) : (Iblt.new P.expected).length / Iblt.nHash ≠ 0 := by
  obtain ⟨n, hn, h0⟩ := Props.new_eq P.expected
  rw [hn, Iblt.empty_length]
  exact h0 he

theorem table_length {P : Params σ} {A : List Name} {t : Iblt.Table} (he : 0 < P.expected) (h : TableOf P A t) :
    t.length = (Iblt.new P.expected).length := by
  obtain ⟨ops, _, h2⟩ := h
  rw [Iblt.apply_eq _ _ _ (length_ok P he)] at h2
  cases h2
  exact Iblt.runs_length ..

theorem apply_snoc (h : Iblt.Hash) : ∀ (ops : List (Bool × Nat)) (t t' : Iblt.Table) (b : Bool) (k : Nat), apply h t ops = .ok t' →
    apply h t (ops ++ [(b, k)]) = if b then Iblt.insert h t' k else Iblt.erase h t' k
  | [], t, t', b, k, he => by
    cases he
    cases b
    · show (Iblt.erase h t k >>= fun x => Except.ok x) = _
      cases Iblt.erase h t k <;> rfl
    · show (Iblt.insert h t k >>= fun x => Except.ok x) = _
      cases Iblt.insert h t k <;> rfl
  | (true, j) :: ops, t, t', b, k, he => by
    rw [List.cons_append]
    unfold apply at he ⊢
    cases hi : Iblt.insert h t j with
    | error e => rw [hi] at he; exact nomatch he
    | ok t1 => rw [hi] at he; exact apply_snoc h ops t1 t' b k he
  | (false, j) :: ops, t, t', b, k, he => by
    rw [List.cons_append]
    unfold apply at he ⊢
    cases hi : Iblt.erase h t j with
    | error e => rw [hi] at he; exact nomatch he
    | ok t1 => rw [hi] at he; exact apply_snoc h ops t1 t' b k he

theorem update_ok {h : Iblt.Hash} {t : Iblt.Table} (hl : t.length / Iblt.nHash ≠ 0) (s : Int) (k : Nat) :
    ∃ t', Iblt.update h t s k = .ok t' := by
  rw [Iblt.update_eq, if_neg hl]; exact ⟨_, rfl⟩

theorem nodup_map_of {P : Params σ} {A : List Name} (hd : HashesDiffer P A) (hn : A.Nodup) : (A.map P.nameHash).Nodup := by
  induction A with
  | nil => exact List.nodup_nil
  | cons a A ih =>
    obtain ⟨h1, h2⟩ := List.nodup_cons.1 hn
    rw [List.map_cons, List.nodup_cons]
    refine ⟨?_, ih (fun x hx y hy => hd x (List.mem_cons_of_mem _ hx) y (List.mem_cons_of_mem _ hy)) h2⟩
    intro hm
    obtain ⟨b, hb, he⟩ := List.mem_map.1 hm
    have := hd b (List.mem_cons_of_mem _ hb) a (List.mem_cons_self ..) he
    subst this
    exact h1 hb

theorem tableOf_nil (P : Params σ) : TableOf P [] (Iblt.new P.expected) :=
  ⟨[], ⟨List.nodup_nil, fun k => rfl⟩, rfl⟩

theorem tableOf_add {P : Params σ} {A : List Name} {t : Iblt.Table} {n : Name} (he : 0 < P.expected) (ht : TableOf P A t)
    (hn : P.nameHash n ∉ A.map P.nameHash) :
    ∃ t', Iblt.insert P.hash t (P.nameHash n) = .ok t' ∧ TableOf P (A ++ [n]) t' := by
  obtain ⟨t', h1⟩ := update_ok (h := P.hash) (t := t) (by rw [table_length he ht]; exact length_ok P he) 1 (P.nameHash n)
  obtain ⟨ops, ⟨h2, h3⟩, h4⟩ := ht
  refine ⟨t', h1, ops ++ [(true, P.nameHash n)], ⟨?_, ?_⟩, ?_⟩
  · rw [List.map_append, List.nodup_append]
    refine ⟨h2, by simp, ?_⟩
    intro a ha b hb hab
    simp only [List.map_cons, List.map_nil, List.mem_singleton] at hb
    subst hab hb
    exact hn ha
  · intro k
    rw [net_append, h3]
    by_cases hk : k = P.nameHash n
    · subst hk
      simp only [List.map_append, List.mem_append, hn]
      simp [net]
    · simp [net, hk, Ne.symm hk]
  · rw [apply_snoc _ _ _ _ _ _ h4]; exact h1

theorem mem_removing {A : List Name} {n m : Name} : m ∈ removing A n ↔ m ∈ A ∧ m ≠ n := by simp [removing]

theorem tableOf_remove {P : Params σ} {A : List Name} {t : Iblt.Table} {n : Name} (he : 0 < P.expected) (ht : TableOf P A t)
    (hd : HashesDiffer P A) (hn : n ∈ A) :
    ∃ t', Iblt.erase P.hash t (P.nameHash n) = .ok t' ∧ TableOf P (removing A n) t' := by
  obtain ⟨t', h1⟩ := update_ok (h := P.hash) (t := t) (by rw [table_length he ht]; exact length_ok P he) (-1) (P.nameHash n)
  obtain ⟨ops, ⟨h2, h3⟩, h4⟩ := ht
  refine ⟨t', h1, ops ++ [(false, P.nameHash n)], ⟨?_, ?_⟩, ?_⟩
  · exact h2.sublist (List.filter_sublist.map _)
  · intro k
    rw [net_append, h3]
    by_cases hk : k = P.nameHash n
    · subst hk
      have h5 : P.nameHash n ∉ (removing A n).map P.nameHash := by
        intro hm
        obtain ⟨b, hb, hbn⟩ := List.mem_map.1 hm
        obtain ⟨hbA, hne⟩ := mem_removing.1 hb
        exact hne (hd b hbA n hn hbn)
      rw [if_neg h5, if_pos (List.mem_map_of_mem hn)]
      simp [net]
    · have h5 : k ∈ (removing A n).map P.nameHash ↔ k ∈ A.map P.nameHash := by
        simp only [List.mem_map, mem_removing]
        constructor
        · rintro ⟨b, ⟨hb, _⟩, rfl⟩; exact ⟨b, hb, rfl⟩
        · rintro ⟨b, hb, rfl⟩
          refine ⟨b, ⟨hb, ?_⟩, rfl⟩
          rintro rfl; exact hk rfl
      simp [net, Ne.symm hk, h5]
  · rw [apply_snoc _ _ _ _ _ _ h4]; exact h1

/-! ### What an instance knows -/

theorem _root_.PyNDN.Spec.PSync.Knows.ext {P : Params σ} {s s' : State σ} {A : List Name} (h : Knows P s A) (h1 : s'.nameToHash = s.nameToHash)
    (h2 : s'.hashToName = s.hashToName) (h3 : s'.iblt = s.iblt) : Knows P s' A :=
  ⟨by rw [h1]; exact h.names, by rw [h2]; exact h.hashes, h.nodup, h.differ, by rw [h3]; exact h.table⟩

theorem _root_.PyNDN.Spec.PSync.Knows.get {P : Params σ} {s : State σ} {A : List Name} (h : Knows P s A) (n : Name) :
    dictGet n s.nameToHash = if n ∈ A then some (P.nameHash n) else none := by
  have hm : s.nameToHash.map (·.1) = A := by rw [h.names]; simp [Function.comp_def]
  by_cases hn : n ∈ A
  · rw [if_pos hn]
    apply dictGet_mem
    · rw [hm]; exact h.nodup
    · rw [h.names]; exact List.mem_map.2 ⟨n, hn, rfl⟩
  · rw [if_neg hn, dictGet_none, hm]; exact hn

theorem _root_.PyNDN.Spec.PSync.Knows.getHash {P : Params σ} {s : State σ} {A : List Name} (h : Knows P s A) {n : Name} (hn : n ∈ A) :
    dictGet (P.nameHash n) s.hashToName = some n := by
  apply dictGet_mem
  · rw [h.hashes, List.map_map]
    exact nodup_map_of h.differ h.nodup
  · rw [h.hashes]; exact List.mem_map.2 ⟨n, hn, rfl⟩

theorem _root_.PyNDN.Spec.PSync.Knows.getHash_none {P : Params σ} {s : State σ} {A : List Name} (h : Knows P s A) {k : Nat} (hk : k ∉ A.map P.nameHash) :
    dictGet k s.hashToName = none := by
  rw [dictGet_none, h.hashes, List.map_map]
  exact hk

/-- The state with other names. -/
def State.withNames (s : State σ) (P : Params σ) (A : List Name) (t : Iblt.Table) : State σ :=
  { s with nameToHash := A.map fun n => (n, P.nameHash n), hashToName := A.map fun n => (P.nameHash n, n), iblt := t }

theorem knows_withNames {P : Params σ} {s : State σ} {A : List Name} {t : Iblt.Table} (hn : A.Nodup) (hd : HashesDiffer P A)
    (ht : TableOf P A t) : Knows P (s.withNames P A t) A := ⟨rfl, rfl, hn, hd, ht⟩

theorem differ_sub {P : Params σ} {A B : List Name} (h : HashesDiffer P B) (hs : ∀ n ∈ A, n ∈ B) : HashesDiffer P A :=
  fun a ha b hb => h a (hs a ha) b (hs b hb)

theorem insertIntoIblt_eq {P : Params σ} {s : State σ} {A : List Name} {n : Name} (he : 0 < P.expected) (h : Knows P s A) (hn : n ∉ A)
    (hd : HashesDiffer P (n :: A)) :
    ∃ t, insertIntoIblt P n s = (.ok (), s.withNames P (A ++ [n]) t) ∧ Knows P (s.withNames P (A ++ [n]) t) (A ++ [n]) := by
  have hnm : P.nameHash n ∉ A.map P.nameHash := by
    intro hm
    obtain ⟨b, hb, hbn⟩ := List.mem_map.1 hm
    have := hd b (List.mem_cons_of_mem _ hb) n (List.mem_cons_self ..) hbn
    subst this; exact hn hb
  obtain ⟨t, h1, h2⟩ := tableOf_add he h.table hnm
  refine ⟨t, ?_, knows_withNames ?_ ?_ h2⟩
  · unfold insertIntoIblt
    have e1 : dictSet n (P.nameHash n) s.nameToHash = (A ++ [n]).map fun n => (n, P.nameHash n) := by
      rw [dictSet_new, h.names, List.map_append]; · rfl
      rw [h.names]; simpa [Function.comp_def] using hn
    have e2 : dictSet (P.nameHash n) n s.hashToName = (A ++ [n]).map fun n => (P.nameHash n, n) := by
      rw [dictSet_new, h.hashes, List.map_append]; · rfl
      rw [h.hashes, List.map_map]; exact hnm
    rw [modify_bind, get_bind]
    dsimp only
    rw [h1, e1, e2]
    rfl
  · rw [List.nodup_append]
    refine ⟨h.nodup, by simp, ?_⟩
    intro a ha b hb hab
    simp only [List.mem_singleton] at hb
    subst hab hb
    exact hn ha
  · exact differ_sub hd (fun m hm => by simpa [or_comm] using hm)

theorem removing_self {A : List Name} {n : Name} (hn : n ∉ A) : removing A n = A := by
  unfold removing
  rw [List.filter_eq_self]
  intro a ha
  simp only [decide_eq_true_eq]
  rintro rfl; exact hn ha

theorem _root_.PyNDN.Spec.PSync.Knows.self {P : Params σ} {s : State σ} {A : List Name} (h : Knows P s A) : s.withNames P A s.iblt = s := by
  unfold State.withNames
  rw [← h.names, ← h.hashes]

theorem removeName_eq {P : Params σ} {s : State σ} {A : List Name} (n : Name) (he : 0 < P.expected) (h : Knows P s A) :
    ∃ t, removeName P n s = (.ok (), s.withNames P (removing A n) t) ∧
      Knows P (s.withNames P (removing A n) t) (removing A n) := by
  by_cases hn : n ∈ A
  · obtain ⟨t, h1, h2⟩ := tableOf_remove he h.table h.differ hn
    refine ⟨t, ?_, knows_withNames (h.nodup.filter _) (differ_sub h.differ fun m hm => (mem_removing.1 hm).1) h2⟩
    unfold removeName
    rw [get_bind, h.get n, if_pos hn]
    dsimp only
    rw [modify_bind, get_bind]
    dsimp only
    rw [h.getHash hn, if_neg (by simp), modify_bind, get_bind]
    dsimp only
    rw [h1]
    have e1 : dictDel n s.nameToHash = (removing A n).map fun n => (n, P.nameHash n) := by
      rw [h.names]; unfold dictDel removing
      rw [List.filter_map]; rfl
    have e2 : dictDel (P.nameHash n) s.hashToName = (removing A n).map fun n => (P.nameHash n, n) := by
      rw [h.hashes]; unfold dictDel removing
      rw [List.filter_map]
      congr 1
      apply List.filter_congr
      intro a ha
      have : P.nameHash a = P.nameHash n ↔ a = n := ⟨h.differ a ha n hn, fun h => by rw [h]⟩
      simp [this]
    rw [e1, e2]
    rfl
  · rw [removing_self hn]
    refine ⟨s.iblt, ?_, by rw [h.self]; exact h⟩
    unfold removeName
    rw [get_bind, h.get n, if_neg hn, h.self]
    rfl

theorem withNames_withNames (s : State σ) (P : Params σ) (A B : List Name) (t u : Iblt.Table) :
    (s.withNames P A t).withNames P B u = s.withNames P B u := rfl

theorem removeAll_eq {P : Params σ} (he : 0 < P.expected) : ∀ (ns : List Name) {s : State σ} {A : List Name}, Knows P s A →
    ∃ t, forEach (removeName P) ns s = (.ok (), s.withNames P (ns.foldl removing A) t) ∧
      Knows P (s.withNames P (ns.foldl removing A) t) (ns.foldl removing A)
  | [], s, A, h => ⟨s.iblt, by rw [List.foldl_nil, h.self]; rfl, by rw [List.foldl_nil, h.self]; exact h⟩
  | n :: ns, s, A, h => by
    obtain ⟨t, h1, h2⟩ := removeName_eq n he h
    obtain ⟨t', h3, h4⟩ := removeAll_eq he ns h2
    refine ⟨t', ?_, h4⟩
    unfold forEach
    rw [bind_ok h1, h3]
    rfl

theorem mem_removeAll : ∀ {ns A : List Name} {m : Name}, m ∈ ns.foldl removing A → m ∈ A
  | [], _, _, h => h
  | n :: ns, A, m, h => (mem_removing.1 (mem_removeAll (ns := ns) h)).1

/-- The set that arrives has no other names. -/
theorem arrive_mem (want : Option (σ → Name → Except Err (List Name × Bool))) (app : σ) : ∀ (ns A new : List Name),
    ∀ m ∈ (arrive want app A ns new).1, m ∈ A ∨ m ∈ ns
  | [], A, new, m, h => .inl h
  | n :: ns, A, new, m, h => by
    unfold arrive at h
    split at h
    · rcases arrive_mem want app ns A new m h with h | h
      · exact .inl h
      · exact .inr (List.mem_cons_of_mem _ h)
    · split at h
      · rcases arrive_mem _ app ns _ _ m h with h | h
        · rcases List.mem_append.1 h with h | h
          · exact .inl h
          · exact .inr (by simp at h; simp [h])
        · exact .inr (List.mem_cons_of_mem _ h)
      · split at h
        · exact .inl h
        · rcases arrive_mem _ app ns _ _ m h with h | h
          · rcases List.mem_append.1 h with h | h
            · exact .inl (mem_removeAll h)
            · exact .inr (by simp at h; simp [h])
          · exact .inr (List.mem_cons_of_mem _ h)
        · rcases arrive_mem _ app ns _ _ m h with h | h
          · exact .inl (mem_removeAll h)
          · exact .inr (List.mem_cons_of_mem _ h)

/-- The result of a method for the result of the specification. -/
def asStop {α : Type} : Except Err α → Except Stop α
  | .ok a => .ok a
  | .error e => .error (.raised e)

theorem receiveNames_eq {P : Params σ} (he : 0 < P.expected) : ∀ (ns : List Name) {s : State σ} {A : List Name} (new : List Name),
    Knows P s A → HashesDiffer P (ns ++ A) →
    ∃ t, receiveNames P ns new s = (asStop (arrive P.canAddReceivedName s.app A ns new).2,
        s.withNames P (arrive P.canAddReceivedName s.app A ns new).1 t) ∧
      Knows P (s.withNames P (arrive P.canAddReceivedName s.app A ns new).1 t) (arrive P.canAddReceivedName s.app A ns new).1
  | [], s, A, new, h, hd => by
    unfold arrive
    exact ⟨s.iblt, by rw [h.self]; rfl, by rw [h.self]; exact h⟩
  | n :: ns, s, A, new, h, hd => by
    have hd' : HashesDiffer P (ns ++ A) := differ_sub hd fun m hm => List.mem_cons_of_mem _ hm
    unfold receiveNames arrive
    rw [get_bind, h.get n]
    by_cases hn : n ∈ A
    · rw [if_pos hn, if_pos (show (some (P.nameHash n)).isSome = true from rfl), if_pos hn]
      exact receiveNames_eq he ns new h hd'
    · rw [if_neg hn, if_neg (show ¬ (none : Option Nat).isSome = true from nofun), if_neg hn]
      have ins : ∀ {s : State σ} {B : List Name}, Knows P s B → (∀ m ∈ B, m ∈ A) →
          ∃ t, (insertIntoIblt P n >>= fun _ => receiveNames P ns (new ++ [n])) s =
              (asStop (arrive P.canAddReceivedName s.app (B ++ [n]) ns (new ++ [n])).2,
                s.withNames P (arrive P.canAddReceivedName s.app (B ++ [n]) ns (new ++ [n])).1 t) ∧
            Knows P (s.withNames P (arrive P.canAddReceivedName s.app (B ++ [n]) ns (new ++ [n])).1 t)
              (arrive P.canAddReceivedName s.app (B ++ [n]) ns (new ++ [n])).1 := by
        intro s B hB hsub
        obtain ⟨t, h1, h2⟩ := insertIntoIblt_eq he hB (fun hm => hn (hsub n hm)) (differ_sub hd (by
          intro m hm
          rcases List.mem_cons.1 hm with hm | hm
          · subst hm; simp
          · simp [hsub m hm]))
        obtain ⟨t', h3, h4⟩ := receiveNames_eq he ns (new ++ [n]) h2 (differ_sub hd (by
          intro m hm
          simp only [List.mem_append, List.mem_singleton] at hm
          rcases hm with hm | hm | hm
          · simp [hm]
          · simp [hsub m hm]
          · simp [hm]))
        exact ⟨t', by rw [bind_ok h1, h3]; rfl, h4⟩
      cases hw : P.canAddReceivedName with
      | none =>
        dsimp only
        rw [← hw]
        have e : wanted P n s = (.ok true, s) := by unfold wanted; rw [hw]; rfl
        rw [bind_ok e, if_pos rfl]
        exact ins h fun _ hm => hm
      | some f =>
        dsimp only
        cases hf : f s.app n with
        | error e =>
          refine ⟨s.iblt, ?_, by dsimp only; rw [h.self]; exact h⟩
          dsimp only
          rw [h.self]
          apply bind_error
          unfold wanted
          rw [hw]
          dsimp only
          rw [get_bind, hf]
          rfl
        | ok r =>
          obtain ⟨without, ok⟩ := r
          obtain ⟨t, h1, h2⟩ := removeAll_eq he without h
          have e : wanted P n s = (.ok ok, s.withNames P (without.foldl removing A) t) := by
            unfold wanted
            rw [hw]
            dsimp only
            rw [get_bind, hf]
            show (forEach (removeName P) without >>= fun _ => pure ok) s = _
            rw [bind_ok h1]
            rfl
          rw [← hw]
          cases ok with
          | true =>
            dsimp only
            obtain ⟨t', h3, h4⟩ := ins h2 fun m hm => mem_removeAll hm
            refine ⟨t', ?_, h4⟩
            rw [bind_ok e, if_pos rfl, h3]
            rfl
          | false =>
            dsimp only
            obtain ⟨t', h3, h4⟩ := receiveNames_eq he ns new h2 (differ_sub hd' (by
              intro m hm
              rcases List.mem_append.1 hm with hm | hm
              · simp [hm]
              · simp [mem_removeAll hm]))
            refine ⟨t', ?_, h4⟩
            rw [bind_ok e, if_neg (by simp), h3]
            rfl

end PSync
end PyNDN
