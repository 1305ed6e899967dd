import Verif.Lemmas.PSync
import Verif.Props.PSyncSegments
/-
C58: full PSync.
-/
namespace PyNDN
namespace PSync
open Spec.PSync Spec.Iblt
open Spec (CanonicalName)

variable {σ τ : Type}

/-! ### The set of names -/

theorem Quiet.knows {α : Type} {P : Params σ} {m : M σ α} (hm : Quiet m) {s : State σ} {A : List Name} (h : Knows P s A) :
    Knows P (m s).2 A ∧ (m s).2.app = s.app ∧ updatesOf (m s).2.log = updatesOf s.log := by
  have := hm s
  unfold core at this
  simp only [Prod.mk.injEq] at this
  exact ⟨h.ext this.1 this.2.1 this.2.2.1, this.2.2.2.1, this.2.2.2.2⟩

theorem publishName_eq {P : Params σ} {s : State σ} {A : List Name} {n : Name} (now : Nat) (he : 0 < P.expected) (h : Knows P s A) (hn : n ∉ A)
    (hd : HashesDiffer P (n :: A)) :
    ∃ t, publishName P now n s = satisfyPendingInterests P now (s.withNames P (A ++ [n]) t) ∧
      Knows P (s.withNames P (A ++ [n]) t) (A ++ [n]) := by
  obtain ⟨t, h1, h2⟩ := insertIntoIblt_eq he h hn hd
  refine ⟨t, ?_, h2⟩
  unfold publishName
  rw [get_bind, h.get n, if_neg hn, if_neg nofun, bind_ok h1]

theorem onSyncData_eq {P : Params σ} {s : State σ} {A ns : List Name} {content : Bytes} (i : Name) (he : 0 < P.expected) (h : Knows P s A)
    (hc : decodeState content = .ok ns) (hd : HashesDiffer P (ns ++ A)) :
    let s1 := (deletePendingInterests i s).2
    ∃ t, Knows P (s1.withNames P (arrive P.canAddReceivedName s.app A ns []).1 t) (arrive P.canAddReceivedName s.app A ns []).1 ∧
      onSyncData P i content s = match (arrive P.canAddReceivedName s.app A ns []).2 with
        | .error e => (.error (.raised e), s1.withNames P (arrive P.canAddReceivedName s.app A ns []).1 t)
        | .ok [] => (.ok (), s1.withNames P (arrive P.canAddReceivedName s.app A ns []).1 t)
        | .ok new => sendSyncInterest P { s1.withNames P (arrive P.canAddReceivedName s.app A ns []).1 t with
                                          app := P.onNamesUpdate s.app new, log := s1.log ++ [.update new] } := by
  intro s1
  have hq := (quiet_deletePending (σ := σ) i).knows h
  have e1 : deletePendingInterests i s = (.ok (), s1) := by
    have : (deletePendingInterests i s).1 = .ok () := by
      unfold deletePendingInterests
      rw [get_bind]
      cases dictGet i s.pending <;> rfl
    rw [← this]
  obtain ⟨t, h1, h2⟩ := receiveNames_eq he ns [] hq.1 hd
  rw [show (deletePendingInterests i s).2.app = s.app from hq.2.1] at h1 h2
  refine ⟨t, h2, ?_⟩
  unfold onSyncData
  rw [bind_ok e1, hc]
  show (receiveNames P ns [] >>= _) s1 = _
  generalize hA : (arrive P.canAddReceivedName s.app A ns []) = r at h1
  obtain ⟨B, r⟩ := r
  cases r with
  | error e => rw [bind_error h1]
  | ok new =>
    rw [bind_ok h1]
    cases new with
    | nil => rfl
    | cons m new =>
      rw [if_pos (by simp), modify_bind]
      show sendSyncInterest P { s1.withNames P B t with app := P.onNamesUpdate s1.app (m :: new), log := s1.log ++ [.update (m :: new)] } = _
      rw [show s1.app = s.app from hq.2.1]

theorem updatesOf_update (log : List Event) (ns : List Name) : updatesOf (log ++ [.update ns]) = updatesOf log ++ [ns] := by
  simp [updatesOf, List.filterMap_append]

theorem mem_adding {A : List Name} {n m : Name} : m ∈ adding A n ↔ m ∈ A ∨ m = n := by
  unfold adding
  split
  · next h =>
    refine ⟨.inl, ?_⟩
    rintro (h1 | rfl)
    · exact h1
    · exact h
  · simp

theorem step_knows {P : Params σ} (he : 0 < P.expected) {s : State σ} {a : Abs σ} (op : Op σ)
    (hd : HashesDiffer P (mentions op ++ a.names)) (h : Knows P s a.names) (ha : s.app = a.app) (hu : updatesOf s.log = a.updates) :
    Knows P (perform P op s).2 (absStep P a op).names ∧ (perform P op s).2.app = (absStep P a op).app ∧
      updatesOf (perform P op s).2.log = (absStep P a op).updates ∧
      ∀ n ∈ (absStep P a op).names, n ∈ mentions op ∨ n ∈ a.names := by
  have quiet : ∀ {α : Type} {m : M σ α}, Quiet m → Knows P (m s).2 a.names ∧ (m s).2.app = a.app ∧
      updatesOf (m s).2.log = a.updates ∧ ∀ n ∈ a.names, n ∈ mentions op ∨ n ∈ a.names := by
    intro α m hm
    obtain ⟨h1, h2, h3⟩ := hm.knows h
    exact ⟨h1, h2.trans ha, h3.trans hu, fun n hn => .inr hn⟩
  cases op with
  | publishName now n =>
    unfold perform absStep
    dsimp only
    by_cases hn : n ∈ a.names
    · have e : publishName P now n s = (.ok (), s) := by
        unfold publishName
        rw [get_bind, h.get n, if_pos hn, if_pos (show (some (P.nameHash n)).isSome = true from rfl)]
        rfl
      rw [e, adding, if_pos hn]
      exact ⟨h, ha, hu, fun n hn => .inr hn⟩
    · obtain ⟨t, h1, h2⟩ := publishName_eq now he h hn hd
      obtain ⟨h3, h4, h5⟩ := (quiet_satisfyPending P now).knows h2
      rw [h1, adding, if_neg hn]
      refine ⟨h3, h4.trans ha, h5.trans hu, ?_⟩
      intro m hm
      rcases List.mem_append.1 hm with hm | hm
      · exact .inr hm
      · exact .inl hm
  | removeName n =>
    obtain ⟨t, h1, h2⟩ := removeName_eq n he h
    unfold perform absStep
    dsimp only
    rw [h1]
    exact ⟨h2, ha, hu, fun m hm => .inr (mem_removing.1 hm).1⟩
  | interest now n l => exact quiet (quiet_onSyncInterest _ _ _ _ _)
  | data i content =>
    unfold perform absStep
    dsimp only
    unfold mentions at hd ⊢
    dsimp only at hd ⊢
    cases hc : decodeState content with
    | error e =>
      dsimp only
      have e1 : (onSyncData P i content s).2 = (deletePendingInterests i s).2 := by
        unfold onSyncData
        cases hx : deletePendingInterests i s with
        | mk r s1 =>
          cases r with
          | error e => rw [bind_error hx]
          | ok u =>
            rw [bind_ok hx, hc]
            rfl
      rw [e1]
      obtain ⟨h1, h2, h3⟩ := (quiet_deletePending (σ := σ) i).knows h
      exact ⟨h1, h2.trans ha, h3.trans hu, fun n hn => .inr hn⟩
    | ok ns =>
      rw [hc] at hd
      dsimp only at hd ⊢
      obtain ⟨t, h1, h2⟩ := onSyncData_eq i he h hc hd
      rw [h2]
      have hq := (quiet_deletePending (σ := σ) i).knows h
      have hm : ∀ m ∈ (arrive P.canAddReceivedName s.app a.names ns []).1, m ∈ ns ∨ m ∈ a.names :=
        fun m hm => (arrive_mem _ _ _ _ _ m hm).symm
      rw [← ha]
      generalize arrive P.canAddReceivedName s.app a.names ns [] = r at h1 h2 hm ⊢
      obtain ⟨B, r⟩ := r
      cases r with
      | error e => exact ⟨h1, hq.2.1, hq.2.2.trans hu, hm⟩
      | ok new =>
        cases new with
        | nil => exact ⟨h1, hq.2.1, hq.2.2.trans hu, hm⟩
        | cons n new =>
          dsimp only at h1 hm ⊢
          obtain ⟨h3, h4, h5⟩ := (quiet_sendSyncInterest P).knows (s := { (deletePendingInterests i s).2.withNames P B t with
                                          app := P.onNamesUpdate s.app (n :: new), log := (deletePendingInterests i s).2.log ++ [.update (n :: new)] })
            (h1.ext rfl rfl rfl)
          refine ⟨h3, h4, ?_, hm⟩
          rw [h5]
          dsimp only
          rw [updatesOf_update, hq.2.2, hu]
  | renew => exact quiet (quiet_sendSyncInterest P)
  | expire i => exact quiet (quiet_delayedRemove i)
  | expireStore i => exact quiet (quiet_modify fun _ => rfl)
  | app f =>
    refine ⟨h.ext rfl rfl rfl, ?_, hu, fun m hm => .inr hm⟩
    show f s.app = f a.app
    rw [ha]

theorem start_knows (P : Params σ) (app : σ) :
    Knows P (start P app) [] ∧ (start P app).app = app ∧ updatesOf (start P app).log = [] := by
  unfold start
  exact (quiet_sendSyncInterest P).knows (s := { iblt := Iblt.new P.expected, app := app })
    ⟨rfl, rfl, List.nodup_nil, (fun _ h => nomatch h), tableOf_nil P⟩

/-- After any history, also one in which calls raise or do not return, the instance has exactly the names that were
published or accepted and not removed: its two dictionaries and its table agree on them, and the application was told of
exactly the new names that arrived. -/
theorem C58_set (P : Params σ) (he : 0 < P.expected) (app : σ) (ops : List (Op σ)) (hd : HashesDiffer P (ops.flatMap mentions)) :
    Knows P (run P app ops) (absRun P app ops).names ∧ (run P app ops).app = (absRun P app ops).app ∧
      updatesOf (run P app ops).log = (absRun P app ops).updates := by
  unfold run absRun
  suffices ∀ (ops : List (Op σ)) (s : State σ) (a : Abs σ), HashesDiffer P (ops.flatMap mentions ++ a.names) → Knows P s a.names →
      s.app = a.app → updatesOf s.log = a.updates →
      Knows P (ops.foldl (fun s op => (perform P op s).2) s) (ops.foldl (absStep P) a).names ∧
        (ops.foldl (fun s op => (perform P op s).2) s).app = (ops.foldl (absStep P) a).app ∧
        updatesOf (ops.foldl (fun s op => (perform P op s).2) s).log = (ops.foldl (absStep P) a).updates by
    obtain ⟨h1, h2, h3⟩ := start_knows P app
    exact this ops _ { app := app } (by rw [List.append_nil]; exact hd) h1 h2 h3
  intro ops
  induction ops with
  | nil => intro s a _ h1 h2 h3; exact ⟨h1, h2, h3⟩
  | cons op ops ih =>
    intro s a hd h1 h2 h3
    rw [List.foldl_cons, List.foldl_cons]
    rw [List.flatMap_cons] at hd
    obtain ⟨a1, a2, a3, a4⟩ := step_knows he op (differ_sub hd (by
      intro n hn
      simp only [List.mem_append] at hn ⊢
      rcases hn with hn | hn
      · exact .inl (.inl hn)
      · exact .inr hn)) h1 h2 h3
    refine ih _ _ (differ_sub hd ?_) a1 a2 a3
    intro n hn
    simp only [List.mem_append] at hn ⊢
    rcases hn with hn | hn
    · exact .inl (.inr hn)
    · rcases a4 n hn with hn | hn
      · exact .inl (.inl hn)
      · exact .inr hn

/-- Without a callback that refuses names: the last action that has to do with the name decides whether it is in the set. -/
def inSet : List (Op σ) → Name → Bool
  | [], _ => false
  | .publishName _ m :: ops, n => m == n || inSet ops n
  | .removeName m :: ops, n => m != n && inSet ops n
  | .data _ content :: ops, n => (match decodeState content with
    | .ok ns => ns.contains n
    | .error _ => false) || inSet ops n
  | _ :: ops, n => inSet ops n

theorem arrive_none (app : σ) : ∀ (ns A new : List Name), ∃ r,
    (arrive (none : Option (σ → Name → Except Err (List Name × Bool))) app A ns new).2 = .ok (new ++ r) ∧
    (arrive (none : Option (σ → Name → Except Err (List Name × Bool))) app A ns new).1 = A ++ r ∧
    r.Nodup ∧ (∀ n, n ∈ r ↔ n ∈ ns ∧ n ∉ A)
  | [], A, new => ⟨[], by unfold arrive; simp⟩
  | n :: ns, A, new => by
    unfold arrive
    by_cases hn : n ∈ A
    · rw [if_pos hn]
      obtain ⟨r, h1, h2, h3, h4⟩ := arrive_none app ns A new
      refine ⟨r, h1, h2, h3, ?_⟩
      intro m
      rw [h4]
      constructor
      · rintro ⟨a, b⟩; exact ⟨List.mem_cons_of_mem _ a, b⟩
      · rintro ⟨a, b⟩
        rcases List.mem_cons.1 a with rfl | a
        · exact absurd hn b
        · exact ⟨a, b⟩
    · rw [if_neg hn]
      dsimp only
      obtain ⟨r, h1, h2, h3, h4⟩ := arrive_none app ns (A ++ [n]) (new ++ [n])
      refine ⟨n :: r, by rw [h1]; simp, by rw [h2]; simp, ?_, ?_⟩
      · rw [List.nodup_cons]
        refine ⟨?_, h3⟩
        rw [h4]
        simp
      · intro m
        rw [List.mem_cons, h4, List.mem_cons, List.mem_append, List.mem_singleton]
        constructor
        · rintro (rfl | ⟨a, b⟩)
          · exact ⟨.inl rfl, hn⟩
          · exact ⟨.inr a, fun h => b (.inl h)⟩
        · rintro ⟨rfl | a, b⟩
          · exact .inl rfl
          · by_cases hm : m = n
            · exact .inl hm
            · exact .inr ⟨a, fun h => h.elim b hm⟩

/-- Without such a callback the names of the instance are those that the history says. -/
theorem C58_names (P : Params σ) (he : 0 < P.expected) (hw : P.canAddReceivedName = none) (app : σ) (ops : List (Op σ))
    (hd : HashesDiffer P (ops.flatMap mentions)) :
    ∃ A, Knows P (run P app ops) A ∧ ∀ n, n ∈ A ↔ inSet ops.reverse n = true := by
  refine ⟨_, (C58_set P he app ops hd).1, ?_⟩
  suffices ∀ (rs : List (Op σ)) (n : Name), n ∈ (absRun P app rs.reverse).names ↔ inSet rs n = true by
    intro n
    have := this ops.reverse n
    rwa [List.reverse_reverse] at this
  intro rs
  induction rs with
  | nil => intro n; simp [absRun, inSet]
  | cons op rs ih =>
    intro n
    rw [List.reverse_cons]
    unfold absRun at *
    rw [List.foldl_append, List.foldl_cons, List.foldl_nil]
    generalize rs.reverse.foldl (absStep P) { app := app } = a at ih
    cases op with
    | publishName now m =>
      show n ∈ adding a.names m ↔ _
      rw [mem_adding, ih]
      rw [show inSet (Op.publishName now m :: rs) n = (m == n || inSet rs n) from rfl, Bool.or_eq_true, beq_iff_eq, or_comm, @eq_comm _ n m]
    | removeName m =>
      show n ∈ removing a.names m ↔ _
      rw [mem_removing, ih]
      rw [show inSet (Op.removeName m :: rs) n = (m != n && inSet rs n) from rfl, Bool.and_eq_true, bne_iff_ne, and_comm, ne_comm]
    | data i content =>
      unfold absStep inSet
      dsimp only
      cases hc : decodeState content with
      | error e => simpa using ih n
      | ok ns =>
        dsimp only
        obtain ⟨r, h1, h2, h3, h4⟩ := arrive_none a.app ns a.names []
        rw [← hw] at h1 h2
        have key : n ∈ a.names ++ r ↔ (ns.contains n || inSet rs n) = true := by
          rw [List.mem_append, h4, ih, Bool.or_eq_true, List.contains_iff_mem]
          constructor
          · rintro (h | h)
            · exact .inr h
            · exact .inl h.1
          · rintro (h | h)
            · by_cases hn : inSet rs n = true
              · exact .inl hn
              · exact .inr ⟨h, hn⟩
            · exact .inl h
        generalize arrive P.canAddReceivedName a.app a.names ns [] = q at h1 h2
        obtain ⟨B, q⟩ := q
        dsimp only at h1 h2
        subst h1 h2
        cases r <;> exact key
    | interest now m l => exact ih n
    | renew => exact ih n
    | expire i => exact ih n
    | expireStore i => exact ih n
    | app f => exact ih n

/-- When a content with the names `ns` is received, the application is told once of the names that the instance did not have,
each once, in one list, after which it has them; if there are none then it is told nothing. -/
theorem C58_told (P : Params σ) (he : 0 < P.expected) (hw : P.canAddReceivedName = none) (app : σ) (ops : List (Op σ)) (i : Name)
    (content : Bytes) (ns : List Name) (hc : decodeState content = .ok ns)
    (hd : HashesDiffer P ((ops ++ [Op.data i content]).flatMap mentions)) :
    ∃ A new, Knows P (run P app ops) A ∧ Knows P (run P app (ops ++ [.data i content])) (A ++ new) ∧ new.Nodup ∧
      (∀ n, n ∈ new ↔ n ∈ ns ∧ n ∉ A) ∧
      updatesOf (run P app (ops ++ [.data i content])).log = updatesOf (run P app ops).log ++ (if new = [] then [] else [new]) := by
  have h1 := C58_set P he app ops (differ_sub hd (fun n hn => by rw [List.flatMap_append]; exact List.mem_append_left _ hn))
  have h2 := C58_set P he app _ hd
  have e : absRun P app (ops ++ [.data i content]) = absStep P (absRun P app ops) (.data i content) := by
    unfold absRun
    rw [List.foldl_append]
    rfl
  rw [e] at h2
  generalize absRun P app ops = a at h1 h2
  obtain ⟨r, g1, g2, g3, g4⟩ := arrive_none a.app ns a.names []
  refine ⟨a.names, r, h1.1, ?_, g3, g4, ?_⟩
  · have := h2.1
    unfold absStep at this
    dsimp only at this
    rw [hc] at this
    dsimp only at this
    rw [hw] at this
    generalize arrive (none : Option (σ → Name → Except Err (List Name × Bool))) a.app a.names ns [] = q at g1 g2 this
    obtain ⟨B, q⟩ := q
    dsimp only at g1 g2
    subst g1 g2
    cases r <;> exact this
  · have := h2.2.2
    rw [this, h1.2.2]
    unfold absStep
    dsimp only
    rw [hc]
    dsimp only
    rw [hw]
    generalize arrive (none : Option (σ → Name → Except Err (List Name × Bool))) a.app a.names ns [] = q at g1 g2
    obtain ⟨B, q⟩ := q
    dsimp only at g1 g2
    subst g1 g2
    cases r
    · simp
    · simp

/-! ### The answer to an Interest -/

theorem mem_missing {A B : List Name} {n : Name} : n ∈ missing A B ↔ n ∈ A ∧ n ∉ B := by simp [missing]

theorem hash_mem {P : Params σ} {A B : List Name} (hd : HashesDiffer P (A ++ B)) {n : Name} (hn : n ∈ A) :
    P.nameHash n ∈ B.map P.nameHash ↔ n ∈ B := by
  constructor
  · intro hm
    obtain ⟨b, hb, he⟩ := List.mem_map.1 hm
    have := hd b (List.mem_append_right _ hb) n (List.mem_append_left _ hn) he
    subst this; exact hb
  · exact List.mem_map_of_mem

theorem differ_comm {P : Params σ} {A B : List Name} (hd : HashesDiffer P (A ++ B)) : HashesDiffer P (B ++ A) :=
  differ_sub hd fun n hn => by
    rcases List.mem_append.1 hn with h | h
    · exact List.mem_append_right _ h
    · exact List.mem_append_left _ h

/-- The difference of the own table and the table of other names. -/
theorem listDifference_spec {P : Params σ} {s : State σ} {A B : List Name} {t : Iblt.Table} (he : 0 < P.expected) (h : Knows P s A)
    (ht : TableOf P B t) (hd : HashesDiffer P (A ++ B)) (hc : NoCollision P.hash (differing P A B))
    (hr : (differing P A B).length < P.rounds) :
    ∃ b positive negative, listDifference P t s = (.ok (b, positive, negative), s) ∧ positive.Nodup ∧
      (∀ k ∈ positive, ∃ n ∈ missing A B, P.nameHash n = k) ∧ (∀ k ∈ negative, ∃ n ∈ missing B A, P.nameHash n = k) ∧
      (b = true ↔ Readable P A B) ∧
      (b = true → (∀ n ∈ missing A B, P.nameHash n ∈ positive) ∧ ∀ n ∈ missing B A, P.nameHash n ∈ negative) ∧
      (∀ n ∈ missing A B, P.nameHash n ∈ positive ↔ ¬ Lost P A B n) ∧
      ∃ names : List Name, names.Nodup ∧ names.length = negative.length ∧ ∀ n, n ∈ names ↔ n ∈ missing B A ∧ ¬ Lost P A B n := by
  obtain ⟨opsA, hA, hA'⟩ := h.table
  obtain ⟨opsB, hB, hB'⟩ := ht
  obtain ⟨tA, tB, d, b, positive, negative, h1, h2, h3, h4, h5, h6, h7, h8, h9, h10, h11, h12⟩ :=
    Props.C56_reconcile P.hash P.expected he _ _ opsA opsB hA hB hc
  rw [hA'] at h1
  rw [hB'] at h2
  cases h1
  cases h2
  have inA : ∀ n ∈ missing A B, P.nameHash n ∈ A.map P.nameHash ∧ P.nameHash n ∉ B.map P.nameHash := by
    intro n hn
    obtain ⟨ha, hb'⟩ := mem_missing.1 hn
    exact ⟨List.mem_map_of_mem ha, fun hm => hb' ((hash_mem hd ha).1 hm)⟩
  have inB : ∀ n ∈ missing B A, P.nameHash n ∈ B.map P.nameHash ∧ P.nameHash n ∉ A.map P.nameHash := by
    intro n hn
    obtain ⟨ha, hb'⟩ := mem_missing.1 hn
    exact ⟨List.mem_map_of_mem ha, fun hm => hb' ((hash_mem (differ_comm hd) ha).1 hm)⟩
  have hneg : ∀ k ∈ negative, ∃ n ∈ missing B A, P.nameHash n = k := by
    intro k hk
    obtain ⟨h11, h12⟩ := h8 k hk
    obtain ⟨n, hn, rfl⟩ := List.mem_map.1 h11
    exact ⟨n, mem_missing.2 ⟨hn, fun hm => h12 (List.mem_map_of_mem hm)⟩, rfl⟩
  have hBn : B.Nodup := (List.pairwise_map.1 hB.1).imp fun hne heq => hne (by rw [heq])
  refine ⟨b, positive, negative, ?_, h5, ?_, hneg, h9, ?_, fun n hn => ?_,
    (missing B A).filter (fun n => P.nameHash n ∈ negative), (hBn.filter _).filter _, ?_, fun n => ?_⟩
  · unfold listDifference
    rw [get_bind, h3]
    show (lift (Iblt.listEntries P.hash P.rounds d) >>= _) s = _
    rw [h4 _ hr]
    rfl
  · intro k hk
    obtain ⟨h11, h12⟩ := h7 k hk
    obtain ⟨n, hn, rfl⟩ := List.mem_map.1 h11
    exact ⟨n, mem_missing.2 ⟨hn, fun hm => h12 (List.mem_map_of_mem hm)⟩, rfl⟩
  · intro hb
    obtain ⟨h13, h14⟩ := h10 hb
    exact ⟨fun n hn => h13 _ (inA n hn), fun n hn => h14 _ (inB n hn)⟩
  · rw [h11]
    exact ⟨fun hx => hx.2, fun hx => ⟨inA n hn, hx⟩⟩
  · rw [← List.length_map (f := P.nameHash)]
    apply List.Perm.length_eq
    rw [List.perm_ext_iff_of_nodup ?_ h6]
    · intro k
      constructor
      · intro hk
        obtain ⟨n, hn, rfl⟩ := List.mem_map.1 hk
        simpa using (List.mem_filter.1 hn).2
      · intro hk
        obtain ⟨n, hn, rfl⟩ := hneg k hk
        exact List.mem_map_of_mem (List.mem_filter.2 ⟨hn, by simpa using hk⟩)
    · exact hB.1.sublist ((List.filter_sublist.trans List.filter_sublist).map _)
  · rw [List.mem_filter]
    constructor
    · rintro ⟨a1, a2⟩
      exact ⟨a1, ((h12 _).1 (by simpa using a2)).2⟩
    · rintro ⟨a1, a2⟩
      exact ⟨a1, by simpa using (h12 _).2 ⟨inB n a1, a2⟩⟩

/-- The names of keys of own names. -/
theorem contentNames_eq {P : Params σ} {s : State σ} {A : List Name} (h : Knows P s A) (negative : List Nat) :
    ∀ (ks : List Nat) (names : List Name), (∀ k ∈ ks, ∃ n ∈ A, P.nameHash n = k) →
    ∃ ns, contentNames none negative ks names s = (.ok (names ++ ns), s) ∧ ns.map P.nameHash = ks ∧ ∀ n ∈ ns, n ∈ A
  | [], names, _ => ⟨[], by rw [List.append_nil]; rfl, rfl, nofun⟩
  | k :: ks, names, hk => by
    obtain ⟨n, hn, rfl⟩ := hk k (List.mem_cons_self ..)
    obtain ⟨ns, h1, h2, h3⟩ := contentNames_eq h negative ks (names ++ [n]) fun k hk' => hk k (List.mem_cons_of_mem _ hk')
    refine ⟨n :: ns, ?_, by rw [List.map_cons, h2], ?_⟩
    · unfold contentNames
      rw [get_bind, h.getHash hn]
      dsimp only
      rw [get_bind, h.get n, if_pos hn, if_pos (show (some (P.nameHash n)).isSome = true from rfl)]
      show contentNames none negative ks (names ++ [n]) s = _
      rw [h1, List.append_assoc]
      rfl
    · intro m hm
      rcases List.mem_cons.1 hm with rfl | hm
      · exact hn
      · exact h3 m hm

/-- The names for the positive keys are missing on the other side; all that are missing, if the difference was read. -/
theorem contentNames_missing {P : Params σ} {s : State σ} {A B : List Name} (h : Knows P s A) (hd : HashesDiffer P (A ++ B))
    {positive : List Nat} (negative : List Nat)
    (hp : positive.Nodup) (hm : ∀ k ∈ positive, ∃ n ∈ missing A B, P.nameHash n = k) :
    ∃ ns, contentNames none negative positive [] s = (.ok ns, s) ∧ ns.Nodup ∧ (∀ n ∈ ns, n ∈ missing A B) ∧
      ns.length = positive.length ∧
      ((∀ n ∈ missing A B, P.nameHash n ∈ positive) → ns.Perm (missing A B)) ∧
      (∀ n ∈ missing A B, n ∈ ns ↔ P.nameHash n ∈ positive) := by
  obtain ⟨ns, h1, h2, h3⟩ := contentNames_eq h negative positive [] fun k hk => by
    obtain ⟨n, hn, he⟩ := hm k hk
    exact ⟨n, (mem_missing.1 hn).1, he⟩
  have hnd : ns.Nodup := by
    rw [← h2] at hp
    exact (List.pairwise_map.1 hp).imp fun hne heq => hne (by rw [heq])
  have hmem : ∀ n ∈ ns, n ∈ missing A B := by
    intro n hn
    have : P.nameHash n ∈ positive := by rw [← h2]; exact List.mem_map_of_mem hn
    obtain ⟨m, hm1, hm2⟩ := hm _ this
    have := h.differ m (mem_missing.1 hm1).1 n (h3 n hn) hm2
    subst this; exact hm1
  have hiff : ∀ n ∈ missing A B, n ∈ ns ↔ P.nameHash n ∈ positive := by
    intro n hn
    rw [← h2]
    refine ⟨fun h' => List.mem_map_of_mem h', fun h' => ?_⟩
    obtain ⟨m, hm1, hm2⟩ := List.mem_map.1 h'
    have := h.differ m (h3 m hm1) n (mem_missing.1 hn).1 hm2
    subst this; exact hm1
  refine ⟨ns, h1, hnd, hmem, by rw [← h2, List.length_map], ?_, hiff⟩
  intro hall
  have hnm : (missing A B).Nodup := h.nodup.filter _
  rw [List.perm_ext_iff_of_nodup hnd hnm]
  intro n
  exact ⟨hmem n, fun hn => (hiff n hn).2 (hall n hn)⟩

theorem asked_snoc (pre : Name) (c : Component) : ∃ k, asked (pre ++ [c]) = .ok k := by
  unfold asked
  rw [last_eq]
  show ∃ k, (if c.isSegment then c.toSegment else pure 0) = .ok k
  split
  · next hs =>
    unfold Component.isSegment Component.hasMarker at hs
    unfold Component.toSegment Component.toNumberWithMarker
    cases hv : c.value with
    | nil => rw [hv] at hs; exact nomatch hs
    | cons b bs =>
      rw [hv] at hs
      dsimp only at hs ⊢
      simp only [Bool.and_eq_true, beq_iff_eq] at hs
      rw [if_neg (by simpa using hs.1)]
      exact ⟨_, rfl⟩
  · exact ⟨0, rfl⟩

theorem fromNumber_eq (n : Nat) : Component.fromNumber (n : Int) = .ok ⟨.generic, Spec.nonNeg n⟩ := by
  have h1 : ¬ ((n : Int) < 0) := by omega
  simp only [Component.fromNumber, writeNonNegativeInteger, bind, Except.bind, h1, if_false,
      Int.toNat_natCast, nonNegIntBytes_spec, List.append_nil]; rfl

/-- The name of a Data packet that answers an Interest. -/
def replyName (P : Params σ) (s : State σ) (name : Name) : Name :=
  name ++ [⟨.generic, Spec.nonNeg (P.pyHash [⟨.generic, Iblt.encode P.compress s.iblt⟩])⟩]

theorem publishContent_eq {P : Params σ} {s : State σ} (now : Nat) (pre : Name) (c : Component) (dataName : Name) (content : Bytes) :
    ∃ p, publish P.pub s.pub now (pre ++ [c]) dataName content P.freshness = .ok p ∧
      publishContent P now (pre ++ [c]) dataName content s = (.ok (), { s with pub := p }) := by
  obtain ⟨k, hk⟩ := asked_snoc pre c
  refine ⟨_, publish_eq P.pub s.pub now (pre ++ [c]) dataName content P.freshness k hk, ?_⟩
  unfold publishContent
  rw [get_bind, publish_eq P.pub s.pub now (pre ++ [c]) dataName content P.freshness k hk]
  rfl

theorem sendSyncInterest_same (P : Params σ) (s : State σ) :
    (sendSyncInterest P s).2.pub = s.pub ∧ (sendSyncInterest P s).2.pending = s.pending ∧
    (sendSyncInterest P s).2.removed = s.removed ∧ (sendSyncInterest P s).2.timers = s.timers ∧
    (sendSyncInterest P s).2.nextEntry = s.nextEntry := by
  unfold sendSyncInterest
  rw [get_bind, modify_bind]
  cases P.expressRaises (P.syncPrefix ++ [⟨.generic, Iblt.encode P.compress s.iblt⟩]) <;> exact ⟨rfl, rfl, rfl, rfl, rfl⟩

/-- The name of the sync Interest that says what an instance has. -/
def interestName (Q : Params τ) (q : State τ) : Name := Q.syncPrefix ++ [⟨.generic, Iblt.encode Q.compress q.iblt⟩]

theorem sendSyncData_eq {P : Params σ} {s : State σ} (now : Nat) (pre : Name) (c : Component) (content : Bytes) :
    let s' := (sendSyncData P now (pre ++ [c]) content s).2
    publish P.pub s.pub now (pre ++ [c]) (replyName P s (pre ++ [c])) content P.freshness = .ok s'.pub ∧
      s'.pending = s.pending ∧ s'.removed = s.removed ∧ s'.timers = s.timers ∧ s'.nextEntry = s.nextEntry ∧
      ((∀ n, P.expressRaises n = none) → (sendSyncData P now (pre ++ [c]) content s).1 = .ok ()) ∧
      ((∀ n, P.expressRaises n = none) → s.outstanding = pre ++ [c] → s'.log = s.log ++ [.interest (interestName P s)] ∧
        s'.outstanding = interestName P s) := by
  have e : sendSyncData P now (pre ++ [c]) content s =
      (if s.outstanding = pre ++ [c] then do
        modify fun s => { s with outstanding := [] }
        publishContent P now (pre ++ [c]) (replyName P s (pre ++ [c])) content
        sendSyncInterest P
      else publishContent P now (pre ++ [c]) (replyName P s (pre ++ [c])) content) s := by
    unfold sendSyncData
    rw [get_bind, fromNumber_eq]
    rfl
  rw [e]
  by_cases ho : s.outstanding = pre ++ [c]
  · rw [if_pos ho, modify_bind]
    obtain ⟨p, h1, h2⟩ := publishContent_eq (P := P) (s := { s with outstanding := [] }) now pre c (replyName P s (pre ++ [c])) content
    rw [bind_ok h2]
    obtain ⟨h3, h4, h5, h6, h7⟩ := sendSyncInterest_same P { s with outstanding := [], pub := p }
    dsimp only at h1 ⊢
    rw [h3, h4, h5, h6, h7]
    refine ⟨h1, rfl, rfl, rfl, rfl, ?_, ?_⟩
    · intro hx
      unfold sendSyncInterest
      rw [get_bind, modify_bind, hx]
      rfl
    · intro hx _
      unfold sendSyncInterest
      rw [get_bind, modify_bind, hx]
      exact ⟨rfl, rfl⟩
  · rw [if_neg ho]
    obtain ⟨p, h1, h2⟩ := publishContent_eq (P := P) (s := s) now pre c (replyName P s (pre ++ [c])) content
    rw [h2]
    exact ⟨h1, rfl, rfl, rfl, rfl, fun _ => rfl, fun _ ho' => absurd ho' ho⟩

theorem onSyncInterest_one {P : Params σ} {s : State σ} (now : Nat) (c : Component) (l : Bool)
    (hs : replyFromStore s.pub (P.syncPrefix ++ [c]) = none) :
    onSyncInterest P now P.syncPrefix.length (P.syncPrefix ++ [c]) l s =
      onSyncInterest.answer P now (P.syncPrefix ++ [c]) l (P.syncPrefix ++ [c]) s := by
  unfold onSyncInterest
  rw [get_bind, hs]
  dsimp only
  rw [C16_subName_rest]
  show (if (List.drop P.syncPrefix.length (P.syncPrefix ++ [c])).length = 1 then _ else _ : M σ Unit) s = _
  rw [if_pos (by simp)]

/-- How an instance answers the table of the names `B` (`A` are its own): it publishes these names. -/
structure Answers (P : Params σ) (s s' : State σ) (now : Nat) (name dataName : Name) (names : List Name) : Prop where
  published : publish P.pub s.pub now name dataName (encodeState names) P.freshness = .ok s'.pub
  pending : s'.pending = s.pending

/-- An instance with the names `A` gets an Interest with the table of the names `B`, which it cannot answer from the store.
If the difference can be read off the tables, it publishes exactly the names that only it has, and if its own outstanding
Interest has the same name, it expresses a new one with its table; if there are none, it keeps the Interest for later.  If the difference cannot be read, let `mine` and `theirs` be the names that can be read, on each side.
If they are none, or at least half of the expected number, the instance publishes all its names (if it has any); otherwise it
publishes `mine`, or keeps the Interest if there are none. -/
theorem C58_answer (P : Params σ) (he : 0 < P.expected) (hcb : P.canAddToSyncData = none) (s : State σ) (A B : List Name) (h : Knows P s A)
    (c : Component) (t : Iblt.Table) (hc : Iblt.initializeTable P.decompress (Iblt.new P.expected) c.value = .ok t)
    (ht : TableOf P B t) (hd : HashesDiffer P (A ++ B)) (hn : NoCollision P.hash (differing P A B))
    (hr : (differing P A B).length < P.rounds) (hs : replyFromStore s.pub (P.syncPrefix ++ [c]) = none) (now : Nat) :
    let name := P.syncPrefix ++ [c]
    let s' := (perform P (.interest now name true) s).2
    (Readable P A B → missing A B ≠ [] → ∃ names, names.Perm (missing A B) ∧ Answers P s s' now name (replyName P s name) names ∧
      ((∀ n, P.expressRaises n = none) → s.outstanding = name → s'.log = s.log ++ [.interest (interestName P s)] ∧
        s'.outstanding = interestName P s)) ∧
    (Readable P A B → missing A B = [] → s'.pub = s.pub ∧ dictGet name s'.pending = some ⟨s.nextEntry, t⟩ ∧
      s'.timers = s.timers ++ [(name, s.nextEntry)]) ∧
    (¬ Readable P A B → ∃ mine theirs : List Name, mine.Nodup ∧ theirs.Nodup ∧
      (∀ n, n ∈ mine ↔ n ∈ missing A B ∧ ¬ Lost P A B n) ∧ (∀ n, n ∈ theirs ↔ n ∈ missing B A ∧ ¬ Lost P A B n) ∧
      if P.expected / 2 ≤ mine.length + theirs.length ∨ (mine = [] ∧ theirs = []) then
        (A ≠ [] → Answers P s s' now name name A) ∧ (A = [] → s'.pub = s.pub ∧ s'.pending = s.pending)
      else
        (mine ≠ [] → Answers P s s' now name (replyName P s name) mine) ∧
        (mine = [] → s'.pub = s.pub ∧ dictGet name s'.pending = some ⟨s.nextEntry, t⟩ ∧
          s'.timers = s.timers ++ [(name, s.nextEntry)])) := by
  intro name s'
  obtain ⟨b, positive, negative, h1, h2, h3, h4, h5, h6, h7, theirs, h8, h9, h10⟩ := listDifference_spec he h ht hd hn hr
  obtain ⟨ns, n1, n2, n3, n4, n5, n6⟩ := contentNames_missing h hd negative h2 h3
  have e0 : perform P (.interest now name true) s = (if !b && tooMany P positive negative then
        if (s.nameToHash.map Prod.fst).length > 0 then publishContent P now name name (encodeState (s.nameToHash.map Prod.fst))
        else pure ()
      else do
        let names ← contentNames P.canAddToSyncData negative positive []
        if names.length > 0 then sendSyncData P now name (encodeState names)
        else
          let s ← get
          modify fun s => { s with pending := dictSet name ⟨s.nextEntry, t⟩ s.pending, nextEntry := s.nextEntry + 1 }
          if true then modify fun s' => { s' with timers := s'.timers ++ [(name, s.nextEntry)] }
          else stop (.raised .type)) s := by
    unfold perform
    dsimp only
    rw [onSyncInterest_one now c true hs]
    unfold onSyncInterest.answer
    rw [last_eq]
    show (match Iblt.initializeTable P.decompress (Iblt.new P.expected) c.value with
      | .error _ => _ | .ok iblt => _ : M σ Unit) s = _
    rw [hc]
    dsimp only
    rw [bind_ok h1]
    by_cases hx : (!b && tooMany P positive negative) = true
    · rw [if_pos hx, if_pos hx]; rfl
    · rw [if_neg hx, if_neg hx]
  have hset : dictGet name (dictSet name (⟨s.nextEntry, t⟩ : Pending) s.pending) = some ⟨s.nextEntry, t⟩ := by
    have : ∀ d : List (Name × Pending), dictGet name (dictSet name (⟨s.nextEntry, t⟩ : Pending) d) = some ⟨s.nextEntry, t⟩ := by
      intro d
      induction d with
      | nil => simp [dictSet, dictGet]
      | cons x d ih =>
        obtain ⟨k, v⟩ := x
        unfold dictSet
        by_cases hk : k = name
        · rw [if_pos hk]; unfold dictGet; rw [if_pos hk]
        · rw [if_neg hk]; unfold dictGet; rw [if_neg hk]; exact ih
    exact this _
  have enames : s.nameToHash.map (·.1) = A := by rw [h.names]; simp [Function.comp_def]
  -- the usual way
  have usual : (!b && tooMany P positive negative) = false →
      (ns ≠ [] → Answers P s s' now name (replyName P s name) ns ∧
        ((∀ n, P.expressRaises n = none) → s.outstanding = name → s'.log = s.log ++ [.interest (interestName P s)] ∧
          s'.outstanding = interestName P s)) ∧
      (ns = [] → s'.pub = s.pub ∧ dictGet name s'.pending = some ⟨s.nextEntry, t⟩ ∧ s'.timers = s.timers ++ [(name, s.nextEntry)]) := by
    intro hb
    rw [hb, if_neg (by simp), hcb] at e0
    rw [bind_ok n1] at e0
    constructor
    · intro hne
      rw [if_pos (List.length_pos_iff.2 hne)] at e0
      have := sendSyncData_eq (P := P) (s := s) now P.syncPrefix c (encodeState ns)
      dsimp only at this
      exact ⟨⟨by show _ = Except.ok (perform P _ s).2.pub; rw [e0]; exact this.1,
        by show (perform P _ s).2.pending = _; rw [e0]; exact this.2.1⟩,
        by show _ → _ → (perform P _ s).2.log = _ ∧ (perform P _ s).2.outstanding = _; rw [e0]; exact this.2.2.2.2.2.2⟩
    · intro hne
      subst hne
      rw [if_neg (by simp)] at e0
      refine ⟨?_, ?_, ?_⟩
      · show (perform P _ s).2.pub = _; rw [e0]; rfl
      · show dictGet name (perform P _ s).2.pending = _; rw [e0]; exact hset
      · show (perform P _ s).2.timers = _; rw [e0]; rfl
  refine ⟨?_, ?_, ?_⟩
  · intro hread hmiss
    have hb := h5.2 hread
    obtain ⟨u1, u2⟩ := usual (by rw [hb]; rfl)
    have hperm := n5 (h6 hb).1
    have u3 := u1 ?_
    · exact ⟨ns, hperm, u3.1, u3.2⟩
    rintro rfl
    exact hmiss (List.nil_perm.1 hperm)
  · intro hread hmiss
    have hb := h5.2 hread
    obtain ⟨u1, u2⟩ := usual (by rw [hb]; rfl)
    have hperm := n5 (h6 hb).1
    rw [hmiss] at hperm
    exact u2 (List.perm_nil.1 hperm)
  · intro hread
    have hbf : b = false := by
      cases b with
      | false => rfl
      | true => exact absurd (h5.1 rfl) hread
    have htoo : (!b && tooMany P positive negative) = true ↔
        (P.expected / 2 ≤ ns.length + theirs.length ∨ (ns = [] ∧ theirs = [])) := by
      rw [hbf, ← List.length_eq_zero_iff, ← List.length_eq_zero_iff, n4, h9]
      simp [tooMany, Params.threshold]
    refine ⟨ns, theirs, n2, h8, ?_, h10, ?_⟩
    · intro n
      constructor
      · exact fun hn' => ⟨n3 n hn', (h7 n (n3 n hn')).1 ((n6 n (n3 n hn')).1 hn')⟩
      · exact fun hn' => (n6 n hn'.1).2 ((h7 n hn'.1).2 hn'.2)
    by_cases hb : (!b && tooMany P positive negative) = false
    · rw [if_neg (fun hx => by rw [htoo.2 hx] at hb; exact nomatch hb)]
      exact ⟨fun hx => ((usual hb).1 hx).1, (usual hb).2⟩
    · have hb' : (!b && tooMany P positive negative) = true := by simpa using hb
      rw [if_pos (htoo.1 hb')]
      rw [if_pos hb', enames] at e0
      constructor
      · intro hA
        rw [if_pos (List.length_pos_iff.2 hA)] at e0
        obtain ⟨p, p1, p2⟩ := publishContent_eq (P := P) (s := s) now P.syncPrefix c name (encodeState A)
        rw [p2] at e0
        exact ⟨by show _ = Except.ok (perform P _ s).2.pub; rw [e0]; exact p1,
          by show (perform P _ s).2.pending = _; rw [e0]⟩
      · intro hA
        subst hA
        constructor
        · show (perform P _ s).2.pub = _
          rw [e0]; rfl
        · show (perform P _ s).2.pending = _
          rw [e0]; rfl

/-! ### Two instances -/

/-- Two instances with the same functions, the same size of the table and the same sync prefix. -/
structure SameGroup (P : Params σ) (Q : Params τ) : Prop where
  hash : Q.hash = P.hash
  nameHash : Q.nameHash = P.nameHash
  compress : Q.compress = P.compress
  decompress : Q.decompress = P.decompress
  expected : Q.expected = P.expected
  syncPrefix : Q.syncPrefix = P.syncPrefix

theorem SameGroup.table {P : Params σ} {Q : Params τ} (hg : SameGroup P Q) {A : List Name} {t : Iblt.Table} (h : TableOf Q A t) :
    TableOf P A t := by
  unfold TableOf at *
  rw [← hg.hash, ← hg.nameHash, ← hg.expected]
  exact h

/-- The sync Interest of one instance, which has the names `B`, reaches another, which has the names `A`, some of which are
missing in `B`; the difference can be read off the tables.  Then the other publishes a content for it; and when the first
receives this content, it has exactly the names of both (and of what it got in between). -/
theorem C58_sync (P : Params σ) (Q : Params τ) (hg : SameGroup P Q) (he : 0 < P.expected) (hcP : P.canAddToSyncData = none)
    (hcQ : Q.canAddReceivedName = none) (p : State σ) (q : State τ) (A B : List Name) (hp : Knows P p A) (hq : Knows Q q B)
    (hz : ∀ b, P.decompress (P.compress b) = .ok b) (hh : ∀ k, P.hash Iblt.nHashCheck k < 2 ^ 32)
    (hnh : ∀ n ∈ B, P.nameHash n < 2 ^ 32) (hlen : B.length < 2 ^ 32)
    (hd : HashesDiffer P (A ++ B)) (hn : NoCollision P.hash (differing P A B)) (hr : (differing P A B).length < P.rounds)
    (hs : replyFromStore p.pub (interestName Q q) = none)
    (hcan : ∀ n ∈ A, CanonicalName n) (hsz : ∀ names : List Name, names.Perm (missing A B) → (encodeState names).length < 2 ^ 64)
    (hread : Readable P A B) (hmiss : missing A B ≠ []) (now : Nat) :
    (sendSyncInterest Q q).2.outstanding = interestName Q q ∧
    ∃ names, Answers P p (perform P (.interest now (interestName Q q) true) p).2 now (interestName Q q)
        (replyName P p (interestName Q q)) names ∧
      ∀ (q' : State τ) (B' : List Name), Knows Q q' B' → (∀ n ∈ B, n ∈ B') → HashesDiffer P (A ++ B') →
        ∃ C, Knows Q (perform Q (.data (interestName Q q) (encodeState names)) q').2 C ∧ ∀ n, n ∈ C ↔ n ∈ A ∨ n ∈ B' := by
  constructor
  · unfold sendSyncInterest
    rw [get_bind, modify_bind]
    show (match Q.expressRaises (interestName Q q) with
      | some e => stop (.raised e) | none => modify _ : M τ Unit) _ |>.2.outstanding = _
    cases Q.expressRaises (interestName Q q) <;> rfl
  · obtain ⟨ops, hB, hB'⟩ := hg.table hq.table
    obtain ⟨t, w1, w2⟩ := Props.C56_wire P.hash P.compress P.decompress hz hh P.expected he _ ops hB (by simpa using hlen) (by
      intro k hk
      obtain ⟨n, hn', rfl⟩ := List.mem_map.1 hk
      exact hnh n hn')
    rw [hB'] at w1
    cases w1
    have hname : interestName Q q = P.syncPrefix ++ [⟨.generic, Iblt.encode P.compress q.iblt⟩] := by
      unfold interestName
      rw [hg.syncPrefix, hg.compress]
    rw [hname] at hs ⊢
    obtain ⟨names, h1, h2⟩ := (C58_answer P he hcP p A B hp ⟨.generic, Iblt.encode P.compress q.iblt⟩ q.iblt w2
      ⟨ops, hB, hB'⟩ hd hn hr hs now).1 hread hmiss
    refine ⟨names, h2.1, ?_⟩
    intro q' B' hq' hsub hd'
    have hmem : ∀ n, n ∈ names ↔ n ∈ A ∧ n ∉ B := fun n => by rw [h1.mem_iff]; exact mem_missing
    have hdec : decodeState (encodeState names) = .ok names :=
      C57_state names (fun n hn' => hcan n ((hmem n).1 hn').1) (hsz names h1)
    have heQ : 0 < Q.expected := by rw [hg.expected]; exact he
    have hdQ : HashesDiffer Q (names ++ B') := by
      intro a ha b hb hab
      rw [hg.nameHash] at hab
      refine hd' a ?_ b ?_ hab
      · rcases List.mem_append.1 ha with h | h
        · exact List.mem_append_left _ ((hmem a).1 h).1
        · exact List.mem_append_right _ h
      · rcases List.mem_append.1 hb with h | h
        · exact List.mem_append_left _ ((hmem b).1 h).1
        · exact List.mem_append_right _ h
    have hstep := step_knows heQ (s := q') (a := { names := B', app := q'.app, updates := updatesOf q'.log })
      (.data (P.syncPrefix ++ [⟨.generic, Iblt.encode P.compress q.iblt⟩]) (encodeState names)) (by
        unfold mentions
        dsimp only
        rw [hdec]
        exact hdQ) hq' rfl rfl
    obtain ⟨r, r1, r2, r3, r4⟩ := arrive_none q'.app names B' []
    refine ⟨B' ++ r, ?_, ?_⟩
    · have := hstep.1
      unfold absStep at this
      dsimp only at this
      rw [hdec] at this
      dsimp only at this
      rw [hcQ] at this
      generalize arrive (none : Option (τ → Name → Except Err (List Name × Bool))) q'.app B' names [] = x at r1 r2 this
      obtain ⟨C, x⟩ := x
      dsimp only at r1 r2
      subst r1 r2
      cases r <;> exact this
    · intro n
      rw [List.mem_append, r4, hmem]
      constructor
      · rintro (h | h)
        · exact .inr h
        · exact .inl h.1.1
      · rintro (h | h)
        · by_cases hB1 : n ∈ B'
          · exact .inl hB1
          · exact .inr ⟨⟨h, fun hb => hB1 (hsub n hb)⟩, hB1⟩
        · exact .inl h

/-! ### Interests that wait -/

/-- Publish several contents, each for an Interest name under a Data name. -/
def publishAll (P : Params σ) (now : Nat) : Publisher → List (Name × Name × List Name) → Except Err Publisher
  | p, [] => .ok p
  | p, (i, d, names) :: l => do publishAll P now (← publish P.pub p now i d (encodeState names) P.freshness) l

theorem publishAll_snoc (P : Params σ) (now : Nat) : ∀ (l : List (Name × Name × List Name)) (p p1 p2 : Publisher) (i d : Name) (names : List Name),
    publishAll P now p l = .ok p1 → publish P.pub p1 now i d (encodeState names) P.freshness = .ok p2 →
    publishAll P now p (l ++ [(i, d, names)]) = .ok p2
  | [], p, p1, p2, i, d, names, h1, h2 => by
    cases h1
    show (publish P.pub p now i d (encodeState names) P.freshness >>= fun x => Except.ok x) = _
    rw [h2]
    rfl
  | (i', d', names') :: l, p, p1, p2, i, d, names, h1, h2 => by
    rw [List.cons_append]
    unfold publishAll at h1 ⊢
    cases hp : publish P.pub p now i' d' (encodeState names') P.freshness with
    | error e => rw [hp] at h1; exact nomatch h1
    | ok p' => rw [hp] at h1; exact publishAll_snoc P now l p' p1 p2 i d names h1 h2

/-- What is asked for by a waiting Interest with the table of the names `B` can be read. -/
structure Askable (P : Params σ) (A B : List Name) (name : Name) (t : Iblt.Table) : Prop where
  name : name ≠ []
  table : TableOf P B t
  differ : HashesDiffer P (A ++ B)
  clear : NoCollision P.hash (differing P A B)
  rounds : (differing P A B).length < P.rounds
  readable : Readable P A B

theorem satisfyOne_spec {P : Params σ} (he : 0 < P.expected) (hx : ∀ n, P.expressRaises n = none) {s : State σ} {A B : List Name}
    (h : Knows P s A) (now : Nat) {N : Name} {e : Pending} (hg : dictGet N s.pending = some e) (ha : Askable P A B N e.iblt) :
    ∃ s', satisfyOne P now N s = (.ok (), s') ∧ Knows P s' A ∧ s'.iblt = s.iblt ∧
      (missing A B = [] → s'.pending = s.pending ∧ s'.pub = s.pub) ∧
      (missing A B ≠ [] → s'.pending = dictDel N s.pending ∧
        ∃ names, names.Perm (missing A B) ∧ publish P.pub s.pub now N (replyName P s N) (encodeState names) P.freshness = .ok s'.pub) := by
  obtain ⟨b, positive, negative, h1, h2, h3, h4, h5, h6, _⟩ := listDifference_spec he h ha.table ha.differ ha.clear ha.rounds
  have hb := h5.2 ha.readable
  subst hb
  obtain ⟨ns, n1, n2, n3, n4, n5, _⟩ := contentNames_missing h ha.differ negative h2 h3
  have hperm := n5 (h6 rfl).1
  have e0 : satisfyOne P now N s = (if ns.length > 0 then do
        sendSyncData P now N (encodeState ns)
        modify fun s => { s with removed := e.entry :: s.removed, pending := dictDel N s.pending }
      else pure () : M σ Unit) s := by
    unfold satisfyOne
    rw [get_bind, hg]
    dsimp only
    rw [bind_ok h1]
    dsimp only
    rw [if_neg (by simp), bind_ok n1]
  have hk := (quiet_satisfyOne P now N).knows h
  have hi : (satisfyOne P now N s).2.iblt = s.iblt := by
    have := quiet_satisfyOne P now N s
    unfold core at this
    simp only [Prod.mk.injEq] at this
    exact this.2.2.1
  by_cases hne : ns = []
  · subst hne
    rw [if_neg (by simp)] at e0
    rw [e0] at hk hi
    refine ⟨s, e0, hk.1, hi, fun _ => ⟨rfl, rfl⟩, fun hm => absurd (List.nil_perm.1 hperm) hm⟩
  · rw [if_pos (List.length_pos_iff.2 hne)] at e0
    obtain ⟨pre, c, rfl⟩ : ∃ pre c, N = pre ++ [c] := by
      rcases List.eq_nil_or_concat N with h0 | ⟨pre, c, h0⟩
      · exact absurd h0 ha.name
      · exact ⟨pre, c, by rw [h0, List.concat_eq_append]⟩
    have hsd := sendSyncData_eq (P := P) (s := s) now pre c (encodeState ns)
    dsimp only at hsd
    have e1 : sendSyncData P now (pre ++ [c]) (encodeState ns) s =
        (.ok (), (sendSyncData P now (pre ++ [c]) (encodeState ns) s).2) := by
      rw [← hsd.2.2.2.2.2.1 hx]
    rw [bind_ok e1] at e0
    rw [e0] at hk hi
    refine ⟨_, e0, hk.1, hi, fun hm => ?_, fun _ => ⟨?_, ns, hperm, hsd.1⟩⟩
    · rw [hm] at hperm
      exact absurd (List.perm_nil.1 hperm) hne
    · show dictDel (pre ++ [c]) (sendSyncData P now (pre ++ [c]) (encodeState ns) s).2.pending = _
      rw [hsd.2.1]

theorem dictGet_del {κ ν : Type} [DecidableEq κ] {k k' : κ} (hne : k ≠ k') : ∀ {d : List (κ × ν)}, dictGet k (dictDel k' d) = dictGet k d
  | [] => rfl
  | (j, v) :: d => by
    unfold dictDel
    rw [List.filter_cons]
    by_cases hj : j = k'
    · rw [if_neg (by simp [hj])]
      show dictGet k (dictDel k' d) = _
      rw [dictGet_del hne (d := d)]
      conv => rhs; unfold dictGet
      rw [if_neg (by rw [hj]; exact Ne.symm hne)]
    · rw [if_pos (by simp [hj])]
      unfold dictGet
      rw [show d.filter (fun x => decide (x.1 ≠ k')) = dictDel k' d from rfl, dictGet_del hne (d := d)]

/-- A new name answers the Interests that wait: the instance has the names `A` and publishes the name `n`; for each waiting
Interest, `table` gives the names whose table it carries, and the difference can be read.  Then for each waiting Interest for
which the instance has something, one content is published, with exactly the names that are missing in it; it no longer waits,
and the others still wait. -/
theorem C58_pending (P : Params σ) (he : 0 < P.expected) (hx : ∀ n, P.expressRaises n = none) (s : State σ) (A : List Name) (h : Knows P s A)
    (n : Name) (hn : n ∉ A) (hd : HashesDiffer P (n :: A)) (now : Nat) (table : Name → List Name)
    (hkeys : (s.pending.map (·.1)).Nodup) (hp : ∀ N e, (N, e) ∈ s.pending → Askable P (A ++ [n]) (table N) N e.iblt) :
    let r := perform P (.publishName now n) s
    r.1 = .ok () ∧ Knows P r.2 (A ++ [n]) ∧
    r.2.pending = s.pending.filter (fun x => missing (A ++ [n]) (table x.1) = []) ∧
    ∃ calls, publishAll P now s.pub calls = .ok r.2.pub ∧
      calls.map (·.1) = (s.pending.map (·.1)).filter (fun N => missing (A ++ [n]) (table N) ≠ []) ∧
      ∀ c ∈ calls, c.2.2.Perm (missing (A ++ [n]) (table c.1)) ∧ c.2.1 = replyName P r.2 c.1 := by
  intro r
  obtain ⟨t, h1, h2⟩ := publishName_eq now he h hn hd
  have loop : ∀ (l : List (Name × Pending)) (s : State σ), Knows P s (A ++ [n]) → (s.pending.map (·.1)).Nodup → (∀ x ∈ l, x ∈ s.pending) →
      (l.map (·.1)).Nodup → (∀ N e, (N, e) ∈ s.pending → Askable P (A ++ [n]) (table N) N e.iblt) →
      ∃ s', forEach (satisfyOne P now) (l.map (·.1)) s = (.ok (), s') ∧ Knows P s' (A ++ [n]) ∧ s'.iblt = s.iblt ∧
        s'.pending = s.pending.filter (fun x => x.1 ∉ l.map (·.1) ∨ missing (A ++ [n]) (table x.1) = []) ∧
        ∃ calls, publishAll P now s.pub calls = .ok s'.pub ∧
          calls.map (·.1) = (l.map (·.1)).filter (fun N => missing (A ++ [n]) (table N) ≠ []) ∧
          ∀ c ∈ calls, c.2.2.Perm (missing (A ++ [n]) (table c.1)) ∧ c.2.1 = replyName P s c.1 := by
    intro l
    induction l with
    | nil =>
      intro s hk _ _ _ _
      refine ⟨s, rfl, hk, rfl, ?_, [], rfl, rfl, nofun⟩
      rw [List.filter_eq_self.2]
      intro x _
      simp
    | cons x l ih =>
      intro s hk hnd hsub hl hask
      obtain ⟨N, e⟩ := x
      rw [List.map_cons, List.nodup_cons] at hl
      have hmem := hsub _ (List.mem_cons_self ..)
      obtain ⟨s1, a1, a2, a3, a4, a5⟩ := satisfyOne_spec he hx hk now (dictGet_mem hnd hmem) (hask N e hmem)
      have hrep : ∀ m, replyName P s1 m = replyName P s m := by
        intro m; unfold replyName; rw [a3]
      by_cases hm : missing (A ++ [n]) (table N) = []
      · obtain ⟨b1, b2⟩ := a4 hm
        obtain ⟨s', c1, c2, c3, c4, calls, c5, c6, c7⟩ := ih s1 a2 (by rw [b1]; exact hnd)
          (fun y hy => by rw [b1]; exact hsub y (List.mem_cons_of_mem _ hy)) hl.2 (fun N' e' he' => hask N' e' (by rw [← b1]; exact he'))
        refine ⟨s', ?_, c2, c3.trans a3, ?_, calls, by rw [← b2]; exact c5, ?_, ?_⟩
        · rw [List.map_cons]; unfold forEach; rw [bind_ok a1]; exact c1
        · rw [c4, b1]
          apply List.filter_congr
          intro y hy
          apply decide_eq_decide.2
          rw [List.map_cons, List.mem_cons]
          by_cases hyN : y.1 = N
          · simp only [hyN, hm, or_true]
          · simp only [hyN, false_or]
        · rw [c6, List.map_cons, List.filter_cons, if_neg (by simp [hm])]
        · intro c hc
          obtain ⟨d1, d2⟩ := c7 c hc
          exact ⟨d1, by rw [d2, hrep]⟩
      · obtain ⟨b1, names, b2, b3⟩ := a5 hm
        have hp1 : ∀ y, y ∈ s1.pending ↔ y ∈ s.pending ∧ y.1 ≠ N := by
          intro y; rw [b1]; simp [dictDel]
        obtain ⟨s', c1, c2, c3, c4, calls, c5, c6, c7⟩ := ih s1 a2
          (hnd.sublist (by rw [b1]; exact List.filter_sublist.map _))
          (fun y hy => (hp1 y).2 ⟨hsub y (List.mem_cons_of_mem _ hy), fun hyN => hl.1 (hyN ▸ List.mem_map.2 ⟨y, hy, rfl⟩)⟩)
          hl.2 (fun N' e' he' => hask N' e' ((hp1 _).1 he').1)
        refine ⟨s', ?_, c2, c3.trans a3, ?_, (N, replyName P s N, names) :: calls, ?_, ?_, ?_⟩
        · rw [List.map_cons]; unfold forEach; rw [bind_ok a1]; exact c1
        · rw [c4, b1]
          unfold dictDel
          rw [List.filter_filter]
          apply List.filter_congr
          intro y hy
          rw [← Bool.decide_and]
          apply decide_eq_decide.2
          rw [List.map_cons, List.mem_cons]
          by_cases hyN : y.1 = N
          · simp only [hyN, hm, ne_eq, not_true_eq_false, and_false, true_or, or_self]
          · simp only [hyN, false_or, ne_eq, not_false_eq_true, and_true]
        · unfold publishAll
          rw [b3]
          exact c5
        · rw [List.map_cons, List.map_cons, List.filter_cons, if_pos (by simp [hm]), c6]
        · intro c hc
          rcases List.mem_cons.1 hc with rfl | hc
          · exact ⟨b2, rfl⟩
          · obtain ⟨d1, d2⟩ := c7 c hc
            exact ⟨d1, by rw [d2, hrep]⟩
  obtain ⟨s', c1, c2, c3, c4, calls, c5, c6, c7⟩ := loop s.pending (s.withNames P (A ++ [n]) t) h2 hkeys (fun _ hx => hx) hkeys hp
  have er : r = (.ok (), s') := by
    show publishName P now n s = _
    rw [h1]
    unfold satisfyPendingInterests
    rw [get_bind]
    exact c1
  rw [er]
  refine ⟨rfl, c2, ?_, calls, c5, c6, ?_⟩
  · rw [c4]
    show s.pending.filter _ = _
    apply List.filter_congr
    intro y hy
    have : y.1 ∈ s.pending.map (·.1) := List.mem_map_of_mem hy
    simp only [this, not_true_eq_false, false_or]
  · intro c hc
    obtain ⟨d1, d2⟩ := c7 c hc
    refine ⟨d1, ?_⟩
    rw [d2]
    unfold replyName
    rw [c3]

end PSync
end PyNDN
