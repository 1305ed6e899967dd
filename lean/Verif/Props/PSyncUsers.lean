import Verif.Lemmas.PSyncUsers
/-
C59: full PSync with users.
-/
namespace PyNDN
namespace PSync
open Spec.PSync Spec.Iblt

/-- The instance has these sequence numbers, and exactly their names in its set. -/
structure Matches (P : Params Users) (s : State Users) (m : Seqs) : Prop where
  has : ∀ p, dictGet p s.app.prefixes = m p
  names : ∃ A, Knows (withUsers P) s A ∧ ∀ n, n ∈ A ↔ NamesOf m n
  bound : ∀ p o, m p = some o → o < 2 ^ 64

theorem matches_quiet {P : Params Users} {s : State Users} {m : Seqs} {α : Type} {x : M Users α} (hx : Quiet x) (h : Matches P s m) :
    Matches P (x s).2 m ∧ (x s).2.app.told = s.app.told := by
  obtain ⟨A, h1, h2⟩ := h.names
  obtain ⟨h3, h4, _⟩ := hx.knows h1
  exact ⟨⟨by rw [h4]; exact h.has, ⟨A, h3, h2⟩, h.bound⟩, by rw [h4]⟩

theorem bound_set {m : Seqs} (hb : ∀ p o, m p = some o → o < 2 ^ 64) {p : Name} {k : Option Nat} (hk : ∀ o, k = some o → o < 2 ^ 64) :
    ∀ q o, m.set p k q = some o → o < 2 ^ 64 := by
  intro q o ho
  unfold Seqs.set at ho
  split at ho
  · exact hk o ho
  · exact hb q o ho

/-- The local user publishes. -/
theorem publish_matches {P : Params Users} (he : 0 < P.expected) {s : State Users} {m : Seqs} (h : Matches P s m) {N : List Name}
    (hN : HashesDiffer P N) (hm : ∀ n, NamesOf m n → n ∈ N) (now : Nat) (p : Name) (number : Int)
    (ho : Orderly m (.publishName now p number)) (hb : ∀ n ∈ brings m (.publishName now p number), n ∈ N) :
    let s' := (performUser P (.publishName now p number) s).2
    Matches P s' (seqStep m (.publishName now p number)) ∧ s'.app.told = s.app.told := by
  show Matches P (publishSequenceNo (withUsers P) now p number s).2 _ ∧ (publishSequenceNo (withUsers P) now p number s).2.app.told = _
  have hsm := ho
  unfold Orderly at hsm
  unfold publishSequenceNo seqStep
  unfold brings at hb
  rw [get_bind, h.has p]
  dsimp only at hb hsm ⊢
  cases hp : m p with
  | none => exact ⟨h, rfl⟩
  | some old =>
    have hnew := hsm old hp
    rw [hp] at hb
    dsimp only at hb ⊢
    rw [show (if number ≥ 0 then number.toNat else old + 1) = nextNumber old number from rfl]
    generalize nextNumber old number = new at hb hnew ⊢
    by_cases hlt : old < new
    · rw [if_pos hlt] at hb ⊢
      have hn1 := hb _ (List.mem_singleton.2 rfl)
      obtain ⟨A, hA, hA'⟩ := h.names
      have hhas : ∀ q, dictGet q (dictSet p new s.app.prefixes) = (m.set p (some new)) q := by
        intro q
        rw [dictGet_set, h.has q]
        rfl
      have hbound : ∀ q o, m.set p (some new) q = some o → o < 2 ^ 64 := bound_set h.bound (by rintro o ⟨⟩; exact hnew)
      let s1 : State Users := { s with app := { s.app with prefixes := dictSet p new s.app.prefixes } }
      have hA1 : Knows (withUsers P) s1 A := hA.ext rfl rfl rfl
      -- the old name is taken out
      have hrem : ∃ s2 B, updateSequenceNo (withUsers P) p new s = (.ok true, s2) ∧ Knows (withUsers P) s2 B ∧ s2.app = s1.app ∧
          (∀ n, n ∈ B ↔ NamesOf m n ∧ n ≠ numbered p old) := by
        unfold updateSequenceNo
        rw [get_bind, h.has p, hp]
        dsimp only
        rw [if_neg (by omega), modify_bind]
        by_cases hz : old ≠ 0
        · rw [if_pos hz, appendNumber_eq]
          obtain ⟨t, r1, r2⟩ := removeName_eq (P := withUsers P) (numbered p old) he hA1
          refine ⟨_, _, ?_, r2, rfl, ?_⟩
          · show (removeName (withUsers P) (numbered p old) >>= fun _ => pure true) s1 = _
            rw [bind_ok r1]
            rfl
          · intro n
            rw [mem_removing, hA']
        · rw [if_neg hz]
          refine ⟨s1, A, rfl, hA1, rfl, ?_⟩
          intro n
          rw [hA']
          refine ⟨fun hn => ⟨hn, ?_⟩, fun hn => hn.1⟩
          rintro rfl
          obtain ⟨q, j, b1, b2, b3⟩ := hn
          obtain ⟨rfl, rfl⟩ := numbered_inj (h.bound p old hp) (h.bound q j b1) b3
          exact hz (by omega)
      obtain ⟨s2, B, r1, r2, r3, r4⟩ := hrem
      have hnot : numbered p new ∉ B := by
        rw [r4]
        rintro ⟨⟨q, j, b1, b2, b3⟩, _⟩
        obtain ⟨rfl, rfl⟩ := numbered_inj hnew (h.bound q j b1) b3
        rw [hp] at b1
        cases b1
        omega
      obtain ⟨t, u1, u2⟩ := publishName_eq (P := withUsers P) now he r2 hnot (differ_sub hN (by
        intro n hn
        rcases List.mem_cons.1 hn with rfl | hn
        · exact hn1
        · exact hm n ((r4 n).1 hn).1))
      obtain ⟨v1, v2, _⟩ := (quiet_satisfyPending (withUsers P) now).knows u2
      rw [bind_ok r1, if_pos rfl, appendNumber_eq]
      have e : (lift (Except.ok (numbered p new)) >>= fun n => publishName (withUsers P) now n : M Users Unit) s2 =
          publishName (withUsers P) now (numbered p new) s2 := rfl
      rw [e, u1]
      refine ⟨⟨?_, ⟨_, v1, ?_⟩, hbound⟩, ?_⟩
      · rw [v2]
        show ∀ q, dictGet q s2.app.prefixes = _
        rw [r3]
        exact hhas
      · intro n
        rw [List.mem_append, List.mem_singleton, r4, namesOf_set hnew h.bound]
        simp [hp, show 0 < new by omega]
      · rw [v2]
        show s2.app.told = _
        rw [r3]
    · rw [if_neg hlt]
      have e : updateSequenceNo (withUsers P) p new s = (.ok false, s) := by
        unfold updateSequenceNo
        rw [get_bind, h.has p, hp]
        dsimp only
        rw [if_pos (by omega)]
        rfl
      rw [bind_ok e]
      exact ⟨h, rfl⟩

/-- A content is received. -/
theorem data_matches {P : Params Users} (he : 0 < P.expected) {s : State Users} {m : Seqs} (h : Matches P s m) {N : List Name}
    (hN : HashesDiffer P N) (hm : ∀ n, NamesOf m n → n ∈ N) (i : Name) (content : Bytes)
    (ho : Orderly m (.data i content)) (hb : ∀ n ∈ brings m (.data i content), n ∈ N) :
    let s' := (performUser P (.data i content) s).2
    let m' := seqStep m (.data i content)
    Matches P s' m' ∧ ∃ news : List MissingData, (∀ x, x ∈ news ↔ News m m' x) ∧ (news.map (·.name)).Nodup ∧
      (∀ x ∈ news, x.low ≤ x.high) ∧ s'.app.told = s.app.told ++ (if news = [] then [] else [news]) := by
  intro s' m'
  obtain ⟨A, hA, hA'⟩ := h.names
  obtain ⟨g1, g2, g3, g4⟩ := step_knows (P := withUsers P) he (s := s) (a := { names := A, app := s.app, updates := updatesOf s.log })
    (.data i content) (differ_sub hN (by
      intro n hn
      rcases List.mem_append.1 hn with hn | hn
      · refine hb n ?_
        unfold mentions at hn
        unfold brings
        dsimp only at hn ⊢
        cases hc : decodeState content with
        | error e => rw [hc] at hn; exact nomatch hn
        | ok ns => rw [hc] at hn; exact hn
      · exact hm n ((hA' n).1 hn))) hA rfl rfl
  unfold Orderly at ho
  have em : m' = match decodeState content with
    | .error _ => m
    | .ok ns => ns.foldl Seqs.hear m := rfl
  have es : s' = (perform (withUsers P) (.data i content) s).2 := rfl
  rw [← es] at g1 g2
  dsimp only at ho
  cases hc : decodeState content with
  | error e =>
    rw [hc] at em
    dsimp only at em
    have e0 : absStep (withUsers P) { names := A, app := s.app, updates := updatesOf s.log } (.data i content) =
        { names := A, app := s.app, updates := updatesOf s.log } := by
      unfold absStep; dsimp only; rw [hc]
    rw [e0] at g1 g2
    rw [em]
    refine ⟨⟨by rw [g2]; exact h.has, ⟨A, g1, hA'⟩, h.bound⟩, [], ?_, List.nodup_nil, nofun, by rw [g2]; simp⟩
    intro x
    refine ⟨nofun, ?_⟩
    rintro ⟨_, h2, _⟩
    exact absurd rfl h2
  | ok ns =>
    obtain ⟨o1, o2⟩ := ho ns hc
    obtain ⟨qs, rfl, q2, q3⟩ := asNames_of o1
    rw [← q3] at o2
    rw [hc] at em
    dsimp only at em
    obtain ⟨A', r1, r2, r3⟩ := arrive_users h.has qs A [] m q2 o2 (fun _ _ => rfl) hA' h.bound
    rw [List.nil_append] at r1
    have q2' : ∀ x ∈ qs, x.2 < 2 ^ 64 := fun x hx => (q2 x hx).2
    have hsub : ∀ x ∈ qs.filter (fresh m), x ∈ qs := fun x hx => (List.mem_filter.1 hx).1
    have hnod : ((qs.filter (fresh m)).map (·.1)).Nodup := o2.sublist (List.filter_sublist.map _)
    obtain ⟨ps', u1, u2⟩ := updateLoop_users (qs.filter (fresh m)) s.app.prefixes [] m h.has (fun x hx => q2' x (hsub x hx)) hnod
      (fun x hx => (List.mem_filter.1 hx).2)
    rw [hearAll_filter qs m m q2' o2 (fun _ _ => rfl)] at u2
    rw [List.nil_append] at u1
    have em' : m' = hearAll m qs := em
    rw [em']
    -- what is told
    have hnews : ∀ x : MissingData, x ∈ (qs.filter (fresh m)).map (fun x => (⟨x.1, (m x.1).getD 0 + 1, x.2⟩ : MissingData)) ↔
        News m (hearAll m qs) x := by
      rintro ⟨p, lo, hi⟩
      unfold News
      dsimp only
      constructor
      · intro hx
        obtain ⟨⟨q, k⟩, hy, hy'⟩ := List.mem_map.1 hx
        obtain ⟨hq, hf⟩ := List.mem_filter.1 hy
        cases hy'
        have := hearAll_eq qs m q2' o2 hq
        rw [hf, if_pos rfl] at this
        rw [this]
        refine ⟨rfl, ?_, rfl⟩
        intro heq
        unfold fresh at hf
        dsimp only at hf
        rw [← heq] at hf
        simp at hf
      · rintro ⟨a1, a2, rfl⟩
        by_cases hp : p ∈ qs.map (·.1)
        · obtain ⟨⟨q, k⟩, hq, rfl⟩ := List.mem_map.1 hp
          dsimp only at a1 a2 ⊢
          have := hearAll_eq qs m q2' o2 hq
          rw [this] at a1 a2
          by_cases hf : fresh m (q, k) = true
          · rw [if_pos hf] at a1
            cases a1
            exact List.mem_map.2 ⟨(q, hi), List.mem_filter.2 ⟨hq, hf⟩, rfl⟩
          · rw [if_neg hf] at a2
            exact absurd rfl a2
        · exact absurd (hearAll_other qs m q2' hp) a2
    have hle : ∀ x ∈ (qs.filter (fresh m)).map (fun x => (⟨x.1, (m x.1).getD 0 + 1, x.2⟩ : MissingData)), x.low ≤ x.high := by
      intro x hx
      obtain ⟨⟨q, k⟩, hy, rfl⟩ := List.mem_map.1 hx
      obtain ⟨hq, hf⟩ := List.mem_filter.1 hy
      have := q2 _ hq
      unfold fresh at hf
      dsimp only at this hf ⊢
      cases hmq : m q with
      | none => simp; omega
      | some o =>
        rw [hmq] at hf
        simp at hf ⊢
        omega
    have e0 : (absStep (withUsers P) { names := A, app := s.app, updates := updatesOf s.log } (.data i content)).names = A' ∧
        (absStep (withUsers P) { names := A, app := s.app, updates := updatesOf s.log } (.data i content)).app =
          (if qs.filter (fresh m) = [] then s.app else
            ⟨ps', s.app.told ++ [(qs.filter (fresh m)).map (fun x => (⟨x.1, (m x.1).getD 0 + 1, x.2⟩ : MissingData))]⟩) := by
      unfold absStep
      dsimp only
      rw [hc]
      dsimp only
      rw [show (withUsers P).canAddReceivedName = some canAddReceived from rfl, r1]
      cases hq : qs.filter (fresh m) with
      | nil => exact ⟨rfl, rfl⟩
      | cons x xs =>
        rw [hq] at u1
        refine ⟨rfl, ?_⟩
        show namesUpdate s.app (asNames (x :: xs)) = _
        unfold namesUpdate
        rw [u1, if_neg (by simp)]
    rw [e0.1] at g1
    rw [e0.2] at g2
    refine ⟨⟨?_, ⟨A', g1, r2⟩, r3⟩, _, hnews, ?_, hle, ?_⟩
    · rw [g2]
      by_cases hq : qs.filter (fresh m) = []
      · rw [if_pos hq]
        intro p
        have := hearAll_filter qs m m q2' o2 (fun _ _ => rfl)
        rw [hq] at this
        rw [← this]
        exact h.has p
      · rw [if_neg hq]
        exact u2
    · rw [List.map_map]
      exact hnod
    · rw [g2]
      by_cases hq : qs.filter (fresh m) = []
      · rw [if_pos hq, hq]; simp
      · rw [if_neg hq, if_neg (by simpa using hq)]

/-- One action. -/
theorem step_matches {P : Params Users} (he : 0 < P.expected) {s : State Users} {m : Seqs} (h : Matches P s m) {N : List Name}
    (hN : HashesDiffer P N) (hm : ∀ n, NamesOf m n → n ∈ N) (op : UserOp) (ho : Orderly m op) (hb : ∀ n ∈ brings m op, n ∈ N) :
    Matches P (performUser P op s).2 (seqStep m op) ∧
      ((∀ i c, op ≠ .data i c) → (performUser P op s).2.app.told = s.app.told) := by
  cases op with
  | addUserNode p =>
    show Matches P (addUserNode p s).2 _ ∧ (_ → (addUserNode p s).2.app.told = _)
    unfold addUserNode seqStep
    rw [get_bind, h.has p]
    dsimp only
    cases hp : m p with
    | some o => rw [if_neg (by simp)]; exact ⟨h, fun _ => rfl⟩
    | none =>
      rw [if_pos rfl]
      obtain ⟨A, hA, hA'⟩ := h.names
      refine ⟨⟨?_, ⟨A, hA.ext rfl rfl rfl, ?_⟩, bound_set h.bound (by rintro o ⟨⟩; decide)⟩, fun _ => rfl⟩
      · intro q
        show dictGet q (dictSet p 0 s.app.prefixes) = _
        rw [dictGet_set, h.has q]
        rfl
      · intro n
        rw [hA', namesOf_set (by decide) h.bound, hp]
        simp
  | removeUserNode p =>
    show Matches P (removeUserNode (withUsers P) p s).2 _ ∧ (_ → (removeUserNode (withUsers P) p s).2.app.told = _)
    unfold removeUserNode seqStep
    rw [get_bind, h.has p]
    dsimp only
    obtain ⟨A, hA, hA'⟩ := h.names
    cases hp : m p with
    | none =>
      have e : m.set p none = m := by
        funext q
        unfold Seqs.set
        split
        · next hq => rw [hq, hp]
        · rfl
      rw [e]
      exact ⟨h, fun _ => rfl⟩
    | some o =>
      dsimp only
      rw [modify_bind, appendNumber_eq]
      obtain ⟨t, r1, r2⟩ := removeName_eq (P := withUsers P) (numbered p o) he
        (s := { s with app := { s.app with prefixes := dictDel p s.app.prefixes } }) (hA.ext rfl rfl rfl)
      have e : (lift (Except.ok (numbered p o)) >>= fun n => removeName (withUsers P) n : M Users Unit)
          { s with app := { s.app with prefixes := dictDel p s.app.prefixes } } = _ := r1
      rw [e]
      refine ⟨⟨?_, ⟨_, r2, ?_⟩, bound_set h.bound nofun⟩, fun _ => rfl⟩
      · intro q
        show dictGet q (dictDel p s.app.prefixes) = _
        rw [dictGet_delete, h.has q]
        rfl
      · intro n
        rw [mem_removing, hA', namesOf_delete, hp]
        simp
  | publishName now p k =>
    obtain ⟨h1, h2⟩ := publish_matches he h hN hm now p k ho hb
    exact ⟨h1, fun _ => h2⟩
  | interest now n l =>
    obtain ⟨h1, h2⟩ := matches_quiet (quiet_onSyncInterest (withUsers P) now P.syncPrefix.length n l) h
    exact ⟨h1, fun _ => h2⟩
  | data i c => exact ⟨(data_matches he h hN hm i c ho hb).1, fun hx => absurd rfl (hx i c)⟩
  | renew =>
    obtain ⟨h1, h2⟩ := matches_quiet (quiet_sendSyncInterest (withUsers P)) h
    exact ⟨h1, fun _ => h2⟩
  | expire i =>
    obtain ⟨h1, h2⟩ := matches_quiet (quiet_delayedRemove i) h
    exact ⟨h1, fun _ => h2⟩
  | expireStore i =>
    obtain ⟨h1, h2⟩ := matches_quiet (x := (modify fun s => { s with pub := removeLater s.pub i } : M Users Unit)) (quiet_modify fun _ => rfl) h
    exact ⟨h1, fun _ => h2⟩

/-! ### Histories -/

theorem start_matches (P : Params Users) : Matches P (start (withUsers P) {}) (fun _ => none) := by
  obtain ⟨h1, h2, _⟩ := start_knows (withUsers P) {}
  refine ⟨?_, ⟨[], h1, ?_⟩, nofun⟩
  · intro p; rw [h2]; rfl
  · intro n
    refine ⟨nofun, ?_⟩
    rintro ⟨p, k, h, _⟩
    exact nomatch h

theorem names_brings {m : Seqs} {op : UserOp} (ho : Orderly m op) (n : Name) (hn : NamesOf (seqStep m op) n) : NamesOf m n ∨ n ∈ brings m op := by
  have hset : ∀ {m : Seqs} {p : Name} {k : Option Nat}, NamesOf (m.set p k) n → NamesOf m n ∨ ∃ j, k = some j ∧ 0 < j ∧ n = numbered p j := by
    rintro m p k ⟨q, j, h1, h2, h3⟩
    unfold Seqs.set at h1
    by_cases hq : q = p
    · rw [if_pos hq] at h1; subst hq; exact .inr ⟨j, h1, h2, h3⟩
    · rw [if_neg hq] at h1; exact .inl ⟨q, j, h1, h2, h3⟩
  cases op with
  | addUserNode p =>
    unfold seqStep at hn
    dsimp only at hn
    split at hn
    · rcases hset hn with h | ⟨j, h1, h2, _⟩
      · exact .inl h
      · cases h1; exact absurd h2 (by simp)
    · exact .inl hn
  | removeUserNode p =>
    rcases hset hn with h | ⟨j, h1, _⟩
    · exact .inl h
    · exact nomatch h1
  | publishName now p k =>
    unfold seqStep at hn
    unfold brings
    dsimp only at hn ⊢
    split at hn
    · exact .inl hn
    · next old heq =>
      split at hn
      · next hlt =>
        rw [if_pos hlt]
        rcases hset hn with h | ⟨j, h1, h2, h3⟩
        · exact .inl h
        · cases h1; exact .inr (List.mem_singleton.2 h3)
      · exact .inl hn
  | data i c =>
    unfold seqStep at hn
    unfold brings
    unfold Orderly at ho
    dsimp only at hn ho ⊢
    cases hc : decodeState c with
    | error e => rw [hc] at hn; exact .inl hn
    | ok ns =>
      rw [hc] at hn
      dsimp only at hn ⊢
      have key : ∀ (ns : List Name) (m : Seqs), (∀ x ∈ ns, Numbered x) → NamesOf (ns.foldl Seqs.hear m) n → NamesOf m n ∨ n ∈ ns := by
        intro ns
        induction ns with
        | nil => intro m _ h; exact .inl h
        | cons x ns ih =>
          intro m hx h
          rcases ih (m.hear x) (fun y hy => hx y (List.mem_cons_of_mem _ hy)) h with h | h
          · obtain ⟨p, k, k1, k2, rfl⟩ := hx x (List.mem_cons_self ..)
            rw [hear_numbered m p k2] at h
            split at h
            · rcases hset h with h | ⟨j, j1, _, j3⟩
              · exact .inl h
              · cases j1; exact .inr (by rw [j3]; exact List.mem_cons_self ..)
            · exact .inl h
          · exact .inr (List.mem_cons_of_mem _ h)
      exact key ns m (ho ns hc).1 hn
  | interest _ _ _ => exact .inl hn
  | renew => exact .inl hn
  | expire _ => exact .inl hn
  | expireStore _ => exact .inl hn

theorem run_matches {P : Params Users} (he : 0 < P.expected) {N : List Name} (hN : HashesDiffer P N) : ∀ (ops : List UserOp) (s : State Users) (m : Seqs),
    Matches P s m → (∀ n, NamesOf m n → n ∈ N) → AllOrderly m ops → (∀ n ∈ allNames m ops, n ∈ N) →
    Matches P (ops.foldl (fun s op => (performUser P op s).2) s) (ops.foldl seqStep m) ∧ ∀ n, NamesOf (ops.foldl seqStep m) n → n ∈ N
  | [], s, m, h, hm, _, _ => ⟨h, hm⟩
  | op :: ops, s, m, h, hm, ho, hb => by
    have hb1 : ∀ n ∈ brings m op, n ∈ N := fun n hn => hb n (List.mem_append_left _ hn)
    refine run_matches he hN ops _ _ (step_matches he h hN hm op ho.1 hb1).1 ?_ ho.2 fun n hn => hb n (List.mem_append_right _ hn)
    intro n hn
    rcases names_brings ho.1 n hn with h' | h'
    · exact hm n h'
    · exact hb1 n h'

/-- Published numbers have 64 bits, and a received content has numbered names, at most one for each prefix.  Then after any
history `getSequenceNo` gives, for each prefix, the number that the specification says (-1 if it is not known); and the set of
names that is synchronised has exactly one name for each prefix with a positive number: the prefix with that number. -/
theorem C59_numbers (P : Params Users) (he : 0 < P.expected) (ops : List UserOp) (ho : AllOrderly (fun _ => none) ops)
    (hd : HashesDiffer P (allNames (fun _ => none) ops)) :
    (∀ p, getSequenceNo (runUsers P ops) p = match seqRun ops p with
      | some k => (k : Int)
      | none => -1) ∧
    ∃ A, Knows (withUsers P) (runUsers P ops) A ∧ ∀ n, n ∈ A ↔ NamesOf (seqRun ops) n := by
  obtain ⟨h, _⟩ := run_matches he hd ops _ _ (start_matches P) (by rintro n ⟨p, k, h, _⟩; exact nomatch h) ho fun _ h => h
  refine ⟨fun p => ?_, h.names⟩
  unfold getSequenceNo
  rw [show dictGet p (runUsers P ops).app.prefixes = seqRun ops p from h.has p]
  cases seqRun ops p <;> rfl

theorem orderly_append : ∀ (a : List UserOp) (b : List UserOp) (m : Seqs), AllOrderly m (a ++ b) ↔ AllOrderly m a ∧ AllOrderly (a.foldl seqStep m) b
  | [], b, m => by simp [AllOrderly]
  | op :: a, b, m => by
    show (_ ∧ AllOrderly _ (a ++ b)) ↔ (_ ∧ _) ∧ _
    rw [orderly_append a b, and_assoc]
    rfl

theorem allNames_append : ∀ (a : List UserOp) (b : List UserOp) (m : Seqs), allNames m (a ++ b) = allNames m a ++ allNames (a.foldl seqStep m) b
  | [], b, m => rfl
  | op :: a, b, m => by
    show brings m op ++ allNames _ (a ++ b) = (brings m op ++ _) ++ _
    rw [allNames_append a b, List.append_assoc]
    rfl

/-- In such a history, only a received content makes the instance call `onUpdate`; and it calls it once, if some number has
changed, with exactly one range for each prefix with a new number: from one after the old number to the new one. -/
theorem C59_told (P : Params Users) (he : 0 < P.expected) (ops : List UserOp) (op : UserOp) (ho : AllOrderly (fun _ => none) (ops ++ [op]))
    (hd : HashesDiffer P (allNames (fun _ => none) (ops ++ [op]))) :
    let s := runUsers P ops
    let s' := runUsers P (ops ++ [op])
    ((∀ i c, op ≠ .data i c) → s'.app.told = s.app.told) ∧
    (∀ i c, op = .data i c → ∃ news : List MissingData, (∀ x, x ∈ news ↔ News (seqRun ops) (seqRun (ops ++ [op])) x) ∧
      (news.map (·.name)).Nodup ∧ (∀ x ∈ news, x.low ≤ x.high) ∧ s'.app.told = s.app.told ++ (if news = [] then [] else [news])) := by
  intro s s'
  rw [orderly_append] at ho
  rw [allNames_append] at hd
  obtain ⟨h, hm⟩ := run_matches he hd ops _ _ (start_matches P) (by rintro n ⟨p, k, h, _⟩; exact nomatch h) ho.1
    fun _ h => List.mem_append_left _ h
  have es : s' = (performUser P op s).2 := by
    show List.foldl _ _ (ops ++ [op]) = _
    rw [List.foldl_append]
    rfl
  have em : seqRun (ops ++ [op]) = seqStep (seqRun ops) op := by
    unfold seqRun
    rw [List.foldl_append]
    rfl
  have hb : ∀ n ∈ brings (ops.foldl seqStep fun _ => none) op, n ∈ allNames (fun _ => none) ops ++ allNames (ops.foldl seqStep fun _ => none) [op] :=
    fun n hn => List.mem_append_right _ (List.mem_append_left _ hn)
  rw [es, em]
  refine ⟨(step_matches he h hd hm op ho.2.1 hb).2, ?_⟩
  rintro i c rfl
  exact (data_matches he h hd hm i c ho.2.1 hb).2

/-- In the specification a number only grows, unless the prefix is removed. -/
theorem C59_grows (m : Seqs) (op : UserOp) (p : Name) (hr : op ≠ .removeUserNode p) :
    ∀ k, m p = some k → ∃ k', seqStep m op p = some k' ∧ k ≤ k' := by
  have hset : ∀ {m : Seqs} {q : Name} {j k : Nat}, m p = some k → (p = q → k ≤ j) → ∃ k', m.set q (some j) p = some k' ∧ k ≤ k' := by
    intro m q j k hk hle
    unfold Seqs.set
    by_cases hq : p = q
    · exact ⟨j, by rw [if_pos hq], hle hq⟩
    · exact ⟨k, by rw [if_neg hq]; exact hk, Nat.le_refl _⟩
  intro k hk
  cases op with
  | addUserNode q =>
    unfold seqStep
    dsimp only
    split
    · next hq => exact hset hk (by rintro rfl; rw [hk] at hq; exact nomatch hq)
    · exact ⟨k, hk, Nat.le_refl _⟩
  | removeUserNode q =>
    unfold seqStep Seqs.set
    dsimp only
    rw [if_neg (by rintro rfl; exact hr rfl)]
    exact ⟨k, hk, Nat.le_refl _⟩
  | publishName now q number =>
    unfold seqStep
    dsimp only
    cases hq : m q with
    | none => exact ⟨k, hk, Nat.le_refl _⟩
    | some old =>
      dsimp only
      split
      · next hlt => exact hset hk (by rintro rfl; rw [hk] at hq; cases hq; omega)
      · exact ⟨k, hk, Nat.le_refl _⟩
  | data i c =>
    unfold seqStep
    dsimp only
    cases decodeState c with
    | error e => exact ⟨k, hk, Nat.le_refl _⟩
    | ok ns =>
      clear hr
      induction ns generalizing m k with
      | nil => exact ⟨k, hk, Nat.le_refl _⟩
      | cons n ns ih =>
        have : ∃ k', m.hear n p = some k' ∧ k ≤ k' := by
          unfold Seqs.hear
          cases n.getLast? with
          | none => exact ⟨k, hk, Nat.le_refl _⟩
          | some c =>
            dsimp only
            cases hq : m n.dropLast with
            | none => exact hset hk (by rintro rfl; rw [hk] at hq; exact nomatch hq)
            | some o =>
              dsimp only
              split
              · next hlt => exact hset hk (by rintro rfl; rw [hk] at hq; cases hq; omega)
              · exact ⟨k, hk, Nat.le_refl _⟩
        obtain ⟨k', h1, h2⟩ := this
        obtain ⟨k'', h3, h4⟩ := ih (m.hear n) k' h1
        exact ⟨k'', h3, by omega⟩
  | interest _ _ _ => exact ⟨k, hk, Nat.le_refl _⟩
  | renew => exact ⟨k, hk, Nat.le_refl _⟩
  | expire _ => exact ⟨k, hk, Nat.le_refl _⟩
  | expireStore _ => exact ⟨k, hk, Nat.le_refl _⟩

/-- So it is for `getSequenceNo`: in such a history it never decreases for a prefix, unless the prefix is removed. -/
theorem C59_monotone (P : Params Users) (he : 0 < P.expected) (ops : List UserOp) (op : UserOp) (ho : AllOrderly (fun _ => none) (ops ++ [op]))
    (hd : HashesDiffer P (allNames (fun _ => none) (ops ++ [op]))) (p : Name) (hr : op ≠ .removeUserNode p) :
    getSequenceNo (runUsers P ops) p ≤ getSequenceNo (runUsers P (ops ++ [op])) p := by
  rw [(C59_numbers P he _ ho hd).1 p]
  rw [orderly_append] at ho
  rw [(C59_numbers P he ops ho.1 (differ_sub hd (by rw [allNames_append]; exact fun _ h => List.mem_append_left _ h))).1 p]
  have em : seqRun (ops ++ [op]) = seqStep (seqRun ops) op := by
    unfold seqRun
    rw [List.foldl_append]
    rfl
  rw [em]
  cases h : seqRun ops p with
  | none =>
    dsimp only
    cases seqStep (seqRun ops) op p with
    | none => decide
    | some j => show (-1 : Int) ≤ (j : Int); omega
  | some k =>
    obtain ⟨k', h1, h2⟩ := C59_grows _ op p hr k h
    rw [h1]
    exact Int.ofNat_le.2 h2

/-! ### Two instances -/

theorem contentNames_filter {σ : Type} {P : Params σ} {s : State σ} {A : List Name} (h : Knows P s A) (negative : List Nat)
    (f : σ → Name → List Nat → Except Err Bool) (keep : Name → Bool) (hf : ∀ n ∈ A, f s.app n negative = .ok (keep n)) :
    ∀ (ks : List Nat) (names : List Name), (∀ k ∈ ks, ∃ n ∈ A, P.nameHash n = k) →
    ∃ ns : List Name, contentNames (some f) negative ks names s = (.ok (names ++ ns.filter keep), s) ∧ ns.map P.nameHash = ks ∧ ∀ n ∈ ns, n ∈ A
  | [], names, _ => ⟨[], by rw [List.filter_nil, List.append_nil]; rfl, rfl, nofun⟩
  | k :: ks, names, hk => by
    obtain ⟨n, hn, rfl⟩ := hk k (List.mem_cons_self ..)
    obtain ⟨ns, h1, h2, h3⟩ := contentNames_filter h negative f keep hf ks (if keep n then names ++ [n] else names)
      fun k hk' => hk k (List.mem_cons_of_mem _ hk')
    refine ⟨n :: ns, ?_, by rw [List.map_cons, h2], ?_⟩
    · unfold contentNames
      rw [get_bind, h.getHash hn]
      dsimp only
      rw [get_bind, h.get n, if_pos hn, if_pos (show (some (P.nameHash n)).isSome = true from rfl)]
      have e : mayAdd (some f) n negative s = (.ok (keep n), s) := by
        show lift (f s.app n negative) s = _
        rw [hf n hn]
        rfl
      rw [bind_ok e, h1, List.filter_cons]
      by_cases hkn : keep n = true
      · rw [if_pos hkn, if_pos hkn, List.append_assoc]; rfl
      · rw [if_neg hkn, if_neg hkn]
    · intro m hm
      rcases List.mem_cons.1 hm with rfl | hm
      · exact hn
      · exact h3 m hm

theorem knows_same {σ : Type} {P : Params σ} {s : State σ} {A B : List Name} (h : Knows P s A) (h' : Knows P s B) : A = B := by
  have h1 : s.nameToHash.map (·.1) = A := by rw [h.names]; simp [Function.comp_def]
  have h2 : s.nameToHash.map (·.1) = B := by rw [h'.names]; simp [Function.comp_def]
  rw [← h1, h2]

theorem Matches.mem {P : Params Users} {s : State Users} {m : Seqs} (h : Matches P s m) {A : List Name} (hA : Knows (withUsers P) s A) (n : Name) :
    n ∈ A ↔ NamesOf m n := by
  obtain ⟨A', h1, h2⟩ := h.names
  rw [knows_same hA h1]
  exact h2 n

theorem following_numbered (p : Name) {k : Nat} (hk : k < 2 ^ 64) : following (numbered p k) = numbered p (k + 1) := by
  unfold following
  rw [show (numbered p k).getLast? = some ⟨.generic, Spec.nonNeg k⟩ by simp [numbered]]
  dsimp only
  rw [numbered_dropLast, number_number hk]

/-- An instance with users gets an Interest with the table of the names `B`, which it cannot answer from the store, and the
difference can be read off the tables.  It publishes exactly its names that are missing in `B`, without those whose next name
is in `B`; if there are none, it keeps the Interest for later. -/
theorem C59_answer (P : Params Users) (he : 0 < P.expected) (s : State Users) (m : Seqs) (hm : Matches P s m) (A B : List Name)
    (h : Knows (withUsers P) s A)
    (c : Component) (t : Iblt.Table) (hc : Iblt.initializeTable P.decompress (Iblt.new P.expected) c.value = .ok t)
    (ht : TableOf P B t) (hd : HashesDiffer P (A ++ B ++ A.map following)) (hn : NoCollision P.hash (differing P A B))
    (hr : (differing P A B).length < P.rounds) (hs : replyFromStore s.pub (P.syncPrefix ++ [c]) = none) (now : Nat)
    (hread : Readable P A B) :
    let name := P.syncPrefix ++ [c]
    let s' := (performUser P (.interest now name true) s).2
    (useful A B ≠ [] → ∃ names, names.Perm (useful A B) ∧ Answers (withUsers P) s s' now name (replyName P s name) names) ∧
    (useful A B = [] → s'.pub = s.pub ∧ dictGet name s'.pending = some ⟨s.nextEntry, t⟩ ∧
      s'.timers = s.timers ++ [(name, s.nextEntry)]) := by
  intro name s'
  have hd1 : HashesDiffer P (A ++ B) := differ_sub hd fun _ h => List.mem_append_left _ h
  obtain ⟨b, positive, negative, h1, h2, h3, h4, h5, h6, h7, _⟩ := listDifference_spec (P := withUsers P) he h ht hd1 hn hr
  have hb : b = true := h5.2 hread
  obtain ⟨p1, p2⟩ := h6 hb
  subst hb
  -- what the callback says
  have hkeep : ∀ n ∈ A, isNotFutureHash P.nameHash s.app n negative = .ok (decide (following n ∉ B)) := by
    intro n hnA
    obtain ⟨p, k, k1, k2, rfl⟩ := (hm.mem h n).1 hnA
    have kb := hm.bound p k k1
    unfold isNotFutureHash
    rw [numbered_prefix]
    show (do let next ← appendNumber p ((dictGet p s.app.prefixes).getD 0 + 1); return !negative.contains (P.nameHash next) : Except Err Bool) = _
    rw [hm.has p, k1, appendNumber_eq]
    show Except.ok (!negative.contains (P.nameHash (numbered p (k + 1)))) = _
    rw [following_numbered p kb]
    congr 1
    have hf : numbered p (k + 1) ∈ A.map following := by
      rw [← following_numbered p kb]; exact List.mem_map_of_mem hnA
    have hnA' : numbered p (k + 1) ∉ A := by
      intro hin
      obtain ⟨q, j, j1, j2, j3⟩ := (hm.mem h _).1 hin
      obtain rfl := numbered_prefix_eq j3
      rw [k1] at j1
      cases j1
      have := congrArg (fun n : Name => n.getLast?.map Component.toNumber) j3
      simp [numbered] at this
      have h0 : Component.toNumber ⟨.generic, Spec.nonNeg k⟩ = k := number_number kb
      rw [h0] at this
      by_cases hbig : k + 1 < 2 ^ 64
      · have h0' : Component.toNumber ⟨.generic, Spec.nonNeg (k + 1)⟩ = k + 1 := number_number hbig
        rw [h0'] at this; omega
      · have hk : k = 2 ^ 64 - 1 := by omega
        subst hk
        exact absurd this (by decide +kernel)
    by_cases hB : numbered p (k + 1) ∈ B
    · rw [decide_eq_false (by simpa using hB)]
      simp only [Bool.not_eq_false', List.contains_iff_mem]
      exact p2 _ (mem_missing.2 ⟨hB, hnA'⟩)
    · rw [decide_eq_true hB]
      simp only [Bool.not_eq_true']
      rw [← Bool.not_eq_true, List.contains_iff_mem]
      intro hin
      obtain ⟨n', n1, n2⟩ := h4 _ hin
      have := hd n' (List.mem_append_left _ (List.mem_append_right _ (mem_missing.1 n1).1)) _ (List.mem_append_right _ hf) n2
      rw [← this] at hB
      exact hB (mem_missing.1 n1).1
  obtain ⟨ns, c1, c2, c3⟩ := contentNames_filter h negative (isNotFutureHash P.nameHash) _ hkeep positive [] (by
    intro k hk
    obtain ⟨n, n1, n2⟩ := h3 k hk
    exact ⟨n, (mem_missing.1 n1).1, n2⟩)
  rw [List.nil_append] at c1
  -- the names are those that are missing
  have hnd : ns.Nodup := by
    rw [← c2] at h2
    exact (List.pairwise_map.1 h2).imp fun hne heq => hne (by rw [heq])
  have hperm : ns.Perm (missing A B) := by
    have hnm : (missing A B).Nodup := h.nodup.filter _
    rw [List.perm_ext_iff_of_nodup hnd hnm]
    intro n
    constructor
    · intro hn'
      have : P.nameHash n ∈ positive := by rw [← c2]; exact List.mem_map_of_mem hn'
      obtain ⟨n', m1, m2⟩ := h3 _ this
      have := h.differ n' (mem_missing.1 m1).1 n (c3 n hn') m2
      subst this; exact m1
    · intro hn'
      have := p1 n hn'
      rw [← c2] at this
      obtain ⟨n', m1, m2⟩ := List.mem_map.1 this
      have := h.differ n' (c3 n' m1) n (mem_missing.1 hn').1 m2
      subst this; exact m1
  have hperm' : (ns.filter fun n => decide (following n ∉ B)).Perm (useful A B) := hperm.filter _
  generalize (ns.filter fun n => decide (following n ∉ B)) = names at c1 hperm'
  have e0 : perform (withUsers P) (.interest now name true) s = (if names.length > 0 then sendSyncData (withUsers P) now name (encodeState names)
        else do
          let s ← get
          modify fun s => { s with pending := dictSet name ⟨s.nextEntry, t⟩ s.pending, nextEntry := s.nextEntry + 1 }
          if true then modify fun s' => { s' with timers := s'.timers ++ [(name, s.nextEntry)] }
          else stop (.raised .type)) s := by
    unfold perform
    dsimp only
    refine (onSyncInterest_one (P := withUsers P) now c true hs).trans ?_
    unfold onSyncInterest.answer
    rw [last_eq]
    show (match Iblt.initializeTable P.decompress (Iblt.new P.expected) c.value with
      | .error _ => _ | .ok iblt => _ : M Users Unit) s = _
    rw [hc]
    dsimp only
    rw [bind_ok h1]
    show (if (!true && tooMany (withUsers P) positive negative) = true then _ else _ : M Users Unit) s = _
    rw [if_neg (by simp)]
    show (contentNames (some (isNotFutureHash P.nameHash)) negative positive [] >>= _) s = _
    rw [bind_ok c1]
    by_cases hl : names.length > 0
    · rw [if_pos hl, if_pos hl]; rfl
    · rw [if_neg hl, if_neg hl]; rfl
  constructor
  · intro hne
    have hne' : names ≠ [] := by
      rintro rfl
      exact hne (List.nil_perm.1 hperm')
    rw [if_pos (List.length_pos_iff.2 hne')] at e0
    have := sendSyncData_eq (P := withUsers P) (s := s) now P.syncPrefix c (encodeState names)
    dsimp only at this
    refine ⟨names, hperm', ⟨?_, ?_⟩⟩
    · show _ = Except.ok (perform (withUsers P) _ s).2.pub
      rw [e0]; exact this.1
    · show (perform (withUsers P) _ s).2.pending = _
      rw [e0]; exact this.2.1
  · intro hne
    rw [hne] at hperm'
    obtain rfl := List.perm_nil.1 hperm'
    rw [if_neg (by simp)] at e0
    refine ⟨?_, ?_, ?_⟩
    · show (perform (withUsers P) _ s).2.pub = _; rw [e0]; rfl
    · show dictGet name (perform (withUsers P) _ s).2.pending = _
      rw [e0]
      show dictGet name (dictSet name _ s.pending) = _
      rw [dictGet_set, if_pos rfl]
    · show (perform (withUsers P) _ s).2.timers = _; rw [e0]; rfl

/-- The sync Interest of one instance, with the numbers `theirs`, reaches another, with the numbers `mine`; for some prefix the
other has a greater number, and the difference can be read off the tables.  Then the other publishes a content for it; and when
the first receives this content (it may have got greater numbers in between: `later`), it has for each prefix the greater of the
two numbers. -/
theorem C59_sync (P Q : Params Users) (hg : SameGroup P Q) (he : 0 < P.expected) (p q : State Users) (mine theirs : Seqs)
    (hp : Matches P p mine) (hq : Matches Q q theirs) (A B : List Name) (hA : Knows (withUsers P) p A) (hB : Knows (withUsers Q) q B)
    (hz : ∀ b, P.decompress (P.compress b) = .ok b) (hh : ∀ k, P.hash Iblt.nHashCheck k < 2 ^ 32)
    (hnh : ∀ n ∈ B, P.nameHash n < 2 ^ 32) (hlen : B.length < 2 ^ 32) (hbig : ∀ x k, mine x = some k → k + 1 < 2 ^ 64)
    (hd : HashesDiffer P (A ++ B ++ A.map following)) (hn : NoCollision P.hash (differing P A B)) (hr : (differing P A B).length < P.rounds)
    (hs : replyFromStore p.pub (interestName Q q) = none)
    (hcan : ∀ n ∈ A, Spec.CanonicalName n) (hsz : ∀ names : List Name, names.Perm (useful A B) → (encodeState names).length < 2 ^ 64)
    (hread : Readable P A B) (hmore : ∃ x k, mine x = some k ∧ 0 < k ∧ ∀ j, theirs x = some j → j < k) (now : Nat) :
    ∃ names, Answers (withUsers P) p (performUser P (.interest now (interestName Q q) true) p).2 now (interestName Q q)
        (replyName P p (interestName Q q)) names ∧
      ∀ (q' : State Users) (later : Seqs) (B' : List Name), Matches Q q' later → Knows (withUsers Q) q' B' →
        (∀ x j, theirs x = some j → ∃ j', later x = some j' ∧ j ≤ j') → HashesDiffer P (A ++ B') →
        Matches Q (performUser Q (.data (interestName Q q) (encodeState names)) q').2 (joined mine later) := by
  obtain ⟨ops, hB1, hB2⟩ := hg.table hB.table
  obtain ⟨t, w1, w2⟩ := Props.C56_wire P.hash P.compress P.decompress hz hh P.expected he _ ops hB1 (by simpa using hlen) (by
    intro k hk
    obtain ⟨n, hn', rfl⟩ := List.mem_map.1 hk
    exact hnh n hn')
  rw [hB2] at w1
  cases w1
  have hname : interestName Q q = P.syncPrefix ++ [⟨.generic, Iblt.encode P.compress q.iblt⟩] := by
    unfold interestName
    rw [hg.syncPrefix, hg.compress]
  rw [hname] at hs ⊢
  have hmem : ∀ n, n ∈ useful A B ↔ n ∈ A ∧ n ∉ B ∧ following n ∉ B := by
    intro n
    unfold useful
    rw [List.mem_filter, mem_missing]
    simp [and_assoc]
  have hne : useful A B ≠ [] := by
    obtain ⟨x, k, k1, k2, k3⟩ := hmore
    have kb := hp.bound x k k1
    refine List.ne_nil_of_mem (a := numbered x k) ((hmem _).2 ⟨(hp.mem hA _).2 ⟨x, k, k1, k2, rfl⟩, ?_, ?_⟩)
    · intro hin
      obtain ⟨y, j, j1, j2, j3⟩ := (hq.mem hB _).1 hin
      obtain ⟨rfl, rfl⟩ := numbered_inj kb (hq.bound y j j1) j3
      have := k3 _ j1
      omega
    · rw [following_numbered x kb]
      intro hin
      obtain ⟨y, j, j1, j2, j3⟩ := (hq.mem hB _).1 hin
      obtain ⟨rfl, rfl⟩ := numbered_inj (hbig x k k1) (hq.bound y j j1) j3
      have := k3 _ j1
      omega
  obtain ⟨names, h1, h2⟩ := (C59_answer P he p mine hp A B hA ⟨.generic, Iblt.encode P.compress q.iblt⟩ q.iblt w2
    ⟨ops, hB1, hB2⟩ hd hn hr hs now hread).1 hne
  refine ⟨names, h2, ?_⟩
  intro q' later B' hq' hB' hlater hd'
  have hmem' : ∀ n, n ∈ names ↔ n ∈ A ∧ n ∉ B ∧ following n ∉ B := fun n => by rw [h1.mem_iff]; exact hmem n
  have hdec : decodeState (encodeState names) = .ok names :=
    C57_state names (fun n hn' => hcan n ((hmem' n).1 hn').1) (hsz names h1)
  have heQ : 0 < Q.expected := by rw [hg.expected]; exact he
  have hnumbered : ∀ n ∈ names, ∃ x k, mine x = some k ∧ 0 < k ∧ k < 2 ^ 64 ∧ n = numbered x k := by
    intro n hn'
    obtain ⟨x, k, k1, k2, k3⟩ := (hp.mem hA n).1 ((hmem' n).1 hn').1
    exact ⟨x, k, k1, k2, hp.bound x k k1, k3⟩
  have hnod : names.Nodup := h1.nodup_iff.2 ((hA.nodup.filter _).filter _)
  have ho : Orderly later (.data (P.syncPrefix ++ [⟨.generic, Iblt.encode P.compress q.iblt⟩]) (encodeState names)) := by
    intro ns hns
    rw [hdec] at hns
    cases hns
    refine ⟨?_, ?_⟩
    · intro n hn'
      obtain ⟨x, k, _, k2, k3, k4⟩ := hnumbered n hn'
      exact ⟨x, k, k2, k3, k4⟩
    · rw [List.nodup_iff_pairwise_ne, List.pairwise_map]
      rw [List.nodup_iff_pairwise_ne] at hnod
      refine hnod.imp_of_mem ?_
      intro a b ha hb hab heq
      obtain ⟨x, k, k1, _, _, rfl⟩ := hnumbered a ha
      obtain ⟨y, j, j1, _, _, rfl⟩ := hnumbered b hb
      rw [numbered_dropLast, numbered_dropLast] at heq
      subst heq
      rw [k1] at j1
      cases j1
      exact hab rfl
  obtain ⟨r, _⟩ := data_matches heQ hq' (N := names ++ B') (by
      intro a ha b hb hab
      rw [hg.nameHash] at hab
      refine hd' a ?_ b ?_ hab
      · rcases List.mem_append.1 ha with h | h
        · exact List.mem_append_left _ ((hmem' a).1 h).1
        · exact List.mem_append_right _ h
      · rcases List.mem_append.1 hb with h | h
        · exact List.mem_append_left _ ((hmem' b).1 h).1
        · exact List.mem_append_right _ h)
    (fun n hn' => List.mem_append_right _ ((hq'.mem hB' n).2 hn')) _ _ ho (by
      intro n hn'
      unfold brings at hn'
      dsimp only at hn'
      rw [hdec] at hn'
      exact List.mem_append_left _ hn')
  have e : joined mine later = seqStep later (.data (P.syncPrefix ++ [⟨.generic, Iblt.encode P.compress q.iblt⟩]) (encodeState names)) := by
    unfold seqStep
    dsimp only
    rw [hdec]
    dsimp only
    obtain ⟨qs, q1, q2, q3⟩ := asNames_of (ho names hdec).1
    have ho2 := (ho names hdec).2
    rw [← q3] at ho2
    have q2' : ∀ x ∈ qs, x.2 < 2 ^ 64 := fun x hx => (q2 x hx).2
    rw [q1]
    show _ = hearAll later qs
    funext x
    have hin : ∀ k, (x, k) ∈ qs → numbered x k ∈ names := by
      intro k hk
      rw [q1]
      exact List.mem_map.2 ⟨(x, k), hk, rfl⟩
    have hout : ∀ k, k < 2 ^ 64 → numbered x k ∈ names → (x, k) ∈ qs := by
      intro k hk hx
      rw [q1] at hx
      obtain ⟨⟨y, j⟩, hy, hxy⟩ := List.mem_map.1 hx
      obtain ⟨rfl, rfl⟩ := numbered_inj (q2' _ hy) hk hxy
      exact hy
    by_cases hx : x ∈ qs.map (·.1)
    · obtain ⟨⟨y, k⟩, hy, rfl⟩ := List.mem_map.1 hx
      dsimp only at hin hout ⊢
      have hk := hin k hy
      obtain ⟨y', k', a1, a2, a3, a4⟩ := hnumbered _ hk
      obtain ⟨rfl, rfl⟩ := numbered_inj (q2' _ hy) a3 a4
      rw [hearAll_eq qs later q2' ho2 hy]
      unfold joined fresh
      dsimp only
      rw [a1]
      cases later y with
      | none =>
        dsimp only
        rw [if_neg (by omega), if_pos rfl]
      | some j =>
        dsimp only
        by_cases hj : j < k
        · rw [if_pos (by simpa using hj)]; congr 1; omega
        · rw [if_neg (by simpa using hj)]; congr 1; omega
    · rw [hearAll_other qs later q2' hx]
      unfold joined
      cases hmx : mine x with
      | none => rfl
      | some k =>
        by_cases hk0 : k = 0
        · subst hk0
          cases later x with
          | none => rfl
          | some j => simp
        · have hnin : numbered x k ∉ names := fun hc' => hx (List.mem_map.2 ⟨_, hout k (hp.bound x k hmx) hc', rfl⟩)
          rw [hmem'] at hnin
          have hnA := (hp.mem hA _).2 ⟨x, k, hmx, by omega, rfl⟩
          have hB0 : ∃ j, theirs x = some j ∧ k ≤ j := by
            by_cases hb1 : numbered x k ∈ B
            · obtain ⟨y, j, j1, j2, j3⟩ := (hq.mem hB _).1 hb1
              obtain ⟨rfl, rfl⟩ := numbered_inj (hp.bound x k hmx) (hq.bound y j j1) j3
              exact ⟨k, j1, Nat.le_refl _⟩
            · have hb2 : following (numbered x k) ∈ B := by
                by_cases hb2 : following (numbered x k) ∈ B
                · exact hb2
                · exact absurd ⟨hnA, hb1, hb2⟩ hnin
              rw [following_numbered x (hp.bound x k hmx)] at hb2
              obtain ⟨y, j, j1, j2, j3⟩ := (hq.mem hB _).1 hb2
              obtain ⟨rfl, rfl⟩ := numbered_inj (hbig x k hmx) (hq.bound y j j1) j3
              exact ⟨k + 1, j1, by omega⟩
          obtain ⟨j, j1, j2⟩ := hB0
          obtain ⟨j', j3, j4⟩ := hlater x j j1
          rw [j3]
          dsimp only
          congr 1
          omega
  rw [e]
  exact r

/-! ### What goes wrong, and examples -/

/-- An instance for the examples. -/
def exU : Params Users where
  hash := fun seed key => exP.hash seed key % 2 ^ 32
  nameHash := fun n => n.foldl (fun h c => 31 * h + (c.value.map UInt8.toNat).sum) 0
  compress := id
  decompress := .ok
  rounds := 10
  expected := 6
  syncPrefix := [⟨.generic, [115]⟩]
  pub := exP.pub
  freshness := 1000
  pyHash := fun _ => 5
  onNamesUpdate := fun u _ => u

/-- A content with two numbers of one prefix: the first is taken, then the second, though it is smaller: `getSequenceNo` goes
back, the application is told the empty range from 6 to 3, and both names are in the set. -/
theorem C59_backwards : let a := exName 97
    let s := runUsers exU [.data [] (encodeState [numbered a 5, numbered a 3])]
    getSequenceNo s a = 3 ∧ s.app.told = [[⟨a, 1, 5⟩, ⟨a, 6, 3⟩]] ∧ s.nameToHash.map (·.1) = [numbered a 5, numbered a 3] := by
  decide +kernel

/-- A received name whose number has a leading zero is never taken out again: the greater number of the prefix removes the name
that it would have without the zero. -/
theorem C59_stale : let a := exName 97
    let s := runUsers exU [.data [] (encodeState [a ++ [⟨.generic, [0, 5]⟩]]), .data [] (encodeState [numbered a 6])]
    getSequenceNo s a = 6 ∧ s.nameToHash.map (·.1) = [a ++ [⟨.generic, [0, 5]⟩], numbered a 6] := by decide +kernel

/-- So it is with a received number 0. -/
theorem C59_zero : let a := exName 97
    let s := runUsers exU [.data [] (encodeState [numbered a 0]), .data [] (encodeState [numbered a 1])]
    getSequenceNo s a = 1 ∧ s.nameToHash.map (·.1) = [numbered a 0, numbered a 1] := by decide +kernel

/-- A history that meets the hypotheses: two prefixes, one is published twice, and a greater number of the other is received. -/
def exHistory : List UserOp :=
  [.addUserNode (exName 97), .publishName 0 (exName 97) (-1), .publishName 1 (exName 97) 3,
   .data [] (encodeState [numbered (exName 97) 2, numbered (exName 98) 4])]

theorem ex_content : decodeState (encodeState [numbered (exName 97) 2, numbered (exName 98) 4]) =
    .ok [numbered (exName 97) 2, numbered (exName 98) 4] := by decide +kernel

example : AllOrderly (fun _ => none) exHistory ∧ HashesDiffer exU (allNames (fun _ => none) exHistory) := by
  refine ⟨⟨trivial, ?_, ?_, ?_, trivial⟩, ?_⟩
  · rintro old ⟨⟩; decide
  · rintro old ⟨⟩; decide
  · intro ns hns
    rw [ex_content] at hns
    cases hns
    refine ⟨?_, by decide⟩
    intro n hn
    simp only [List.mem_cons, List.not_mem_nil, or_false] at hn
    rcases hn with rfl | rfl
    · exact ⟨exName 97, 2, by decide, by decide, rfl⟩
    · exact ⟨exName 98, 4, by decide, by decide, rfl⟩
  · have : allNames (fun _ => none) exHistory =
        [numbered (exName 97) 1, numbered (exName 97) 3, numbered (exName 97) 2, numbered (exName 98) 4] := by decide +kernel
    rw [this]
    unfold HashesDiffer
    decide +kernel

example : getSequenceNo (runUsers exU exHistory) (exName 97) = 3 ∧ getSequenceNo (runUsers exU exHistory) (exName 98) = 4 ∧
    (runUsers exU exHistory).app.told = [[⟨exName 98, 1, 4⟩]] ∧
    (runUsers exU exHistory).nameToHash.map (·.1) = [numbered (exName 97) 3, numbered (exName 98) 4] := by decide +kernel

/-- The hypotheses of C59_sync are met by an instance that has published one number and one that is new. -/
example : let ops : List UserOp := [.addUserNode (exName 97), .publishName 0 (exName 97) 3]
    let p := runUsers exU ops
    let q := runUsers exU []
    let A := [numbered (exName 97) 3]
    SameGroup exU exU ∧ Matches exU p (seqRun ops) ∧ Matches exU q (seqRun []) ∧ Knows (withUsers exU) p A ∧ Knows (withUsers exU) q [] ∧
    (∀ b, exU.decompress (exU.compress b) = .ok b) ∧ (∀ k, exU.hash Iblt.nHashCheck k < 2 ^ 32) ∧
    (∀ x k, seqRun ops x = some k → k + 1 < 2 ^ 64) ∧ HashesDiffer exU (A ++ [] ++ A.map following) ∧
    NoCollision exU.hash (differing exU A []) ∧ (differing exU A []).length < exU.rounds ∧
    replyFromStore p.pub (interestName exU q) = none ∧ (∀ n ∈ A, Spec.CanonicalName n) ∧
    (∀ names : List Name, names.Perm (useful A []) → (encodeState names).length < 2 ^ 64) ∧ Readable exU A [] ∧
    (∃ x k, seqRun ops x = some k ∧ 0 < k ∧ ∀ j, seqRun [] x = some j → j < k) := by
  intro ops p q A
  have hord : AllOrderly (fun _ => none) ops := ⟨trivial, by rintro old ⟨⟩; decide, trivial⟩
  have hall : allNames (fun _ => none) ops = A := by decide +kernel
  have hdiff : HashesDiffer exU (allNames (fun _ => none) ops) := by rw [hall]; unfold HashesDiffer; decide +kernel
  have hm : Matches exU p (seqRun ops) :=
    (run_matches (by decide) hdiff ops _ _ (start_matches exU) (by rintro n ⟨p, k, h, _⟩; exact nomatch h) hord fun _ h => h).1
  have hfun : ∀ x k, seqRun ops x = some k → k = 3 := by
    intro x k hk
    have : seqRun ops = (Seqs.set (Seqs.set (fun _ => none) (exName 97) (some 0)) (exName 97) (some 3)) := by
      unfold seqRun
      simp only [ops, List.foldl_cons, List.foldl_nil]
      have h1 : seqStep (fun _ => none) (.addUserNode (exName 97)) = Seqs.set (fun _ => none) (exName 97) (some 0) := by
        unfold seqStep; dsimp only; rw [if_pos rfl]
      rw [h1]
      unfold seqStep
      dsimp only
      rw [show Seqs.set (fun _ => none) (exName 97) (some 0) (exName 97) = some 0 by unfold Seqs.set; rw [if_pos rfl]]
      dsimp only
      rw [if_pos (by decide)]
      rfl
    rw [this] at hk
    unfold Seqs.set at hk
    by_cases hx : x = exName 97
    · rw [if_pos hx] at hk; cases hk; rfl
    · rw [if_neg hx, if_neg hx] at hk; exact nomatch hk
  have hdif : differing exU A [] = [exU.nameHash (numbered (exName 97) 3)] := by decide +kernel
  refine ⟨⟨rfl, rfl, rfl, rfl, rfl, rfl⟩, hm, start_matches exU, ?_, (start_knows (withUsers exU) {}).1, fun _ => rfl, ?_, ?_, ?_, ?_, ?_, ?_, ?_, ?_, ?_, ?_⟩
  · obtain ⟨A', h1, h2⟩ := hm.names
    have : p.nameToHash.map (·.1) = A := by decide +kernel
    have h3 : p.nameToHash.map (·.1) = A' := by rw [h1.names]; simp [Function.comp_def]
    rw [← this, h3]
    exact h1
  · intro k; exact Nat.mod_lt _ (by decide)
  · intro x k hk; rw [hfun x k hk]; decide
  · unfold HashesDiffer; decide +kernel
  · rw [hdif]
    have key : ∀ (a : Nat) (T : List Nat), T.Nodup → (∀ k ∈ T, k ∈ [a]) → T.length ≤ 1
      | _, [], _, _ => by simp
      | _, [_], _, _ => by simp
      | a, x :: y :: T, h1, h2 => by
        have ha := h2 x (by simp)
        have hb := h2 y (by simp)
        simp only [List.mem_singleton] at ha hb
        rw [ha, hb] at h1
        simp at h1
    exact ⟨fun T h1 h2 h3 _ => by have := key _ T h1 h2; omega, fun T h1 h2 h3 _ => by have := key _ T h1 h2; omega⟩
  · rw [hdif]; decide
  · decide +kernel
  · intro n hn; rw [List.mem_singleton.1 hn]
    unfold Spec.CanonicalName
    decide +kernel
  · intro names hp
    have : useful A [] = A := by decide +kernel
    rw [this] at hp
    rw [List.perm_singleton.1 hp]
    decide +kernel
  · rintro ⟨S, h1, h2, h3⟩
    rw [hdif] at h1
    cases S with
    | nil => exact h2 rfl
    | cons k S =>
      obtain ⟨k', a1, a2, _⟩ := h3 k (by simp) 0 (by decide)
      have b1 := h1 k (by simp)
      have b2 := h1 k' a1
      simp only [List.mem_singleton] at b1 b2
      exact a2 (b2.trans b1.symm)
  · exact ⟨exName 97, 3, by decide +kernel, by decide, nofun⟩

end PSync
end PyNDN
