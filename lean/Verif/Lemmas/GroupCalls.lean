import Verif.Lemmas.GroupManager
import Verif.Lemmas.GroupInterval
import Verif.Lemmas.Iso
import Verif.Props.Encrypted
/-! `_calculateInterval` of the group manager with its database is that of Model/Schedule on the schedules and members of the specification. -/
namespace PyNDN.Group
open Encrypt (Schedule Interval GroupSchedule Allowed Askable Mem)
open EncV1 Spec Spec.Group
open _root_.PyNDN.Spec.PibSqlite (upd NameOk)
open PSync (dictGet dictSet dictDel)

variable {P : Params} {db : DB} {privs : List (Name × Bytes)} {K : Spec.Group.Group} {s : St}

theorem bind_eq {m : M α} {f : α → M β} {a : α} {s s' : St} (h : m s = (.ok a, s')) : (m >>= f) s = f a s' := by
  show M.bind m f s = _
  unfold M.bind
  rw [h]

theorem bind_select {g : DB → α} {f : α → M β} : (select g >>= f) s = f (g s.db) s := rfl

theorem pure_eq (a : α) (s : St) : (pure a : M α) s = (.ok a, s) := rfl

theorem decodedMembers_spec : ∀ {rows : List MemberRow}, (∀ m ∈ rows, ∃ k, NameOk k ∧ m.keyName = encodeName k) →
    ∃ ms, decodedMembers rows s = (.ok ms, s) ∧ List.Forall₂ (fun r m => NameOk m.1 ∧ r.keyName = encodeName m.1 ∧ r.pubkey = m.2) rows ms := by
  intro rows
  induction rows with
  | nil => exact fun _ => ⟨[], rfl, .nil⟩
  | cons r rows ih =>
    intro h
    obtain ⟨ms, h1, h2⟩ := ih fun m hm => h m (List.mem_cons_of_mem _ hm)
    obtain ⟨k, hk, e⟩ := h r (by simp)
    refine ⟨(k, r.pubkey) :: ms, ?_, .cons ⟨hk, e, rfl⟩ h2⟩
    unfold decodedMembers
    rw [e, decode_enc hk]
    exact (bind_eq (m := tried (.ok k)) (a := k) (s' := s) rfl).trans (bind_eq h1)

theorem decodedNames_spec : ∀ {rows : List MemberRow}, (∀ m ∈ rows, ∃ k, NameOk k ∧ m.memberName = encodeName k) →
    ∃ ms, decodedNames rows s = (.ok ms, s) ∧ List.Forall₂ (fun r m => NameOk m ∧ r.memberName = encodeName m) rows ms := by
  intro rows
  induction rows with
  | nil => exact fun _ => ⟨[], rfl, .nil⟩
  | cons r rows ih =>
    intro h
    obtain ⟨ms, h1, h2⟩ := ih fun m hm => h m (List.mem_cons_of_mem _ hm)
    obtain ⟨k, hk, e⟩ := h r (by simp)
    refine ⟨k :: ms, ?_, .cons ⟨hk, e⟩ h2⟩
    unfold decodedNames
    rw [e, decode_enc hk]
    exact (bind_eq (m := tried (.ok k)) (a := k) (s' := s) rfl).trans (bind_eq h1)

theorem forall2_left {R : α → β → Prop} {l : List α} {m : List β} (h : List.Forall₂ R l m) : ∀ x ∈ l, ∃ y ∈ m, R x y := by
  induction h with
  | nil => simp
  | cons hxy _ ih =>
    intro x hx
    rcases List.mem_cons.mp hx with rfl | hx
    · exact ⟨_, by simp, hxy⟩
    · obtain ⟨y, hy, hr⟩ := ih x hx
      exact ⟨y, List.mem_cons_of_mem _ hy, hr⟩

theorem forall2_right {R : α → β → Prop} {l : List α} {m : List β} (h : List.Forall₂ R l m) : ∀ y ∈ m, ∃ x ∈ l, R x y := by
  induction h with
  | nil => simp
  | cons hxy _ ih =>
    intro x hx
    rcases List.mem_cons.mp hx with rfl | hx
    · exact ⟨_, by simp, hxy⟩
    · obtain ⟨y, hy, hr⟩ := ih x hx
      exact ⟨y, List.mem_cons_of_mem _ hy, hr⟩

/-- The members of a schedule. -/
def MembersOf (K : Spec.Group.Group) (n : String) (l : List (Name × Bytes)) : Prop :=
  (l.map Prod.fst).Nodup ∧ ∀ k key, (k, key) ∈ l ↔ ∃ i, K.member i = some (n, k, key)

theorem members_spec (hP : Sound P) (h : Rep P s.db s.privs K) (n : String) :
    ∃ l, getScheduleMembers P n s = (.ok l, s) ∧ MembersOf K n l := by
  set rows := P.order (s.db.members.filter fun m => s.db.schedules.any fun r => r.name = n ∧ r.id = m.scheduleId) with hrows
  have hmem : ∀ m, m ∈ rows ↔ m ∈ s.db.members ∧ (s.db.schedules.any fun r => decide (r.name = n ∧ r.id = m.scheduleId)) = true := fun m => by
    rw [hrows, (hP.order _).mem_iff, List.mem_filter]
  obtain ⟨ms, h1, h2⟩ := decodedMembers_spec (s := s) (rows := rows) fun m hm => by
    obtain ⟨k, a, _, _, _, b, _⟩ := h.mrow m ((hmem m).mp hm).1
    exact ⟨k, a, b⟩
  have hms : ∀ k key, (k, key) ∈ ms ↔ ∃ i, K.member i = some (n, k, key) := by
    intro k key
    constructor
    · intro hk
      obtain ⟨r, hr, e0, e1, e2⟩ := forall2_right h2 _ hk
      obtain ⟨hr1, hr2⟩ := (hmem r).mp hr
      obtain ⟨i, k', a, b, _, _, d⟩ := (h.schedule_of_id hr1).mp hr2
      have hkk : k' = k := by
        have : encodeName k' = encodeName k := b.symm.trans e1
        exact enc_inj d e0 this
      have e2' : r.pubkey = key := e2
      rw [hkk, e2'] at a
      exact ⟨i, a⟩
    · rintro ⟨i, hi⟩
      obtain ⟨e1, e2, _, _, m, hm, e3, e4, e5, r, hr, e6, e7⟩ := h.member_row hi
      have hin : m ∈ rows := (hmem m).mpr ⟨hm, List.any_eq_true.mpr ⟨r, hr, by simp [e6, e7]⟩⟩
      obtain ⟨⟨k', key'⟩, hy, f0, f1, f2⟩ := forall2_left h2 _ hin
      have hkk : k' = k := by
        have : encodeName k' = encodeName k := (e4.symm.trans f1).symm
        exact enc_inj f0 e2 this
      have : key' = key := f2.symm.trans e5
      rw [← hkk, ← this]
      exact hy
  refine ⟨Encrypt.GroupManager.addAll [] ms, ?_, ?_, ?_⟩
  · unfold getScheduleMembers
    rw [bind_select]
    exact bind_eq h1
  · exact Encrypt.addAll_nodup (by simp)
  · obtain ⟨a1, a2⟩ := Encrypt.mem_addAll (ms := ms) (keys := [])
    intro k key
    rw [← hms]
    constructor
    · intro hk
      rcases a1 _ hk with hk | hk
      · cases hk
      · exact hk
    · intro hk
      obtain ⟨key', hk'⟩ := (a2 k).mpr (.inr ⟨key, hk⟩)
      have hk'' : (k, key') ∈ ms := by
        rcases a1 _ hk' with h0 | h0
        · cases h0
        · exact h0
      obtain ⟨i, hi⟩ := (hms _ _).mp hk
      obtain ⟨i', hi'⟩ := (hms _ _).mp hk''
      have e1 := (h.member_row hi).1
      have e2 := (h.member_row hi').1
      rw [e2, ← e1, hi] at hi'
      cases hi'
      exact hk'

theorem getSchedule_some (h : Rep P s.db s.privs K) {n : String} {x : Schedule} (hn : K.schedule n = some x) : getSchedule n s = (.ok x, s) := by
  obtain ⟨r, _, _, hs, hf⟩ := h.schedule_some hn
  refine (bind_eq (m := select fun db => db.schedules.find? fun r => decide (r.name = n)) (a := some r) (s' := s) ?_).trans ?_
  · show (Except.ok (s.db.schedules.find? _), s) = _
    rw [hf]
  · show tried (Schedule.wireDecode r.schedule) s = _
    rw [hs.decode]
    rfl

theorem getSchedule_none (h : Rep P s.db s.privs K) {n : String} (hn : K.schedule n = none) : getSchedule n s = (.error .db, s) := by
  refine (bind_eq (m := select fun db => db.schedules.find? fun r => decide (r.name = n)) (a := none) (s' := s) ?_).trans rfl
  show (Except.ok (s.db.schedules.find? _), s) = _
  rw [find_none_of (h.schedule_none hn)]

def Result (s : St) : Except Err α → Except GErr α × St
  | .ok a => (.ok a, s)
  | .error e => (.error (.py e), s)

theorem lifted_eq (x : Except Err α) (s : St) : lifted x s = Result s x := by cases x <;> rfl

theorem bind_lifted {x : Except Err α} {f : α → M β} {g : α → Except Err β} (h : ∀ a, x = .ok a → f a s = Result s (g a)) :
    (lifted x >>= f) s = Result s (x >>= g) := by
  cases hx : x with
  | error e => rfl
  | ok a => exact h a hx

/-- The schedules and their members. -/
def Listed (K : Spec.Group.Group) (n : String) (g : GroupSchedule Name Bytes) : Prop := K.schedule n = some g.schedule ∧ MembersOf K n g.members

theorem loop_eq (hP : Sound P) (h : Rep P s.db s.privs K) (t : ℚ) : ∀ names : List String, (∀ n ∈ names, (K.schedule n).isSome) →
    ∃ gs : List (GroupSchedule Name Bytes), List.Forall₂ (Listed K) names gs ∧
      ∀ pos neg keys, loop P t names pos neg keys s = Result s (Encrypt.GroupManager.loop t gs pos neg keys) := by
  intro names
  induction names with
  | nil => exact fun _ => ⟨[], .nil, fun _ _ _ => rfl⟩
  | cons n names ih =>
    intro hn
    obtain ⟨gs, h1, h2⟩ := ih fun m hm => hn m (List.mem_cons_of_mem _ hm)
    obtain ⟨x, hx⟩ := Option.isSome_iff_exists.mp (hn n (by simp))
    obtain ⟨l, hl, hm⟩ := members_spec hP h n
    refine ⟨⟨x, l⟩ :: gs, .cons ⟨hx, hm⟩ h1, ?_⟩
    intro pos neg keys
    unfold loop Encrypt.GroupManager.loop
    refine (bind_eq (getSchedule_some h hx)).trans ?_
    refine bind_lifted ?_
    rintro ⟨b, temp⟩ _
    dsimp only
    cases b
    · simp only [Bool.false_eq_true, if_false]
      exact bind_lifted fun a _ => h2 _ _ _
    · simp only [if_true]
      refine bind_lifted fun a _ => ?_
      exact (bind_eq hl).trans (h2 _ _ _)

theorem listNames_spec (hP : Sound P) (h : Rep P s.db s.privs K) : ∃ l, listAllScheduleNames P s = (.ok l, s) ∧ l.Nodup ∧ ∀ n, n ∈ l ↔ (K.schedule n).isSome = true := by
  refine ⟨_, rfl, ?_, ?_⟩
  · exact (((hP.order s.db.schedules).map _).nodup_iff).mpr h.snames
  · intro n
    rw [((hP.order s.db.schedules).map _).mem_iff]
    constructor
    · intro hn
      obtain ⟨r, hr, rfl⟩ := List.mem_map.mp hn
      obtain ⟨x, hx, _⟩ := h.srow r hr
      rw [hx]; rfl
    · intro hn
      obtain ⟨x, hx⟩ := Option.isSome_iff_exists.mp hn
      obtain ⟨r, hr, e⟩ := h.sval n x hx
      exact List.mem_map.mpr ⟨r, hr, e⟩

theorem calculate_eq (hP : Sound P) (h : Rep P s.db s.privs K) (t : ℚ) : ∃ (names : List String) (gs : List (GroupSchedule Name Bytes)),
    (∀ n, n ∈ names ↔ (K.schedule n).isSome = true) ∧ List.Forall₂ (Listed K) names gs ∧
      calculateInterval P t s = Result s (Encrypt.GroupManager.calculateInterval gs t) := by
  obtain ⟨names, h1, _, h2⟩ := listNames_spec hP h
  obtain ⟨gs, h3, h4⟩ := loop_eq hP h t names fun n hn => (h2 n).mp hn
  refine ⟨names, gs, h2, h3, ?_⟩
  unfold calculateInterval Encrypt.GroupManager.calculateInterval
  refine (bind_eq h1).trans ?_
  have : ∀ {f : _ → M (Interval × List (Name × Bytes))} {g : _ → Except Err (Interval × List (Name × Bytes))}, (∀ v, f v s = Result s (g v)) →
      (loop P t names (.empty false) (.empty false) [] >>= f) s = Result s (Encrypt.GroupManager.loop t gs (.empty false) (.empty false) [] >>= g) := by
    intro f g hfg
    cases hx : Encrypt.GroupManager.loop t gs (.empty false) (.empty false) [] with
    | error e =>
      show M.bind _ _ s = _
      unfold M.bind
      rw [h4, hx]
      rfl
    | ok v =>
      refine (bind_eq (a := v) (s' := s) ?_).trans (hfg v)
      rw [h4, hx]
      rfl
  refine this ?_
  rintro ⟨pos, neg, keys⟩
  dsimp only
  split
  · rfl
  · split
    · exact bind_lifted fun a _ => rfl
    · rfl

/-- The interval and the readers. -/
theorem calc_spec (hP : Sound P) (h : Rep P s.db s.privs K) {t : ℚ} (ha : ∀ n x, K.schedule n = some x → Askable (x.white ++ x.black) t) :
    ∃ i keys, calculateInterval P t s = (.ok (i, keys), s) ∧ (keys.map Prod.fst).Nodup ∧ (∀ k key, (k, key) ∈ keys ↔ Reader K t k key) ∧
      (i.isValid = true ↔ ∃ n x, K.schedule n = some x ∧ Allowed x t) ∧
      (i.isValid = true → Mem t i ∧ Encrypt.Hourly t i ∧ ∀ t', Mem t' i → ∀ n x, K.schedule n = some x → (Allowed x t' ↔ Allowed x t)) := by
  obtain ⟨names, gs, h1, h2, h3⟩ := calculate_eq hP h t
  have hgs : ∀ g ∈ gs, ∃ n, Listed K n g := fun g hg => by
    obtain ⟨n, _, e⟩ := forall2_right h2 g hg
    exact ⟨n, e⟩
  have hgs' : ∀ n x, K.schedule n = some x → ∃ g ∈ gs, Listed K n g ∧ g.schedule = x := fun n x hx => by
    obtain ⟨g, hg, e⟩ := forall2_left h2 n ((h1 n).mpr (by rw [hx]; rfl))
    refine ⟨g, hg, e, ?_⟩
    have := e.1
    rw [hx] at this
    cases this
    rfl
  have hask : ∀ g ∈ gs, Askable (g.schedule.white ++ g.schedule.black) t := fun g hg => by
    obtain ⟨n, e⟩ := hgs g hg
    exact ha n _ e.1
  obtain ⟨i, keys, c1, c2, c3, c4, c5⟩ := Encrypt.C49_group_partial hask
  obtain ⟨d1, d2⟩ := Encrypt.h_group hask c1
  refine ⟨i, keys, by rw [h3, c1]; rfl, d2, ?_, ?_, ?_⟩
  · intro k key
    constructor
    · intro hk
      obtain ⟨g, hg, hal, hm⟩ := c2 _ hk
      obtain ⟨n, e1, e2⟩ := hgs g hg
      obtain ⟨j, hj⟩ := (e2.2 k key).mp hm
      exact ⟨j, n, _, hj, e1, hal⟩
    · rintro ⟨j, n, x, hj, hx, hal⟩
      obtain ⟨g, hg, e, rfl⟩ := hgs' n x hx
      obtain ⟨key', hk'⟩ := (c3 k).mpr ⟨g, hg, hal, key, (e.2.2 k key).mpr ⟨j, hj⟩⟩
      obtain ⟨g', hg', _, hm'⟩ := c2 _ hk'
      obtain ⟨n', e1', e2'⟩ := hgs g' hg'
      obtain ⟨j', hj'⟩ := (e2'.2 k key').mp hm'
      have f1 := (h.member_row hj).1
      have f2 := (h.member_row hj').1
      rw [f2, ← f1, hj] at hj'
      cases hj'
      exact hk'
  · rw [c4]
    constructor
    · rintro ⟨g, hg, hal⟩
      obtain ⟨n, e1, _⟩ := hgs g hg
      exact ⟨n, _, e1, hal⟩
    · rintro ⟨n, x, hx, hal⟩
      obtain ⟨g, hg, e, rfl⟩ := hgs' n x hx
      exact ⟨g, hg, hal⟩
  · intro hv
    obtain ⟨a, b⟩ := c5 hv
    refine ⟨a, d1.mem a, ?_⟩
    intro t' ht' n x hx
    obtain ⟨g, hg, e, rfl⟩ := hgs' n x hx
    exact b t' ht' g hg

end PyNDN.Group
