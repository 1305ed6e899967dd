import Verif.Lemmas.GroupPackets
import Verif.Lemmas.Validator
/-
C76: the group manager.  The database of schedules, members and E-KEYs is, for every history of calls, restarts and crashes, the map of
Spec/GroupManager, and `getGroupKey` gives one E-KEY for an interval in which the same members may read, and one D-KEY for each of them.
-/
namespace PyNDN.Group
open Encrypt (Schedule Interval GroupSchedule Allowed Askable Mem midnight)
open EncV1 Spec Spec.Group
open _root_.PyNDN.Spec.PibSqlite (upd NameOk)
open PSync (dictGet dictSet dictDel)

variable {P : Params} {K : Spec.Group.Group} {s : St}

theorem rep_congr {db : DB} {p q : List (Name × Bytes)} (h : Rep P db p K) (e : ∀ n, dictGet n p = dictGet n q) : Rep P db q K :=
  { h with
    erow := fun r hr => by
      obtain ⟨n, a, b, c⟩ := h.erow r hr
      exact ⟨n, a, b, by rw [c, e]⟩
    inMemory := fun n hn => h.inMemory n (by rw [e]; exact hn) }

/-- The state after a call, and the databases that it committed. -/
def Post (P : Params) (K : Spec.Group.Group) (op : Op) (K' : Spec.Group.Group) (s' : St) : Prop :=
  Rep P s'.db s'.privs K' ∧ ∀ d ∈ s'.log, ∃ C, Crashed K op K' C ∧ Rep P d [] C

def Done (P : Params) (K : Spec.Group.Group) (op : Op) (rs : Res × St) : Prop := ∃ K', Spec.Group.Step P K op rs.1 K' ∧ Post P K op K' rs.2

theorem post_same {op : Op} (h : Rep P s.db s.privs K) (hl : s.log = []) : Post P K op K s := ⟨h, by rw [hl]; simp⟩

theorem post_write {op : Op} {K' : Spec.Group.Group} {db' : DB} (hl : s.log = []) (h : Rep P db' s.privs K') :
    Post P K op K' { s with db := db', log := s.log ++ [db'] } := by
  refine ⟨h, ?_⟩
  intro d hd
  rw [hl] at hd
  have : d = db' := by simpa using hd
  rw [this]
  exact ⟨_, .inr (.inl rfl), rep_restart h⟩

theorem write_ok {q : Stmt} {db' : DB} (h : exec s.db q = some db') : write q s = (.ok (), { s with db := db', log := s.log ++ [db'] }) := by
  unfold write
  rw [h]

theorem write_none {q : Stmt} (h : exec s.db q = none) : write q s = (.error .db, s) := by
  unfold write
  rw [h]

theorem res_of {m : M α} {f : α → Res} {a : α} {s' : St} (h : m s = (.ok a, s')) : m.res f s = (f a, s') := by
  unfold M.res
  rw [h]

theorem res_err {m : M α} {f : α → Res} {e : GErr} {s' : St} (h : m s = (.error e, s')) : m.res f s = (.error e, s') := by
  unfold M.res
  rw [h]

theorem done_of {op : Op} {rs : Res × St} {r : Res} {s' : St} {K' : Spec.Group.Group} (e : rs = (r, s')) (h1 : Spec.Group.Step P K op r K') (h2 : Post P K op K' s') :
    Done P K op rs := by
  subst e
  exact ⟨K', h1, h2⟩

theorem length_zero (n : String) : n.length = 0 ↔ n = "" := by
  simp

/-! ### Schedules -/

theorem addSchedule_post (h : Rep P s.db s.privs K) {n : String} (hne : n ≠ "") (hn : K.schedule n = none) {x : Schedule} (hx : Made x) :
    ∃ db', addSchedule n x s = (.ok (), { s with db := db', log := s.log ++ [db'] }) ∧ Rep P db' s.privs (K.setSchedule n x) := by
  obtain ⟨w, hw, hs⟩ := stored_of hx
  obtain ⟨db', e, h'⟩ := rep_insertSchedule h hn hs
  refine ⟨db', ?_, h'⟩
  unfold addSchedule
  rw [if_neg (fun c => hne ((length_zero n).mp c)), hw]
  exact (bind_eq (m := tried (.ok w)) (a := w) (s' := s) rfl).trans (write_ok e)

theorem addSchedule_done (h : Rep P s.db s.privs K) (hl : s.log = []) (n : String) {x : Schedule} (hx : Made x) :
    Done P K (.addSchedule n x) ((addSchedule n x).res (fun _ => .none) s) := by
  by_cases hne : n = ""
  · have e : addSchedule n x s = (.error .db, s) := by
      unfold addSchedule
      rw [if_pos ((length_zero n).mpr hne)]
      rfl
    refine done_of (res_err e) (K' := K) ?_ (post_same h hl)
    show fails _ _ _ _ _
    unfold fails
    rw [if_pos (.inl hne)]
    exact ⟨rfl, rfl⟩
  · cases hn : K.schedule n with
    | some y =>
      obtain ⟨w, hw, hs⟩ := stored_of hx
      have e : addSchedule n x s = (.error .db, s) := by
        unfold addSchedule
        rw [if_neg (fun c => hne ((length_zero n).mp c)), hw]
        refine (bind_eq (m := tried (.ok w)) (a := w) (s' := s) rfl).trans (write_none ?_)
        unfold exec
        dsimp only
        rw [if_pos (by rw [h.any_schedule, hn]; rfl)]
      refine done_of (res_err e) (K' := K) ?_ (post_same h hl)
      show fails _ _ _ _ _
      unfold fails
      rw [if_pos (.inr (by rw [hn]; rfl))]
      exact ⟨rfl, rfl⟩
    | none =>
      obtain ⟨db', e, h'⟩ := addSchedule_post h hne hn hx
      refine done_of (res_of e) ?_ (post_write hl h')
      show fails _ _ _ _ _
      unfold fails
      rw [if_neg (by rw [hn]; simp [hne])]
      exact ⟨rfl, rfl⟩

theorem updateSchedule_done (h : Rep P s.db s.privs K) (hl : s.log = []) (n : String) {x : Schedule} (hx : Made x) :
    Done P K (.updateSchedule n x) ((updateSchedule n x).res (fun _ => .none) s) := by
  cases hn : K.schedule n with
  | none =>
    have e0 : updateSchedule n x s = addSchedule n x s := by
      unfold updateSchedule hasSchedule
      rw [bind_select]
      rw [if_pos (by rw [h.find_schedule, hn]; rfl)]
    by_cases hne : n = ""
    · have e : addSchedule n x s = (.error .db, s) := by
        unfold addSchedule
        rw [if_pos ((length_zero n).mpr hne)]
        rfl
      refine done_of (res_err (e0.trans e)) (K' := K) ?_ (post_same h hl)
      show fails _ _ _ _ _
      unfold fails
      rw [if_pos ⟨hne, by rw [hn]; rfl⟩]
      exact ⟨rfl, rfl⟩
    · obtain ⟨db', e, h'⟩ := addSchedule_post h hne hn hx
      refine done_of (res_of (e0.trans e)) ?_ (post_write hl h')
      show fails _ _ _ _ _
      unfold fails
      rw [if_neg (by simp [hne])]
      exact ⟨rfl, rfl⟩
  | some y =>
    obtain ⟨w, hw, hs⟩ := stored_of hx
    obtain ⟨db', e, h'⟩ := rep_updateSchedule h hn hs
    have e0 : updateSchedule n x s = (.ok (), { s with db := db', log := s.log ++ [db'] }) := by
      unfold updateSchedule hasSchedule
      rw [bind_select, if_neg (by rw [h.find_schedule, hn]; simp), hw]
      exact (bind_eq (m := tried (.ok w)) (a := w) (s' := s) rfl).trans (write_ok e)
    refine done_of (res_of e0) ?_ (post_write hl h')
    show fails _ _ _ _ _
    unfold fails
    rw [if_neg (by rw [hn]; simp)]
    exact ⟨rfl, rfl⟩

theorem deleteSchedule_done (h : Rep P s.db s.privs K) (hl : s.log = []) (n : String) :
    Done P K (.deleteSchedule n) ((deleteSchedule n).res (fun _ => .none) s) := by
  obtain ⟨db', e, h'⟩ := rep_deleteSchedule h n
  refine done_of (res_of (write_ok e)) ?_ (post_write hl h')
  exact ⟨rfl, rfl⟩

theorem renameSchedule_done (h : Rep P s.db s.privs K) (hl : s.log = []) (old new : String) :
    Done P K (.renameSchedule old new) ((renameSchedule old new).res (fun _ => .none) s) := by
  by_cases hne : new = ""
  · have e : renameSchedule old new s = (.error .db, s) := by
      unfold renameSchedule
      rw [if_pos ((length_zero new).mpr hne)]
      rfl
    refine done_of (res_err e) (K' := K) ?_ (post_same h hl)
    show fails _ _ _ _ _
    unfold fails
    rw [if_pos (.inl hne)]
    exact ⟨rfl, rfl⟩
  have e1 : renameSchedule old new s = write (.renameSchedule old new) s := by
    unfold renameSchedule
    rw [if_neg (fun c => hne ((length_zero new).mp c))]
  by_cases hc : old ≠ new ∧ (K.schedule old).isSome ∧ (K.schedule new).isSome
  · refine done_of (res_err (e1.trans (write_none ?_))) (K' := K) ?_ (post_same h hl)
    · unfold exec
      dsimp only
      rw [h.any_schedule, h.any_schedule, if_pos hc]
    · show fails _ _ _ _ _
      unfold fails
      rw [if_pos (.inr hc)]
      exact ⟨rfl, rfl⟩
  · obtain ⟨db', e, h'⟩ := rep_renameSchedule h (old := old) (new := new) (by
      by_contra hcon
      simp only [not_or] at hcon
      exact hc ⟨hcon.1, Option.isSome_iff_ne_none.mpr hcon.2.1, Option.isSome_iff_ne_none.mpr hcon.2.2⟩)
    refine done_of (res_of (e1.trans (write_ok e))) ?_ (post_write hl h')
    show fails _ _ _ _ _
    unfold fails
    rw [if_neg (by rintro (a | a); exacts [hne a, hc a])]
    exact ⟨rfl, rfl⟩

/-! ### Members -/

theorem scheduleId_none (h : Rep P s.db s.privs K) {n : String} (hn : K.schedule n = none) : getScheduleId n s = (.ok none, s) := by
  show (Except.ok ((s.db.schedules.find? _).map _), s) = _
  rw [find_none_of (h.schedule_none hn)]
  rfl

theorem scheduleId_some (h : Rep P s.db s.privs K) {n : String} {x : Schedule} (hn : K.schedule n = some x) :
    ∃ r ∈ s.db.schedules, r.name = n ∧ getScheduleId n s = (.ok (some r.id), s) := by
  obtain ⟨r, hr, e, _, hf⟩ := h.schedule_some hn
  refine ⟨r, hr, e, ?_⟩
  show (Except.ok ((s.db.schedules.find? _).map _), s) = _
  rw [hf]
  rfl

theorem getPrefix_dropLast (k : Name) : getPrefix k (-1) = .ok k.dropLast := by
  have := Validator.getPrefix_neg k 1 (by omega)
  rw [List.dropLast_eq_take]
  exact this

theorem addMember_done (h : Rep P s.db s.privs K) (hl : s.log = []) (n : String) {k : Name} {key : Bytes} (hk : NameOk k) (hne : k ≠ []) (hok : KeyOk P.rsa key) :
    Done P K (.addMember n k key) ((addMember n k key).res (fun _ => .none) s) := by
  cases hn : K.schedule n with
  | none =>
    have e : addMember n k key s = (.error .db, s) := by
      unfold addMember
      exact (bind_eq (scheduleId_none h hn)).trans rfl
    refine done_of (res_err e) (K' := K) ?_ (post_same h hl)
    show fails _ _ _ _ _
    unfold fails
    rw [if_pos (.inl hn)]
    exact ⟨rfl, rfl⟩
  | some x =>
    obtain ⟨r, hr, e1, e2⟩ := scheduleId_some h hn
    have e3 : addMember n k key s = write (.insertMember r.id (encodeName k.dropLast) (encodeName k) key) s := by
      unfold addMember
      refine (bind_eq e2).trans ?_
      dsimp only
      rw [getPrefix_dropLast]
      exact bind_eq (m := lifted (.ok k.dropLast)) (a := k.dropLast) (s' := s) rfl
    cases hm : K.member k.dropLast with
    | some v =>
      refine done_of (res_err (e3.trans (write_none ?_))) (K' := K) ?_ (post_same h hl)
      · unfold exec
        dsimp only
        rw [if_pos (.inl (by rw [h.any_member (nameOk_dropLast hk), hm]; rfl))]
      · show fails _ _ _ _ _
        unfold fails
        rw [if_pos (.inr (by rw [hm]; rfl))]
        exact ⟨rfl, rfl⟩
    | none =>
      obtain ⟨db', e, h'⟩ := rep_insertMember h hn hr e1 hk hne hok hm
      refine done_of (res_of (e3.trans (write_ok e))) ?_ (post_write hl h')
      show fails _ _ _ _ _
      unfold fails
      rw [if_neg (by rw [hn, hm]; simp)]
      exact ⟨rfl, rfl⟩

theorem updateMember_done (h : Rep P s.db s.privs K) (hl : s.log = []) (n : String) {i : Name} (hi : NameOk i) :
    Done P K (.updateMemberSchedule i n) ((updateMemberSchedule i n).res (fun _ => .none) s) := by
  cases hn : K.schedule n with
  | none =>
    have e : updateMemberSchedule i n s = (.error .db, s) := by
      unfold updateMemberSchedule
      exact (bind_eq (scheduleId_none h hn)).trans rfl
    refine done_of (res_err e) (K' := K) ?_ (post_same h hl)
    show fails _ _ _ _ _
    unfold fails
    rw [if_pos hn]
    exact ⟨rfl, rfl⟩
  | some x =>
    obtain ⟨r, hr, e1, e2⟩ := scheduleId_some h hn
    obtain ⟨db', e, h'⟩ := rep_updateMember h hr e1 hi
    have e3 : updateMemberSchedule i n s = write (.updateMember r.id (encodeName i)) s := by
      unfold updateMemberSchedule
      exact (bind_eq e2).trans rfl
    refine done_of (res_of (e3.trans (write_ok e))) ?_ (post_write hl h')
    show fails _ _ _ _ _
    unfold fails
    rw [if_neg (by rw [hn]; simp)]
    exact ⟨rfl, rfl⟩

theorem deleteMember_done (h : Rep P s.db s.privs K) (hl : s.log = []) {i : Name} (hi : NameOk i) :
    Done P K (.deleteMember i) ((deleteMember i).res (fun _ => .none) s) := by
  obtain ⟨db', e, h'⟩ := rep_deleteMember h hi
  refine done_of (res_of (write_ok e)) ?_ (post_write hl h')
  exact ⟨rfl, rfl⟩

theorem listMembers_spec (hP : Sound P) (h : Rep P s.db s.privs K) : ∃ l, listAllMembers P s = (.ok l, s) ∧ l.Nodup ∧ ∀ i, i ∈ l ↔ (K.member i).isSome = true := by
  have hmem : ∀ m, m ∈ P.order s.db.members ↔ m ∈ s.db.members := fun m => (hP.order _).mem_iff
  obtain ⟨l, h1, h2⟩ := decodedNames_spec (s := s) (rows := P.order s.db.members) fun m hm => by
    obtain ⟨k, a, _, _, b, _⟩ := h.mrow m ((hmem m).mp hm)
    exact ⟨_, nameOk_dropLast a, b⟩
  refine ⟨l, ?_, ?_, ?_⟩
  · unfold listAllMembers
    rw [bind_select]
    exact h1
  · have hnd : ((P.order s.db.members).map (·.memberName)).Nodup := (((hP.order _).map _).nodup_iff).mpr h.mnames
    have : l.map encodeName = (P.order s.db.members).map (·.memberName) := by
      clear hnd hmem h1
      generalize P.order s.db.members = rows at h2
      induction h2 with
      | nil => rfl
      | cons hab _ ih => rw [List.map_cons, List.map_cons, hab.2, ih]
    rw [← this] at hnd
    exact List.Nodup.of_map _ hnd
  · intro i
    constructor
    · intro hi
      obtain ⟨m, hm, e1, e2⟩ := forall2_right h2 i hi
      obtain ⟨k, a, _, _, b, _, r, _, _, c⟩ := h.mrow m ((hmem m).mp hm)
      have : i = k.dropLast := enc_inj e1 (nameOk_dropLast a) (e2.symm.trans b)
      rw [this, c]
      rfl
    · intro hi
      obtain ⟨v, hv⟩ := Option.isSome_iff_exists.mp hi
      obtain ⟨a, m, hm, e⟩ := h.mval i v hv
      obtain ⟨j, hj, e1, e2⟩ := forall2_left h2 m ((hmem m).mpr hm)
      rw [enc_inj a e1 (e.symm.trans e2)]
      exact hj

theorem memberSchedule_eq (h : Rep P s.db s.privs K) {i : Name} (hi : NameOk i) :
    getMemberSchedule i s = (match K.member i with | some (n, _, _) => .ok n | none => .error .db, s) := by
  unfold getMemberSchedule
  rw [bind_select]
  cases hm : K.member i with
  | none =>
    rw [find_none_of (h.member_none hi hm)]
    rfl
  | some v =>
    obtain ⟨n, k, key⟩ := v
    obtain ⟨_, _, _, _, m, hm', e, _, _, r, hr, e3, e4⟩ := h.member_row hm
    have f1 : s.db.members.find? (fun m => decide (m.memberName = encodeName i)) = some m := by
      rw [← e]
      exact find_of_mem h.mnames hm'
    have f2 : s.db.schedules.find? (fun r => decide (r.id = m.scheduleId)) = some r := by
      rw [← e3]
      exact find_of_mem h.sids hr
    rw [f1]
    simp only [Option.bind_some]
    rw [f2]
    dsimp only
    rw [e4]
    rfl

/-! ### Group keys -/

theorem upd_upd {κ ν : Type} [DecidableEq κ] (f : κ → ν) (k : κ) (a b : ν) : upd (upd f k a) k b = upd f k b := by
  funext x
  unfold upd
  split <;> rfl

theorem hasEKey_eq (h : Rep P s.db s.privs K) {n : Name} (hn : NameOk n) : hasEKey n s = (.ok (K.ekey n).isSome, s) := by
  show (Except.ok (Option.isSome _), s) = _
  rw [h.find_ekey hn]

theorem addEKey_ok (h : Rep P s.db s.privs K) {n : Name} (hn : NameOk n) (hk : K.ekey n = none) (pub priv : Bytes) :
    ∃ db', addEKey n pub priv s = (.ok (), { db := db', privs := dictSet n priv s.privs, log := s.log ++ [db'] }) ∧
      Rep P db' (dictSet n priv s.privs) { K with ekey := upd K.ekey n (some (pub, some priv)) } := by
  obtain ⟨db', e, h1, _⟩ := rep_insertEKey h hn hk pub priv
  refine ⟨db', ?_, h1⟩
  unfold addEKey
  exact (bind_eq (write_ok e)).trans rfl

/-- The key pair. -/
theorem keyPair_spec (h : Rep P s.db s.privs K) (hl : s.log = []) {n : Name} (hn : NameOk n) (re : Bool) (t : ℚ) {env : Env} {priv pub : Bytes}
    (he : env.priv = some priv) (hd : P.rsa.derive priv = some pub) :
    ∃ s', keyPair P n re env s = ((pair K n re (pub, priv)).1, s') ∧ Post P K (.getGroupKey t re env) (pair K n re (pub, priv)).2 s' := by
  have hg : ∀ s1, generateKeyPair P env s1 = (.ok (priv, pub), s1) := by
    intro s1
    unfold generateKeyPair
    rw [he]
    dsimp only
    rw [hd]
    rfl
  have hgen : (K.ekey n = none ∨ re = true) → keyPair P n re env s = (do
      let (priv, pub) ← generateKeyPair P env
      if ← hasEKey n then
        deleteEKey n
        addEKey n pub priv
        return (pub, priv)
      else
        addEKey n pub priv
        return (pub, priv)) s := by
    intro hc
    unfold keyPair
    cases re with
    | true => rfl
    | false =>
      have hk : K.ekey n = none := by simpa using hc
      refine (bind_eq (hasEKey_eq h hn)).trans ?_
      rw [hk]
      rfl
  cases hk : K.ekey n with
  | none =>
    obtain ⟨db', e, h'⟩ := addEKey_ok h hn hk pub priv
    have hp : pair K n re (pub, priv) = (.ok (pub, priv), { K with ekey := upd K.ekey n (some (pub, some priv)) }) := by
      unfold pair
      rw [hk]
    rw [hp]
    refine ⟨{ db := db', privs := dictSet n priv s.privs, log := s.log ++ [db'] }, ?_, h', ?_⟩
    · rw [hgen (.inl hk)]
      refine (bind_eq (hg s)).trans ?_
      refine (bind_eq (hasEKey_eq h hn)).trans ?_
      rw [hk]
      exact (bind_eq e).trans rfl
    · intro d hd'
      rw [hl] at hd'
      have : d = db' := by simpa using hd'
      rw [this]
      exact ⟨_, .inr (.inl rfl), rep_restart h'⟩
  | some v =>
    obtain ⟨pub0, p0⟩ := v
    obtain ⟨hp0, r, hr, e1, e2, hf⟩ := h.ekey_some hk
    cases re with
    | false =>
      have e3 : keyPair P n false env s = getEKey n s := by
        unfold keyPair
        refine (bind_eq (hasEKey_eq h hn)).trans ?_
        rw [hk]
        rfl
      have e4 : getEKey n s = (p0.elim (.error (.py .key)) fun priv0 => .ok (pub0, priv0), s) := by
        unfold getEKey
        rw [bind_select, hf]
        dsimp only
        refine (bind_eq (m := getPrivs) (a := s.privs) (s' := s) rfl).trans ?_
        rw [hp0, e2]
        cases p0 <;> rfl
      refine ⟨s, ?_, ?_⟩
      · rw [e3, e4]
        unfold pair
        rw [hk]
        cases p0 <;> rfl
      · have : (pair K n false (pub, priv)).2 = K := by
          unfold pair
          rw [hk]
          cases p0 <;> rfl
        rw [this]
        exact post_same h hl
    | true =>
      obtain ⟨db1, x1, h1⟩ := rep_deleteEKey h hn
      have e3 : keyPair P n true env s = (do
          deleteEKey n
          addEKey n pub priv
          return (pub, priv)) s := by
        rw [hgen (.inr rfl)]
        refine (bind_eq (hg s)).trans ?_
        refine (bind_eq (hasEKey_eq h hn)).trans ?_
        rw [hk]
        rfl
      have hcr : ∃ C, Crashed K (.getGroupKey t true env) (pair K n true (pub, priv)).2 C ∧ Rep P db1 [] C :=
        ⟨_, .inr (.inr ⟨t, env, n, rfl, rfl⟩), rep_restart h1⟩
      cases p0 with
      | none =>
        have e4 : deleteEKey n s = (.error (.py .key), { s with db := db1, log := s.log ++ [db1] }) := by
          unfold deleteEKey
          refine (bind_eq (write_ok x1)).trans ?_
          refine (bind_eq (m := getPrivs) (a := s.privs) (s' := { s with db := db1, log := s.log ++ [db1] }) rfl).trans ?_
          rw [hp0]
          rfl
        refine ⟨{ s with db := db1, log := s.log ++ [db1] }, ?_, ?_, ?_⟩
        · rw [e3]
          have hp : (pair K n true (pub, priv)).1 = .error (.py .key) := by
            unfold pair
            rw [hk]
          rw [hp]
          show M.bind _ _ s = _
          unfold M.bind
          rw [e4]
        · have hp : (pair K n true (pub, priv)).2 = { K with ekey := upd K.ekey n none } := by
            unfold pair
            rw [hk]
          rw [hp]
          refine rep_congr h1 fun m => ?_
          rw [dictGet_del]
          split
          · next c => rw [c, hp0]
          · rfl
        · intro d hd'
          rw [hl] at hd'
          have : d = db1 := by simpa using hd'
          rw [this]
          exact hcr
      | some priv0 =>
        have e4 : deleteEKey n s = (.ok (), { db := db1, privs := dictDel n s.privs, log := s.log ++ [db1] }) := by
          unfold deleteEKey
          refine (bind_eq (write_ok x1)).trans ?_
          refine (bind_eq (m := getPrivs) (a := s.privs) (s' := { s with db := db1, log := s.log ++ [db1] }) rfl).trans ?_
          rw [hp0]
          rfl
        obtain ⟨db', e, h'⟩ := addEKey_ok (s := { db := db1, privs := dictDel n s.privs, log := s.log ++ [db1] }) h1 hn (by simp [upd]) pub priv
        have hp : pair K n true (pub, priv) = (.ok (pub, priv), { K with ekey := upd K.ekey n (some (pub, some priv)) }) := by
          unfold pair
          rw [hk]
        dsimp only at h'
        rw [upd_upd] at h'
        refine ⟨{ db := db', privs := dictSet n priv (dictDel n s.privs), log := s.log ++ [db1] ++ [db'] }, ?_, ?_, ?_⟩
        · rw [e3, hp]
          refine (bind_eq e4).trans ?_
          exact (bind_eq e).trans rfl
        · rw [hp]; exact h'
        · intro d hd'
          rw [hl] at hd'
          have : d = db1 ∨ d = db' := by simpa using hd'
          rcases this with rfl | rfl
          · exact hcr
          · rw [hp]
            exact ⟨_, .inr (.inl rfl), rep_restart h'⟩

theorem getGroupKey_done (hP : Sound P) (h : Rep P s.db s.privs K) (hl : s.log = []) {t : ℚ} {re : Bool} {env : Env}
    (hf : Fine P K (.getGroupKey t re env)) : Done P K (.getGroupKey t re env) ((getGroupKey P t re env).res .packets s) := by
  obtain ⟨hask, lo, hi, ⟨priv, pub, he, hd⟩, hr⟩ := hf
  obtain ⟨i, keys, c1, c2, c3, c4, c5⟩ := calc_spec hP h hask
  cases hv : i.isValid with
  | false =>
    have hno : ∀ n x, K.schedule n = some x → ¬ Allowed x t := fun n x hx hal => by
      have := c4.mpr ⟨n, x, hx, hal⟩
      rw [hv] at this
      cases this
    have e : getGroupKey P t re env s = (.ok [], s) := by
      unfold getGroupKey
      refine (bind_eq c1).trans ?_
      dsimp only
      rw [if_pos hv]
      rfl
    exact done_of (res_of e) ⟨priv, pub, he, hd, .inl ⟨hno, rfl, rfl⟩⟩ (post_same h hl)
  | true =>
    obtain ⟨⟨m1, m2⟩, ⟨a, b, ⟨a1, a2⟩, ⟨b1, b2⟩, ea, eb⟩, d1⟩ := c5 hv
    obtain ⟨ma, start, xa, ia, sa, va, ka, la⟩ := stamp_of a1 a2 lo hi ea
    obtain ⟨mb, stop, xb, ib, sb, vb, kb, lb⟩ := stamp_of b1 b2 lo hi eb
    subst ka kb
    have hname := ekeyName_ok hP la lb
    obtain ⟨s', k1, k2⟩ := keyPair_spec h hl hname re t he hd
    have e0 : getGroupKey P t re env s = (do
        let (pub, priv) ← keyPair P (P.space ++ [eKeyC, .generic va, .generic vb]) re env
        let data ← lifted (createEKeyData P (.generic va) (.generic vb) pub)
        let ds ← lifted (createDKeys P (.generic va) (.generic vb) priv env.rnd 0 (sortedKeys keys))
        return data :: ds) s := by
      unfold getGroupKey
      refine (bind_eq c1).trans ?_
      dsimp only
      rw [if_neg (by rw [hv]; simp), ia, ib]
      rfl
    have hsp : P.space ++ [eKeyC, .generic va, .generic vb] = P.pre ++ [readC] ++ P.dataType ++ [eKeyC, .generic va, .generic vb] := by rw [space_eq]
    have hmem : ∀ t' : ℚ, (ma : ℚ) ≤ t' → t' < mb → ∀ n x, K.schedule n = some x → (Allowed x t' ↔ Allowed x t) := fun t' h1 h2 =>
      d1 t' ⟨by rw [xa]; exact h1, by rw [xb]; exact h2⟩
    rw [xa] at m1
    rw [xb] at m2
    cases hp : (pair K (P.space ++ [eKeyC, .generic va, .generic vb]) re (pub, priv)).1 with
    | error e =>
      rw [hp] at k1
      have e1 : getGroupKey P t re env s = (.error e, s') := by
        rw [e0]
        show M.bind _ _ s = _
        unfold M.bind
        rw [k1]
      refine done_of (res_err e1) ⟨priv, pub, he, hd, .inr ⟨c4.mp hv, ma, mb, _, _, m1, m2, hmem, sa, sb, ?_⟩⟩ k2
      rw [← hsp]
      have : pair K (P.space ++ [eKeyC, .generic va, .generic vb]) re (pub, priv) = (.error e, (pair K (P.space ++ [eKeyC, .generic va, .generic vb]) re (pub, priv)).2) := by
        rw [← hp]
      rw [this]
      exact ⟨rfl, rfl⟩
    | ok pp =>
      obtain ⟨pub', priv'⟩ := pp
      rw [hp] at k1
      obtain ⟨e, f1, f2, f3, f4⟩ := hP.sign
        { name := P.space ++ [eKeyC, .generic va, .generic vb], metaInfo := { freshnessPeriod := some (P.freshnessHours * 3600000) }, content := some pub' }
      have hcan : ∀ k key, (k, key) ∈ keys → CanonicalName k ∧ KeyOk P.rsa key := by
        intro k key hk
        obtain ⟨j, n, x, hj, _, _⟩ := (c3 k key).mp hk
        obtain ⟨_, g1, _, g2, _⟩ := h.member_row hj
        exact ⟨g1.1, g2⟩
      obtain ⟨o1, o2⟩ := sorted_spec c2 fun k key hk => (hcan k key hk).1
      obtain ⟨ds, q1, q2⟩ := createDKeys_ok hP (start := .generic va) (stop := .generic vb) (priv := priv') hr (ms := sortedKeys keys) 0
        fun k key hk => hcan k key ((o2 _).mp hk)
      have e1 : getGroupKey P t re env s = (.ok (e :: ds), s') := by
        rw [e0]
        refine (bind_eq k1).trans ?_
        have : createEKeyData P (.generic va) (.generic vb) pub' = .ok e := f1
        dsimp only
        rw [this, q1]
        rfl
      refine done_of (res_of e1) ⟨priv, pub, he, hd, .inr ⟨c4.mp hv, ma, mb, _, _, m1, m2, hmem, sa, sb, ?_⟩⟩ k2
      rw [← hsp]
      have : pair K (P.space ++ [eKeyC, .generic va, .generic vb]) re (pub, priv) =
          (.ok (pub', priv'), (pair K (P.space ++ [eKeyC, .generic va, .generic vb]) re (pub, priv)).2) := by
        rw [← hp]
      rw [this]
      refine ⟨rfl, e :: ds, rfl, e, ds, sortedKeys keys, rfl, by rw [f2, space_eq], f4, by rw [f3], o1, ?_, q2⟩
      intro k key
      rw [o2, c3]

/-! ### Histories -/

theorem done_read {op : Op} {rs : Res × St} {r : Res} (h : Rep P s.db s.privs K) (hl : s.log = []) (e : rs = (r, s)) (h1 : Spec.Group.Step P K op r K) : Done P K op rs :=
  done_of e h1 (post_same h hl)

theorem call_done (hP : Sound P) (h : Rep P s.db s.privs K) (hl : s.log = []) {op : Op} (hf : Fine P K op) : Done P K op (call P op s) := by
  cases op with
  | addSchedule n x => exact addSchedule_done h hl n hf
  | deleteSchedule n => exact deleteSchedule_done h hl n
  | renameSchedule old new => exact renameSchedule_done h hl old new
  | updateSchedule n x => exact updateSchedule_done h hl n hf
  | hasSchedule n =>
    refine done_read h hl (r := .bool (K.schedule n).isSome) ?_ ⟨rfl, rfl⟩
    show (Res.bool (Option.isSome _), s) = _
    rw [h.find_schedule]
  | listAllScheduleNames =>
    obtain ⟨l, h1, h2⟩ := listNames_spec hP h
    exact done_read h hl (res_of h1) ⟨⟨l, rfl, h2⟩, rfl⟩
  | getSchedule n =>
    cases hn : K.schedule n with
    | none => exact done_read h hl (res_err (getSchedule_none h hn)) ⟨by rw [hn], rfl⟩
    | some x => exact done_read h hl (res_of (getSchedule_some h hn)) ⟨by rw [hn], rfl⟩
  | getScheduleMembers n =>
    obtain ⟨l, h1, h2⟩ := members_spec hP h n
    exact done_read h hl (res_of h1) ⟨⟨l, rfl, h2⟩, rfl⟩
  | addMember n k key => exact addMember_done h hl n hf.1 hf.2.1 hf.2.2
  | updateMemberSchedule i n => exact updateMember_done h hl n hf
  | deleteMember i => exact deleteMember_done h hl hf
  | hasMember i =>
    refine done_read h hl (r := .bool (K.member i).isSome) ?_ ⟨rfl, rfl⟩
    show (Res.bool (Option.isSome _), s) = _
    rw [h.find_member hf]
  | listAllMembers =>
    obtain ⟨l, h1, h2⟩ := listMembers_spec hP h
    exact done_read h hl (res_of h1) ⟨⟨l, rfl, h2⟩, rfl⟩
  | getMemberSchedule i =>
    have e := memberSchedule_eq h (i := i) hf
    cases hm : K.member i with
    | none =>
      rw [hm] at e
      exact done_read h hl (res_err e) ⟨by rw [hm], rfl⟩
    | some v =>
      rw [hm] at e
      exact done_read h hl (res_of e) ⟨by rw [hm], rfl⟩
  | cleanEKeys => exact done_read h hl rfl ⟨rfl, rfl⟩
  | getGroupKey t re env => exact getGroupKey_done hP h hl hf
  | restart => exact done_of rfl ⟨rfl, rfl⟩ ⟨rep_restart h, by rw [hl]; simp⟩

theorem step_done (hP : Sound P) (h : Rep P s.db s.privs K) {op : Op} (hf : Fine P K op) : Done P K op (step P op s) :=
  call_done hP (s := { s with log := [] }) h rfl hf

theorem run_spec (hP : Sound P) : ∀ {ops : List Op} {K : Spec.Group.Group} {s : St}, Rep P s.db s.privs K → FineAll P K ops →
    ∃ K', Agree P K ops (run P ops s).1 K' ∧ Rep P (run P ops s).2.db (run P ops s).2.privs K' := by
  intro ops
  induction ops with
  | nil => exact fun h _ => ⟨_, ⟨rfl, rfl⟩, h⟩
  | cons op ops ih =>
    intro K s h hf
    obtain ⟨K1, h1, h2, _⟩ := step_done hP h hf.1
    obtain ⟨K2, h3, h4⟩ := ih h2 (hf.2 _ _ h1)
    exact ⟨K2, ⟨_, K1, _, rfl, h1, h3⟩, h4⟩

/-! ### Claims -/

/-- For every history of calls and restarts, from an empty database, the calls give what the map gives. -/
theorem C76_map_partial (hP : Sound P) {ops : List Op} (hf : FineAll P {} ops) : ∃ K, Agree P {} ops (run P ops {}).1 K := by
  obtain ⟨K, h, _⟩ := run_spec hP (s := {}) rep_empty hf
  exact ⟨K, h⟩

/-- The end of the process at any commit of any call: the file then has the group of before the call, that of after it or, while an E-KEY is made
anew, the group without it, as every later history shows. -/
theorem C76_crash (hP : Sound P) {ops : List Op} (hf : FineAll P {} ops) : ∃ K, Agree P {} ops (run P ops {}).1 K ∧
    ∀ op, Fine P K op → ∃ K', Spec.Group.Step P K op (step P op (run P ops {}).2).1 K' ∧
      ∀ d ∈ (run P ops {}).2.db :: (step P op (run P ops {}).2).2.log, ∃ C, Crashed K op K' C ∧
        ∀ later, FineAll P C later → ∃ K'', Agree P C later (run P later { db := d }).1 K'' := by
  obtain ⟨K, h, hr⟩ := run_spec hP (s := {}) rep_empty hf
  refine ⟨K, h, fun op hop => ?_⟩
  obtain ⟨K', h1, _, h2⟩ := step_done hP hr hop
  refine ⟨K', h1, ?_⟩
  have key : ∀ d C, Rep P d [] C → ∀ later, FineAll P C later → ∃ K'', Agree P C later (run P later { db := d }).1 K'' := by
    intro d C hC later hl
    obtain ⟨K'', h3, _⟩ := run_spec hP (s := { db := d }) hC hl
    exact ⟨K'', h3⟩
  intro d hd
  rcases List.mem_cons.mp hd with rfl | hd
  · exact ⟨_, .inl rfl, key _ _ (rep_restart hr)⟩
  · obtain ⟨C, hC, hrep⟩ := h2 d hd
    exact ⟨C, hC, key _ _ hrep⟩

/-! ### The same key again -/

/-- The states have the same schedules and members. -/
def Same (s s' : St) : Prop := s.db.schedules = s'.db.schedules ∧ s.db.members = s'.db.members

/-- The computation only reads schedules and members. -/
def Reads (m : M α) : Prop := ∀ s s', Same s s' → (m s').1 = (m s).1 ∧ (m s).2 = s

theorem Reads.pure (a : α) : Reads (Pure.pure a : M α) := fun _ _ _ => ⟨rfl, rfl⟩
theorem Reads.raise (e : GErr) : Reads (raise e : M α) := fun _ _ _ => ⟨rfl, rfl⟩
theorem Reads.lifted (x : Except Err α) : Reads (lifted x) := by cases x <;> exact fun _ _ _ => ⟨rfl, rfl⟩
theorem Reads.tried (x : Except Err α) : Reads (tried x) := by cases x <;> exact fun _ _ _ => ⟨rfl, rfl⟩
theorem Reads.select {f : DB → α} (h : ∀ d d' : DB, d.schedules = d'.schedules → d.members = d'.members → f d' = f d) : Reads (select f) :=
  fun s s' hs => ⟨congrArg Except.ok (h _ _ hs.1 hs.2), rfl⟩

theorem Reads.bind {m : M α} {f : α → M β} (hm : Reads m) (hf : ∀ a, Reads (f a)) : Reads (m >>= f) := by
  intro s s' hs
  obtain ⟨h1, h2⟩ := hm s s' hs
  obtain ⟨_, h2'⟩ := hm s' s' ⟨rfl, rfl⟩
  show (M.bind m f s').1 = (M.bind m f s).1 ∧ (M.bind m f s).2 = s
  unfold M.bind
  have e1 : m s = ((m s).1, s) := Prod.ext rfl h2
  have e2 : m s' = ((m s).1, s') := Prod.ext h1 h2'
  rw [e1, e2]
  cases (m s).1 with
  | error e => exact ⟨rfl, rfl⟩
  | ok a => exact hf a s s' hs

theorem reads_decoded : ∀ rows, Reads (decodedMembers rows)
  | [] => .pure _
  | _ :: rows => (Reads.tried _).bind fun _ => (reads_decoded rows).bind fun _ => .pure _

theorem reads_loop (t : ℚ) : ∀ names pos neg keys, Reads (loop P t names pos neg keys) := by
  intro names
  induction names with
  | nil => exact fun _ _ _ => .pure _
  | cons n names ih =>
    intro pos neg keys
    unfold loop getSchedule getScheduleMembers
    refine Reads.bind (.bind (.select fun d d' h1 h2 => by rw [h1]) fun r => ?_) fun x => .bind (.lifted _) fun v => ?_
    · cases r with
      | none => exact .raise _
      | some r => exact .tried _
    · obtain ⟨b, temp⟩ := v
      dsimp only
      cases b
      · simp only [Bool.false_eq_true, if_false]
        exact .bind (.lifted _) fun _ => ih _ _ _
      · simp only [if_true]
        refine .bind (.lifted _) fun _ => .bind (.bind (.select fun d d' h1 h2 => by rw [h1, h2]) fun rows => .bind (reads_decoded _) fun _ => .pure _) fun _ => ih _ _ _

theorem reads_calculate (t : ℚ) : Reads (calculateInterval P t) := by
  unfold calculateInterval listAllScheduleNames
  refine .bind (.select fun d d' h1 h2 => by rw [h1]) fun names => .bind (reads_loop _ _ _ _ _) fun v => ?_
  obtain ⟨pos, neg, keys⟩ := v
  dsimp only
  split
  · exact .pure _
  · split
    · exact .bind (.lifted _) fun _ => .pure _
    · exact .pure _

theorem ok_bind {m : M α} {f : α → M β} {b : β} {s s' : St} (h : (m >>= f) s = (.ok b, s')) : ∃ a s1, m s = (.ok a, s1) ∧ f a s1 = (.ok b, s') := by
  have h : M.bind m f s = _ := h
  unfold M.bind at h
  split at h
  next a s1 he => exact ⟨a, s1, he, h⟩
  next => cases h

theorem ok_lifted {x : Except Err α} {a : α} {s s' : St} (h : lifted x s = (.ok a, s')) : x = .ok a ∧ s' = s := by
  cases x with
  | error e => cases h
  | ok b => cases h; exact ⟨rfl, rfl⟩

theorem ok_write {q : Stmt} {s s' : St} (h : write q s = (.ok (), s')) : ∃ db', exec s.db q = some db' ∧ s' = { s with db := db', log := s.log ++ [db'] } := by
  unfold write at h
  split at h
  next db he => cases h; exact ⟨db, he, rfl⟩
  next => cases h

theorem find_append {α : Type} (p : α → Bool) {l : List α} {x : α} (hl : ∀ y ∈ l, p y = false) (hx : p x = true) : (l ++ [x]).find? p = some x := by
  induction l with
  | nil => simp [hx]
  | cons y l ih =>
    rw [List.cons_append, List.find?_cons, hl y (by simp)]
    exact ih fun z hz => hl z (List.mem_cons_of_mem _ hz)

theorem addEKey_stored {n : Name} {pub priv : Bytes} {s s' : St} (h : addEKey n pub priv s = (.ok (), s')) :
    Same s s' ∧ (s'.db.ekeys.find? fun r => decide (r.name = encodeName n)) = some ⟨nextId (s.db.ekeys.map (·.id)), encodeName n, pub⟩ ∧ dictGet n s'.privs = some priv := by
  unfold addEKey at h
  obtain ⟨_, s1, h1, h⟩ := ok_bind h
  obtain ⟨db', he, rfl⟩ := ok_write h1
  cases h
  unfold exec at he
  dsimp only at he
  split at he
  · cases he
  next hc =>
  cases he
  refine ⟨⟨rfl, rfl⟩, find_append _ ?_ (by simp), ?_⟩
  · intro y hy
    by_contra hcon
    exact hc (List.any_eq_true.mpr ⟨y, hy, by simpa using hcon⟩)
  · show dictGet n (dictSet n priv s.privs) = _
    rw [dictGet_set, if_pos rfl]

theorem same_trans {a b c : St} (h1 : Same a b) (h2 : Same b c) : Same a c := ⟨h1.1.trans h2.1, h1.2.trans h2.2⟩

theorem deleteEKey_same {n : Name} {s s' : St} (h : deleteEKey n s = (.ok (), s')) : Same s s' := by
  unfold deleteEKey at h
  obtain ⟨_, s1, h1, h⟩ := ok_bind h
  obtain ⟨db', he, rfl⟩ := ok_write h1
  cases he
  obtain ⟨p, s2, h2, h⟩ := ok_bind h
  cases h2
  dsimp only at h
  cases hg : dictGet n s.privs with
  | none => rw [hg] at h; cases h
  | some v => rw [hg] at h; cases h; exact ⟨rfl, rfl⟩

theorem keyPair_stored {n : Name} {re : Bool} {env : Env} {pub priv : Bytes} {s s' : St} (h : keyPair P n re env s = (.ok (pub, priv), s')) :
    Same s s' ∧ ∃ r, (s'.db.ekeys.find? fun r => decide (r.name = encodeName n)) = some r ∧ r.pub = pub ∧ dictGet n s'.privs = some priv := by
  unfold keyPair at h
  have hgen : ∀ {s}, (do
      let (priv, pub) ← generateKeyPair P env
      if ← hasEKey n then
        deleteEKey n
        addEKey n pub priv
        return (pub, priv)
      else
        addEKey n pub priv
        return (pub, priv) : M (Bytes × Bytes)) s = (.ok (pub, priv), s') →
      Same s s' ∧ ∃ r, (s'.db.ekeys.find? fun r => decide (r.name = encodeName n)) = some r ∧ r.pub = pub ∧ dictGet n s'.privs = some priv := by
    intro s h
    obtain ⟨⟨priv1, pub1⟩, s1, h1, h0⟩ := ok_bind h
    clear h
    have h := h0
    clear h0
    have e1 : s1 = s := by
      unfold generateKeyPair at h1
      cases hp : env.priv with
      | none => rw [hp] at h1; cases h1
      | some p =>
        rw [hp] at h1
        dsimp only at h1
        cases hd : P.rsa.derive p with
        | none => rw [hd] at h1; cases h1
        | some q => rw [hd] at h1; cases h1; rfl
    subst e1
    dsimp only at h
    obtain ⟨b, s2, h2, hh⟩ := ok_bind h
    cases h2
    split at hh
    · obtain ⟨_, s3, h3, hh⟩ := ok_bind hh
      obtain ⟨_, s4, h4, hh⟩ := ok_bind hh
      cases hh
      obtain ⟨a, b, c⟩ := addEKey_stored h4
      exact ⟨same_trans (deleteEKey_same h3) a, _, b, rfl, c⟩
    · obtain ⟨_, s4, h4, hh⟩ := ok_bind hh
      cases hh
      obtain ⟨a, b, c⟩ := addEKey_stored h4
      exact ⟨a, _, b, rfl, c⟩
  obtain ⟨b, s1, h1, h⟩ := ok_bind h
  cases h1
  split at h
  · unfold getEKey at h
    obtain ⟨o, s2, h2, h⟩ := ok_bind h
    cases h2
    dsimp only at h
    cases hr : s.db.ekeys.find? (fun r => decide (r.name = encodeName n)) with
    | none => rw [hr] at h; cases h
    | some r =>
      rw [hr] at h
      obtain ⟨p, s3, h3, h⟩ := ok_bind h
      cases h3
      cases hp : dictGet n s.privs with
      | none => rw [hp] at h; cases h
      | some priv0 =>
        rw [hp] at h
        cases h
        exact ⟨⟨rfl, rfl⟩, r, hr, rfl, hp⟩
  · exact hgen h

theorem keyPair_again {n : Name} {env : Env} {pub priv : Bytes} {s : St} {r : EKeyRow}
    (hf : (s.db.ekeys.find? fun r => decide (r.name = encodeName n)) = some r) (hp : r.pub = pub) (hd : dictGet n s.privs = some priv) :
    keyPair P n false env s = (.ok (pub, priv), s) := by
  have e1 : hasEKey n s = (.ok true, s) := by
    show (Except.ok (Option.isSome _), s) = _
    rw [hf]
    rfl
  unfold keyPair
  refine (bind_eq e1).trans ?_
  show getEKey n s = _
  unfold getEKey
  rw [bind_select, hf]
  dsimp only
  refine (bind_eq (m := getPrivs) (a := s.privs) (s' := s) rfl).trans ?_
  rw [hd, hp]
  rfl

/-- When `getGroupKey` has given packets, then `getGroupKey` with needRegenerate False gives the same E-KEY packet (with the same private key in the
D-KEYs), whatever is generated or random, and the database is as before.  This needs no condition on names, keys or schedules. -/
theorem C76_same_key {t : ℚ} {re : Bool} {env env' : Env} {d d' : Data} {ds ds' : List Data} {s s1 : St}
    (h : step P (.getGroupKey t re env) s = (.packets (d :: ds), s1)) :
    (∀ r s2, step P (.getGroupKey t false env') s1 = (r, s2) → s2.db = s1.db ∧ s2.privs = s1.privs) ∧
    ∀ s2, step P (.getGroupKey t false env') s1 = (.packets (d' :: ds'), s2) → d' = d ∧
      ∃ (start stop : Component) (priv : Bytes) (keys : List (Name × Bytes)), createDKeys P start stop priv env.rnd 0 keys = .ok ds ∧
        createDKeys P start stop priv env'.rnd 0 keys = .ok ds' := by
  have of_res : ∀ {env : Env} {re : Bool} {s s1 : St} {l : List Data}, step P (.getGroupKey t re env) s = (.packets l, s1) →
      getGroupKey P t re env { s with log := [] } = (.ok l, s1) := by
    intro env re s s1 l h
    have h : M.res (getGroupKey P t re env) .packets { s with log := [] } = _ := h
    unfold M.res at h
    split at h
    next a s' he => cases h; exact he
    next => cases h
  have h := of_res h
  unfold getGroupKey at h
  obtain ⟨⟨i, keys⟩, sa, c1, h⟩ := ok_bind h
  have ea : sa = { s with log := [] } := by
    have := (reads_calculate (P := P) t { s with log := [] } { s with log := [] } ⟨rfl, rfl⟩).2
    rw [c1] at this
    exact this
  subst ea
  dsimp only at h
  split at h
  · cases h
  next hv =>
  obtain ⟨start, sb, c2, h2⟩ := ok_bind h
  obtain ⟨k2', rfl⟩ := ok_lifted c2
  obtain ⟨stop, sb', c3, h3⟩ := ok_bind h2
  obtain ⟨k3', rfl⟩ := ok_lifted c3
  obtain ⟨⟨pub, priv⟩, sc, c4, h4⟩ := ok_bind h3
  dsimp only at h4
  obtain ⟨d0, sd, c5, h5⟩ := ok_bind h4
  obtain ⟨k5', rfl⟩ := ok_lifted c5
  obtain ⟨ds0, se, c6, h6⟩ := ok_bind h5
  obtain ⟨k6', rfl⟩ := ok_lifted c6
  cases h6
  obtain ⟨hs, r, hf, hp, hd⟩ := keyPair_stored c4
  have k : calculateInterval P t { s1 with log := [] } = (.ok (i, keys), { s1 with log := [] }) := by
    obtain ⟨a, _⟩ := reads_calculate (P := P) t { s with log := [] } { s1 with log := [] } hs
    have b := (reads_calculate (P := P) t { s1 with log := [] } { s1 with log := [] } ⟨rfl, rfl⟩).2
    rw [c1] at a
    exact Prod.ext a b
  have k4 : keyPair P (P.space ++ [eKeyC, start, stop]) false env' { s1 with log := [] } = (.ok (pub, priv), { s1 with log := [] }) :=
    keyPair_again (s := { s1 with log := [] }) hf hp hd
  have key : getGroupKey P t false env' { s1 with log := [] } = Result { s1 with log := [] } (do
      let ds ← createDKeys P start stop priv env'.rnd 0 (sortedKeys keys)
      return d :: ds) := by
    unfold getGroupKey
    refine (bind_eq k).trans ?_
    dsimp only
    rw [if_neg hv, k2', k3']
    refine (bind_eq (m := lifted (.ok start)) (a := start) (s' := { s1 with log := [] }) rfl).trans ?_
    refine (bind_eq (m := lifted (.ok stop)) (a := stop) (s' := { s1 with log := [] }) rfl).trans ?_
    refine (bind_eq k4).trans ?_
    dsimp only
    rw [k5']
    refine (bind_eq (m := lifted (.ok d)) (a := d) (s' := { s1 with log := [] }) rfl).trans ?_
    exact bind_lifted fun _ _ => rfl
  have key2 : step P (.getGroupKey t false env') s1 = M.res (getGroupKey P t false env') .packets { s1 with log := [] } := rfl
  constructor
  · intro r' s2 h2
    rw [key2] at h2
    unfold M.res at h2
    rw [key] at h2
    cases hx : createDKeys P start stop priv env'.rnd 0 (sortedKeys keys) <;> rw [hx] at h2 <;> cases h2 <;> exact ⟨rfl, rfl⟩
  · intro s2 h2
    have h2 := of_res h2
    rw [key] at h2
    cases hx : createDKeys P start stop priv env'.rnd 0 (sortedKeys keys) with
    | error e => rw [hx] at h2; cases h2
    | ok l =>
      rw [hx] at h2
      cases h2
      exact ⟨rfl, start, stop, priv, sortedKeys keys, k6', hx⟩

end PyNDN.Group
