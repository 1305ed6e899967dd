import Verif.Lemmas.GroupInterval
import Verif.Lemmas.PibSqlite
/-
The tables of a group manager represent the maps of the specification.
-/
namespace PyNDN.Group
open Encrypt EncV1 Spec Spec.Group
open _root_.PyNDN.Spec.PibSqlite (upd NameOk)
open PSync (dictGet dictSet dictDel)

/-! ### Rows -/

theorem foldl_max : ∀ (l : List Nat) (m : Nat), m ≤ l.foldl max m ∧ ∀ i ∈ l, i ≤ l.foldl max m := by
  intro l
  induction l with
  | nil => intro m; exact ⟨le_refl _, (fun _ h => nomatch h)⟩
  | cons a l ih =>
    intro m
    obtain ⟨h1, h2⟩ := ih (max m a)
    simp only [List.foldl_cons]
    refine ⟨by omega, fun i hi => ?_⟩
    rcases List.mem_cons.mp hi with rfl | hi
    · omega
    · exact h2 i hi

theorem lt_nextId {l : List Nat} {i : Nat} (h : i ∈ l) : i < nextId l := by
  unfold nextId
  have := (foldl_max l 0).2 i h
  omega

theorem nodup_inj {α β : Type} {f : α → β} {t : List α} (h : (t.map f).Nodup) {r s : α} (hr : r ∈ t) (hs : s ∈ t) (e : f r = f s) : r = s := by
  induction t with
  | nil => cases hr
  | cons x t ih =>
    rw [List.map_cons, List.nodup_cons] at h
    rcases List.mem_cons.mp hr with h1 | h1 <;> rcases List.mem_cons.mp hs with h2 | h2
    · rw [h1, h2]
    · subst h1; exact absurd (e ▸ List.mem_map_of_mem h2) h.1
    · subst h2; exact absurd (e ▸ List.mem_map_of_mem h1) h.1
    · exact ih h.2 h1 h2

theorem find_of_mem {α β : Type} [DecidableEq β] {f : α → β} {t : List α} (h : (t.map f).Nodup) {r : α} (hr : r ∈ t) :
    t.find? (fun x => decide (f x = f r)) = some r := by
  cases hf : t.find? (fun x => decide (f x = f r)) with
  | none =>
    have := List.find?_eq_none.mp hf r hr
    simp at this
  | some x =>
    have h1 := List.find?_some hf
    have h2 := List.mem_of_find?_eq_some hf
    rw [nodup_inj h h2 hr (by simpa using h1)]

theorem find_none_of {α β : Type} [DecidableEq β] {f : α → β} {t : List α} {b : β} (h : ∀ r ∈ t, f r ≠ b) :
    t.find? (fun x => decide (f x = b)) = none := List.find?_eq_none.mpr fun r hr => by simpa using h r hr

theorem enc_inj {n m : Name} (hn : NameOk n) (hm : NameOk m) (h : encodeName n = encodeName m) : n = m := PibSqlite.enc_inj hn hm h

theorem decode_enc {n : Name} (h : NameOk n) : decodeName (encodeName n) = .ok n := by
  have := C09_roundtrip n h.1 h.2 []
  rwa [List.append_nil] at this

/-! ### The representation -/

/-- The encoding of a schedule that can be decoded. -/
def Stored (w : Bytes) (x : Schedule) : Prop := Made x ∧ x.wireEncode = .ok w

theorem Stored.decode {w : Bytes} {x : Schedule} (h : Stored w x) : Schedule.wireDecode w = .ok x := by
  obtain ⟨⟨⟨cs, hc, rfl⟩, hl⟩, hw⟩ := h
  obtain ⟨w', h1, h2⟩ := C50_roundtrip_partial hc
  rw [hw] at h1
  cases h1
  exact h2 (hl _ hw)

theorem stored_of {x : Schedule} (h : Made x) : ∃ w, x.wireEncode = .ok w ∧ Stored w x := by
  obtain ⟨⟨cs, hc, rfl⟩, hl⟩ := h
  obtain ⟨w, h1, _⟩ := C50_roundtrip_partial hc
  exact ⟨w, h1, ⟨⟨cs, hc, rfl⟩, hl⟩, h1⟩

structure Rep (P : Params) (db : DB) (privs : List (Name × Bytes)) (K : Spec.Group.Group) : Prop where
  sids : (db.schedules.map (·.id)).Nodup
  snames : (db.schedules.map (·.name)).Nodup
  srow : ∀ r ∈ db.schedules, ∃ x, K.schedule r.name = some x ∧ Stored r.schedule x
  sval : ∀ n x, K.schedule n = some x → ∃ r ∈ db.schedules, r.name = n
  mnames : (db.members.map (·.memberName)).Nodup
  mrow : ∀ m ∈ db.members, ∃ k, NameOk k ∧ k ≠ [] ∧ KeyOk P.rsa m.pubkey ∧ m.memberName = encodeName k.dropLast ∧ m.keyName = encodeName k ∧
    ∃ r ∈ db.schedules, r.id = m.scheduleId ∧ K.member k.dropLast = some (r.name, k, m.pubkey)
  mval : ∀ i v, K.member i = some v → NameOk i ∧ ∃ m ∈ db.members, m.memberName = encodeName i
  enames : (db.ekeys.map (·.name)).Nodup
  erow : ∀ r ∈ db.ekeys, ∃ n, NameOk n ∧ r.name = encodeName n ∧ K.ekey n = some (r.pub, dictGet n privs)
  eval : ∀ n v, K.ekey n = some v → NameOk n ∧ ∃ r ∈ db.ekeys, r.name = encodeName n
  inMemory : ∀ n, (dictGet n privs).isSome = true → (K.ekey n).isSome = true

variable {P : Params} {db : DB} {privs : List (Name × Bytes)} {K : Spec.Group.Group}

theorem rep_empty : Rep P {} [] {} := by
  constructor <;> simp [dictGet]

theorem rep_restart (h : Rep P db privs K) : Rep P db [] K.reopened := by
  unfold Spec.Group.Group.reopened
  refine { h with erow := ?_, eval := ?_, inMemory := ?_ }
  · intro r hr
    obtain ⟨n, h1, h2, h3⟩ := h.erow r hr
    exact ⟨n, h1, h2, by simp [h3, dictGet]⟩
  · intro n v hv
    cases hk : K.ekey n with
    | none => simp [hk] at hv
    | some x => exact h.eval n x hk
  · intro n hn
    cases hn

theorem nameOk_dropLast {n : Name} (h : NameOk n) : NameOk n.dropLast := by
  refine ⟨fun c hc => h.1 c (List.dropLast_subset _ hc), ?_⟩
  have h2 := h.2
  by_cases hn : n = []
  · subst hn; exact h2
  · rw [← List.dropLast_concat_getLast hn] at h2
    have e2 : Spec.nameFields (n.dropLast ++ [n.getLast hn]) = Spec.nameFields n.dropLast ++ Spec.nameFields [n.getLast hn] := by
      simp [Spec.nameFields]
    rw [e2, flat_append, List.length_append] at h2
    omega

/-! ### Selecting -/

theorem Rep.schedule_none (h : Rep P db privs K) {n : String} (hn : K.schedule n = none) : ∀ r ∈ db.schedules, r.name ≠ n := by
  rintro r hr rfl
  obtain ⟨x, hx, _⟩ := h.srow r hr
  rw [hn] at hx
  cases hx

theorem Rep.schedule_some (h : Rep P db privs K) {n : String} {x : Schedule} (hn : K.schedule n = some x) :
    ∃ r ∈ db.schedules, r.name = n ∧ Stored r.schedule x ∧ db.schedules.find? (fun r => decide (r.name = n)) = some r := by
  obtain ⟨r, hr, rfl⟩ := h.sval n x hn
  obtain ⟨y, hy, hs⟩ := h.srow r hr
  rw [hn] at hy
  cases hy
  exact ⟨r, hr, rfl, hs, find_of_mem h.snames hr⟩

theorem Rep.find_schedule (h : Rep P db privs K) (n : String) :
    (db.schedules.find? (fun r => decide (r.name = n))).isSome = (K.schedule n).isSome := by
  cases hn : K.schedule n with
  | none => rw [find_none_of (h.schedule_none hn)]; rfl
  | some x =>
    obtain ⟨r, _, _, _, hf⟩ := h.schedule_some hn
    rw [hf]; rfl

theorem Rep.any_schedule (h : Rep P db privs K) (n : String) :
    (db.schedules.any fun r => decide (r.name = n)) = (K.schedule n).isSome := by
  rw [← h.find_schedule n, List.isSome_find?]

/-- The row of a member. -/
theorem Rep.member_row (h : Rep P db privs K) {i : Name} {n : String} {k : Name} {key : Bytes} (hm : K.member i = some (n, k, key)) :
    i = k.dropLast ∧ NameOk k ∧ k ≠ [] ∧ KeyOk P.rsa key ∧ ∃ m ∈ db.members, m.memberName = encodeName i ∧ m.keyName = encodeName k ∧ m.pubkey = key ∧
      ∃ r ∈ db.schedules, r.id = m.scheduleId ∧ r.name = n := by
  obtain ⟨hi, m, hmem, he⟩ := h.mval _ _ hm
  obtain ⟨k', hk, hne, hok, e1, e2, r, hr, e3, e4⟩ := h.mrow m hmem
  have : i = k'.dropLast := enc_inj hi (nameOk_dropLast hk) (he.symm.trans e1)
  subst this
  rw [hm] at e4
  cases e4
  exact ⟨rfl, hk, hne, hok, m, hmem, he, e2, rfl, r, hr, e3, rfl⟩

theorem Rep.member_none (h : Rep P db privs K) {i : Name} (hi : NameOk i) (hm : K.member i = none) : ∀ m ∈ db.members, m.memberName ≠ encodeName i := by
  intro m hmem e
  obtain ⟨k, hk, hne, _, e1, _, r, hr, e3, e4⟩ := h.mrow m hmem
  have : i = k.dropLast := enc_inj hi (nameOk_dropLast hk) (e.symm.trans e1)
  subst this
  rw [hm] at e4
  cases e4

theorem Rep.find_member (h : Rep P db privs K) {i : Name} (hi : NameOk i) :
    (db.members.find? (fun r => decide (r.memberName = encodeName i))).isSome = (K.member i).isSome := by
  cases hm : K.member i with
  | none => rw [find_none_of (h.member_none hi hm)]; rfl
  | some v =>
    obtain ⟨n, k, key⟩ := v
    obtain ⟨_, _, _, _, m, hmem, e, _⟩ := h.member_row hm
    rw [← e, find_of_mem h.mnames hmem]; rfl

theorem Rep.any_member (h : Rep P db privs K) {i : Name} (hi : NameOk i) :
    (db.members.any fun r => decide (r.memberName = encodeName i)) = (K.member i).isSome := by
  rw [← h.find_member hi, List.isSome_find?]

/-- The schedule of a member that is in the row exists. -/
theorem Rep.schedule_of_id (h : Rep P db privs K) {m : MemberRow} (hm : m ∈ db.members) {n : String} :
    (db.schedules.any fun r => decide (r.name = n ∧ r.id = m.scheduleId)) = true ↔ ∃ i k, K.member i = some (n, k, m.pubkey) ∧ m.keyName = encodeName k ∧
      m.memberName = encodeName i ∧ i = k.dropLast ∧ NameOk k := by
  obtain ⟨k, hk, hne, hok, e1, e2, r, hr, e3, e4⟩ := h.mrow m hm
  rw [List.any_eq_true]
  constructor
  · rintro ⟨r', hr', e⟩
    simp only [decide_eq_true_eq] at e
    have : r = r' := nodup_inj h.sids hr hr' (e3.trans e.2.symm)
    subst this
    rw [e.1] at e4
    exact ⟨_, k, e4, e2, e1, rfl, hk⟩
  · rintro ⟨i, k', e5, e6, e7, e8, hk'⟩
    have : k' = k := enc_inj hk' hk (e6.symm.trans e2)
    subst this
    subst e8
    rw [e4] at e5
    injection e5 with e5
    injection e5 with e5
    exact ⟨r, hr, by simp [e5, e3]⟩

theorem Rep.ekey_none (h : Rep P db privs K) {n : Name} (hn : NameOk n) (hk : K.ekey n = none) : ∀ r ∈ db.ekeys, r.name ≠ encodeName n := by
  intro r hr e
  obtain ⟨m, hm, e1, e2⟩ := h.erow r hr
  have : n = m := enc_inj hn hm (e.symm.trans e1)
  subst this
  rw [hk] at e2
  cases e2

theorem Rep.ekey_some (h : Rep P db privs K) {n : Name} {pub : Bytes} {p : Option Bytes} (hk : K.ekey n = some (pub, p)) :
    dictGet n privs = p ∧ ∃ r ∈ db.ekeys, r.name = encodeName n ∧ r.pub = pub ∧
      db.ekeys.find? (fun r => decide (r.name = encodeName n)) = some r := by
  obtain ⟨hn, r, hr, e⟩ := h.eval n _ hk
  obtain ⟨m, hm, e1, e2⟩ := h.erow r hr
  have : n = m := enc_inj hn hm (e.symm.trans e1)
  subst this
  rw [hk] at e2
  cases e2
  refine ⟨rfl, r, hr, e, rfl, ?_⟩
  rw [← e]
  exact find_of_mem h.enames hr

theorem Rep.find_ekey (h : Rep P db privs K) {n : Name} (hn : NameOk n) :
    (db.ekeys.find? (fun r => decide (r.name = encodeName n))).isSome = (K.ekey n).isSome := by
  cases hk : K.ekey n with
  | none => rw [find_none_of (h.ekey_none hn hk)]; rfl
  | some v =>
    obtain ⟨pub, p⟩ := v
    obtain ⟨_, r, _, _, _, hf⟩ := h.ekey_some hk
    rw [hf]; rfl

/-! ### Statements -/

theorem map_find {α β : Type} {f : α → α} {g : α → β} (h : ∀ x, g (f x) = g x) (t : List α) : (t.map f).map g = t.map g := by
  simp [Function.comp_def, h]

theorem rep_insertSchedule (h : Rep P db privs K) {n : String} (hn : K.schedule n = none) {x : Schedule} {w : Bytes} (hs : Stored w x) :
    ∃ db', exec db (.insertSchedule n w) = some db' ∧ Rep P db' privs (K.setSchedule n x) := by
  have hnm := h.schedule_none hn
  refine ⟨_, by unfold exec; dsimp only; rw [if_neg (by rw [h.any_schedule, hn]; simp)], ?_⟩
  refine { h with sids := ?_, snames := ?_, srow := ?_, sval := ?_, mrow := ?_ }
  · dsimp only
    rw [List.map_append, List.nodup_append]
    refine ⟨h.sids, by simp, ?_⟩
    intro a ha b hb e
    simp only [List.map_cons, List.map_nil, List.mem_singleton] at hb
    have := lt_nextId ha
    omega
  · dsimp only
    rw [List.map_append, List.nodup_append]
    refine ⟨h.snames, by simp, ?_⟩
    intro a ha b hb e
    obtain ⟨r, hr, rfl⟩ := List.mem_map.mp ha
    simp only [List.map_cons, List.map_nil, List.mem_singleton] at hb
    exact hnm r hr (e.trans hb)
  · intro r hr
    rcases List.mem_append.mp hr with hr | hr
    · obtain ⟨y, h1, h2⟩ := h.srow r hr
      refine ⟨y, ?_, h2⟩
      show upd K.schedule n (some x) r.name = some y
      unfold upd
      rw [if_neg (hnm r hr)]
      exact h1
    · rw [List.mem_singleton.mp hr]
      exact ⟨x, by show upd K.schedule n (some x) n = _; simp [upd], hs⟩
  · intro m y hy
    change upd K.schedule n (some x) m = some y at hy
    unfold upd at hy
    split at hy
    · next e => exact ⟨_, List.mem_append_right _ (List.mem_singleton.mpr rfl), e.symm⟩
    · obtain ⟨r, hr, e⟩ := h.sval m y hy
      exact ⟨r, List.mem_append_left _ hr, e⟩
  · intro m hm
    obtain ⟨k, a, b, c, d, e, r, hr, f⟩ := h.mrow m hm
    exact ⟨k, a, b, c, d, e, r, List.mem_append_left _ hr, f⟩

theorem rep_updateSchedule (h : Rep P db privs K) {n : String} {x y : Schedule} (hn : K.schedule n = some y) {w : Bytes} (hs : Stored w x) :
    ∃ db', exec db (.updateSchedule n w) = some db' ∧ Rep P db' privs (K.setSchedule n x) := by
  refine ⟨_, rfl, ?_⟩
  have hid : ∀ r : ScheduleRow, (if r.name = n then { r with schedule := w } else r).id = r.id := by intro r; split <;> rfl
  have hname : ∀ r : ScheduleRow, (if r.name = n then { r with schedule := w } else r).name = r.name := by intro r; split <;> rfl
  refine { h with sids := ?_, snames := ?_, srow := ?_, sval := ?_, mrow := ?_ }
  · dsimp only; rw [map_find hid]; exact h.sids
  · dsimp only; rw [map_find hname]; exact h.snames
  · intro r hr
    obtain ⟨r', hr', rfl⟩ := List.mem_map.mp hr
    show ∃ z, upd K.schedule n (some x) _ = some z ∧ _
    unfold upd
    rw [hname]
    split
    · exact ⟨x, rfl, hs⟩
    · exact h.srow r' hr'
  · intro m z hz
    change upd K.schedule n (some x) m = some z at hz
    have : ∃ z', K.schedule m = some z' := by
      unfold upd at hz
      split at hz
      · next e => exact ⟨y, e ▸ hn⟩
      · exact ⟨z, hz⟩
    obtain ⟨z', hz'⟩ := this
    obtain ⟨r, hr, e⟩ := h.sval m z' hz'
    exact ⟨_, List.mem_map_of_mem hr, (hname r).trans e⟩
  · intro m hm
    obtain ⟨k, a, b, c, d, e, r, hr, f1, f2⟩ := h.mrow m hm
    exact ⟨k, a, b, c, d, e, _, List.mem_map_of_mem hr, (hid r).trans f1, by rw [hname]; exact f2⟩

theorem rep_deleteSchedule (h : Rep P db privs K) (n : String) :
    ∃ db', exec db (.deleteSchedule n) = some db' ∧ Rep P db' privs (K.deleteSchedule n) := by
  refine ⟨_, rfl, ?_⟩
  refine { h with sids := (List.filter_sublist.map _).nodup h.sids, snames := (List.filter_sublist.map _).nodup h.snames,
                  mnames := (List.filter_sublist.map _).nodup h.mnames, srow := ?_, sval := ?_, mrow := ?_, mval := ?_ }
  · intro r hr
    obtain ⟨hr, hne⟩ := List.mem_filter.mp hr
    obtain ⟨y, h1, h2⟩ := h.srow r hr
    refine ⟨y, ?_, h2⟩
    show upd K.schedule n none r.name = some y
    unfold upd
    rw [if_neg (by simpa using hne)]
    exact h1
  · intro m y hy
    change upd K.schedule n none m = some y at hy
    unfold upd at hy
    split at hy
    · cases hy
    · next hne =>
      obtain ⟨r, hr, e⟩ := h.sval m y hy
      exact ⟨r, List.mem_filter.mpr ⟨hr, by simpa [e] using hne⟩, e⟩
  · intro m hm
    obtain ⟨hm, hne⟩ := List.mem_filter.mp hm
    obtain ⟨k, a, b, c, d, e, r, hr, f1, f2⟩ := h.mrow m hm
    have hrn : r.name ≠ n := by
      intro hrn
      have : (db.schedules.any fun r => decide (r.name = n ∧ r.id = m.scheduleId)) = true := List.any_eq_true.mpr ⟨r, hr, by simp [hrn, f1]⟩
      rw [this] at hne
      cases hne
    refine ⟨k, a, b, c, d, e, r, List.mem_filter.mpr ⟨hr, by simpa using hrn⟩, f1, ?_⟩
    simp only [Spec.Group.Group.deleteSchedule, f2, if_neg hrn]
  · intro i v hv
    simp only [Spec.Group.Group.deleteSchedule] at hv
    split at hv
    · next n' k key hm =>
      split at hv
      · cases hv
      · next hne =>
        obtain ⟨hi, m, hmem, e⟩ := h.mval _ _ hm
        refine ⟨hi, m, List.mem_filter.mpr ⟨hmem, ?_⟩, e⟩
        rw [Bool.not_eq_true', ← Bool.not_eq_true, h.schedule_of_id hmem]
        rintro ⟨i', k', e1, e2, e3, e4, e5⟩
        have : i = i' := enc_inj hi (e4 ▸ nameOk_dropLast e5) (e.symm.trans e3)
        subst this
        rw [hm] at e1
        cases e1
        exact hne rfl
    · cases hv

theorem rep_renameSchedule (h : Rep P db privs K) {old new : String} (hn : old = new ∨ K.schedule old = none ∨ K.schedule new = none) :
    ∃ db', exec db (.renameSchedule old new) = some db' ∧
      Rep P db' privs (if (K.schedule old).isSome then K.renameSchedule old new else K) := by
  have hx : exec db (.renameSchedule old new) =
      some { db with schedules := db.schedules.map fun r => if r.name = old then { r with name := new } else r } := by
    unfold exec
    dsimp only
    rw [if_neg]
    rintro ⟨h1, h2, h3⟩
    rw [h.any_schedule] at h2 h3
    rcases hn with hn | hn | hn
    · exact h1 hn
    · rw [hn] at h2; cases h2
    · rw [hn] at h3; cases h3
  refine ⟨_, hx, ?_⟩
  cases ho : K.schedule old with
  | none =>
    have : (db.schedules.map fun r => if r.name = old then { r with name := new } else r) = db.schedules := by
      have hh := h.schedule_none ho
      conv_rhs => rw [← List.map_id db.schedules]
      refine List.map_congr_left fun r hr => ?_
      rw [if_neg (hh r hr)]; rfl
    rw [this]
    exact h
  | some x =>
    have hid : ∀ r : ScheduleRow, (if r.name = old then { r with name := new } else r).id = r.id := by intro r; split <;> rfl
    have hsch : ∀ r : ScheduleRow, (if r.name = old then { r with name := new } else r).schedule = r.schedule := by intro r; split <;> rfl
    have hname : ∀ r : ScheduleRow, (if r.name = old then { r with name := new } else r).name = if r.name = old then new else r.name := by
      intro r; split <;> rfl
    have hfree : ∀ r ∈ db.schedules, r.name ≠ old → r.name ≠ new := by
      intro r hr hne e
      rcases hn with rfl | hn | hn
      · exact hne e
      · rw [ho] at hn; cases hn
      · exact h.schedule_none hn r hr e
    simp only [Option.isSome_some, if_true]
    refine { h with sids := ?_, snames := ?_, srow := ?_, sval := ?_, mrow := ?_, mval := ?_ }
    · dsimp only; rw [map_find hid]; exact h.sids
    · dsimp only
      rw [List.map_map]
      refine List.Nodup.map_on ?_ (List.Nodup.of_map _ h.snames)
      intro a ha b hb e
      simp only [Function.comp_apply, hname] at e
      refine nodup_inj h.snames ha hb ?_
      split at e <;> split at e
      · next p q => exact p.trans q.symm
      · next p q => exact absurd e.symm (hfree b hb q)
      · next p q => exact absurd e (hfree a ha p)
      · exact e
    · intro r0 hr0
      obtain ⟨r, hr, rfl⟩ := List.mem_map.mp hr0
      obtain ⟨y, h1, h2⟩ := h.srow r hr
      refine ⟨y, ?_, by rw [hsch]; exact h2⟩
      rw [hname]
      simp only [Spec.Group.Group.renameSchedule, upd]
      by_cases e : r.name = old
      · rw [if_pos e, if_pos rfl, ← e]; exact h1
      · rw [if_neg e, if_neg (hfree r hr e), if_neg e]; exact h1
    · intro m y hy
      simp only [Spec.Group.Group.renameSchedule, upd] at hy
      split at hy
      · next e =>
        obtain ⟨r, hr, e'⟩ := h.sval old y hy
        exact ⟨_, List.mem_map_of_mem hr, by rw [hname, if_pos e', e]⟩
      · split at hy
        · cases hy
        · next e1 e2 =>
          obtain ⟨r, hr, e'⟩ := h.sval m y hy
          exact ⟨_, List.mem_map_of_mem hr, by rw [hname, if_neg (by rw [e']; exact e2), e']⟩
    · intro m hm
      obtain ⟨k, a, b, c, d, e, r, hr, f1, f2⟩ := h.mrow m hm
      refine ⟨k, a, b, c, d, e, _, List.mem_map_of_mem hr, (hid r).trans f1, ?_⟩
      simp only [Spec.Group.Group.renameSchedule, f2, hname, Option.map_some]
    · intro i v hv
      simp only [Spec.Group.Group.renameSchedule] at hv
      cases hm : K.member i with
      | none => rw [hm] at hv; cases hv
      | some u => exact h.mval i u hm

theorem rep_insertMember (h : Rep P db privs K) {n : String} {x : Schedule} (hn : K.schedule n = some x) {r : ScheduleRow} (hr : r ∈ db.schedules)
    (hrn : r.name = n) {k : Name} (hk : NameOk k) (hne : k ≠ []) {key : Bytes} (hok : KeyOk P.rsa key) (hm : K.member k.dropLast = none) :
    ∃ db', exec db (.insertMember r.id (encodeName k.dropLast) (encodeName k) key) = some db' ∧
      Rep P db' privs { K with member := upd K.member k.dropLast (some (n, k, key)) } := by
  have hkd := nameOk_dropLast hk
  refine ⟨_, by unfold exec; dsimp only; rw [if_neg (by
    rw [h.any_member hkd, hm]
    rintro (h1 | h1)
    · cases h1
    · exact h1 (List.any_eq_true.mpr ⟨r, hr, by simp⟩))], ?_⟩
  refine { h with mnames := ?_, mrow := ?_, mval := ?_ }
  · dsimp only
    rw [List.map_append, List.nodup_append]
    refine ⟨h.mnames, by simp, ?_⟩
    intro a ha b hb e
    obtain ⟨m, hmem, rfl⟩ := List.mem_map.mp ha
    simp only [List.map_cons, List.map_nil, List.mem_singleton] at hb
    exact h.member_none hkd hm m hmem (e.trans hb)
  · intro m hmem
    rcases List.mem_append.mp hmem with hmem | hmem
    · obtain ⟨k', a, b, c, d, e, r', hr', f1, f2⟩ := h.mrow m hmem
      refine ⟨k', a, b, c, d, e, r', hr', f1, ?_⟩
      simp only [upd]
      rw [if_neg]
      · exact f2
      · intro e'
        rw [e'] at f2
        rw [hm] at f2
        cases f2
    · rw [List.mem_singleton.mp hmem]
      exact ⟨k, hk, hne, hok, rfl, rfl, r, hr, rfl, by simp [upd, hrn]⟩
  · intro i v hv
    simp only [upd] at hv
    split at hv
    · next e => exact ⟨e ▸ hkd, _, List.mem_append_right _ (List.mem_singleton.mpr rfl), by rw [e]⟩
    · obtain ⟨a, m, hmem, e⟩ := h.mval i v hv
      exact ⟨a, m, List.mem_append_left _ hmem, e⟩

theorem rep_updateMember (h : Rep P db privs K) {n : String} {r : ScheduleRow} (hr : r ∈ db.schedules)
    (hrn : r.name = n) {i : Name} (hi : NameOk i) :
    ∃ db', exec db (.updateMember r.id (encodeName i)) = some db' ∧
      Rep P db' privs { K with member := upd K.member i ((K.member i).map fun (_, k, key) => (n, k, key)) } := by
  refine ⟨_, by unfold exec; dsimp only; rw [if_neg (by
    rintro ⟨_, h1⟩
    exact h1 (List.any_eq_true.mpr ⟨r, hr, by simp⟩))], ?_⟩
  have h1 : ∀ m : MemberRow, (if m.memberName = encodeName i then { m with scheduleId := r.id } else m).memberName = m.memberName := by
    intro m; split <;> rfl
  have h2 : ∀ m : MemberRow, (if m.memberName = encodeName i then { m with scheduleId := r.id } else m).keyName = m.keyName := by
    intro m; split <;> rfl
  have h3 : ∀ m : MemberRow, (if m.memberName = encodeName i then { m with scheduleId := r.id } else m).pubkey = m.pubkey := by
    intro m; split <;> rfl
  refine { h with mnames := ?_, mrow := ?_, mval := ?_ }
  · dsimp only; rw [map_find h1]; exact h.mnames
  · intro m0 hmem0
    obtain ⟨m, hmem, rfl⟩ := List.mem_map.mp hmem0
    obtain ⟨k, a, b, c, d, e, r', hr', f1, f2⟩ := h.mrow m hmem
    rw [h1, h2, h3]
    by_cases em : m.memberName = encodeName i
    · have : k.dropLast = i := enc_inj (nameOk_dropLast a) hi (d.symm.trans em)
      refine ⟨k, a, b, c, d, e, r, hr, by rw [if_pos em], ?_⟩
      simp only [upd]
      rw [if_pos this, ← this, f2, hrn]
      rfl
    · refine ⟨k, a, b, c, d, e, r', hr', by rw [if_neg em]; exact f1, ?_⟩
      simp only [upd]
      rw [if_neg]
      · exact f2
      · intro e'
        exact em (d.trans (by rw [e']))
  · intro j v hv
    have : ∃ v', K.member j = some v' := by
      simp only [upd] at hv
      split at hv
      · next e =>
        cases hm : K.member i with
        | none => rw [hm] at hv; cases hv
        | some u => exact ⟨u, e ▸ hm⟩
      · exact ⟨v, hv⟩
    obtain ⟨v', hv'⟩ := this
    obtain ⟨a, m, hmem, e⟩ := h.mval j v' hv'
    exact ⟨a, _, List.mem_map_of_mem hmem, (h1 m).trans e⟩

theorem rep_deleteMember (h : Rep P db privs K) {i : Name} (hi : NameOk i) :
    ∃ db', exec db (.deleteMember (encodeName i)) = some db' ∧ Rep P db' privs { K with member := upd K.member i none } := by
  refine ⟨_, rfl, ?_⟩
  refine { h with mnames := (List.filter_sublist.map _).nodup h.mnames, mrow := ?_, mval := ?_ }
  · intro m hmem
    obtain ⟨hmem, hne⟩ := List.mem_filter.mp hmem
    obtain ⟨k, a, b, c, d, e, r, hr, f1, f2⟩ := h.mrow m hmem
    refine ⟨k, a, b, c, d, e, r, hr, f1, ?_⟩
    simp only [upd]
    rw [if_neg]
    · exact f2
    · intro e'
      rw [d, e'] at hne
      simp at hne
  · intro j v hv
    simp only [upd] at hv
    split at hv
    · cases hv
    · next hne =>
      obtain ⟨a, m, hmem, e⟩ := h.mval j v hv
      exact ⟨a, m, List.mem_filter.mpr ⟨hmem, by
        simp only [decide_eq_true_eq, ne_eq]
        intro e'
        exact hne (enc_inj a hi (e.symm.trans e'))⟩, e⟩

theorem dictGet_set {κ ν : Type} [DecidableEq κ] (k k' : κ) (v : ν) : ∀ d : List (κ × ν), dictGet k' (dictSet k v d) = if k' = k then some v else dictGet k' d := by
  intro d
  induction d with
  | nil =>
    simp only [dictSet, dictGet]
    by_cases e : k' = k
    · simp [e]
    · rw [if_neg e, if_neg (Ne.symm e)]
  | cons x d ih =>
    obtain ⟨a, b⟩ := x
    simp only [dictSet]
    split
    · next e =>
      subst e
      simp only [dictGet]
      by_cases e : k' = a
      · simp [e]
      · rw [if_neg (Ne.symm e), if_neg e, if_neg (Ne.symm e)]
    · next e =>
      simp only [dictGet, ih]
      by_cases e' : a = k'
      · rw [if_pos e', if_pos e', if_neg (by rw [← e']; exact e)]
      · rw [if_neg e', if_neg e']

theorem dictGet_del {κ ν : Type} [DecidableEq κ] (k k' : κ) : ∀ d : List (κ × ν), dictGet k' (dictDel k d) = if k' = k then none else dictGet k' d := by
  intro d
  unfold dictDel
  induction d with
  | nil => simp [dictGet]
  | cons x d ih =>
    obtain ⟨a, b⟩ := x
    by_cases e : a = k
    · subst e
      rw [List.filter_cons_of_neg (by simp), ih]
      simp only [dictGet]
      by_cases e : k' = a
      · rw [if_pos e, if_pos e]
      · rw [if_neg e, if_neg e, if_neg (Ne.symm e)]
    · rw [List.filter_cons_of_pos (by simpa using e)]
      simp only [dictGet, ih]
      by_cases e' : a = k'
      · rw [if_pos e', if_pos e', if_neg (by rw [← e']; exact e)]
      · rw [if_neg e', if_neg e']

theorem rep_insertEKey (h : Rep P db privs K) {n : Name} (hn : NameOk n) (hk : K.ekey n = none) (pub priv : Bytes) :
    ∃ db', exec db (.insertEKey (encodeName n) pub) = some db' ∧ Rep P db' (dictSet n priv privs) { K with ekey := upd K.ekey n (some (pub, some priv)) } ∧
      Rep P db' [] { K with ekey := fun m => (upd K.ekey n (some (pub, some priv)) m).map fun (pub, _) => (pub, none) } := by
  have key : ∃ db', exec db (.insertEKey (encodeName n) pub) = some db' ∧
      Rep P db' (dictSet n priv privs) { K with ekey := upd K.ekey n (some (pub, some priv)) } := by
    refine ⟨_, by unfold exec; dsimp only; rw [if_neg (by rw [← List.isSome_find?, h.find_ekey hn, hk]; simp)], ?_⟩
    refine { h with enames := ?_, erow := ?_, eval := ?_, inMemory := ?_ }
    · dsimp only
      rw [List.map_append, List.nodup_append]
      refine ⟨h.enames, by simp, ?_⟩
      intro a ha b hb e
      obtain ⟨m, hmem, rfl⟩ := List.mem_map.mp ha
      simp only [List.map_cons, List.map_nil, List.mem_singleton] at hb
      exact h.ekey_none hn hk m hmem (e.trans hb)
    · intro r hr
      rcases List.mem_append.mp hr with hr | hr
      · obtain ⟨m, hm, e1, e2⟩ := h.erow r hr
        have : m ≠ n := by
          rintro rfl
          rw [hk] at e2; cases e2
        refine ⟨m, hm, e1, ?_⟩
        simp only [upd, dictGet_set]
        rw [if_neg this, if_neg this]
        exact e2
      · rw [List.mem_singleton.mp hr]
        exact ⟨n, hn, rfl, by simp [upd, dictGet_set]⟩
    · intro m v hv
      simp only [upd] at hv
      split at hv
      · next e => exact ⟨e ▸ hn, _, List.mem_append_right _ (List.mem_singleton.mpr rfl), by rw [e]⟩
      · obtain ⟨a, r, hr, e⟩ := h.eval m v hv
        exact ⟨a, r, List.mem_append_left _ hr, e⟩
    · intro m hm
      simp only [upd]
      rw [dictGet_set] at hm
      split
      · rfl
      · next e => rw [if_neg e] at hm; exact h.inMemory m hm
  obtain ⟨db', h1, h2⟩ := key
  exact ⟨db', h1, h2, rep_restart h2⟩

theorem rep_deleteEKey (h : Rep P db privs K) {n : Name} (hn : NameOk n) :
    ∃ db', exec db (.deleteEKey (encodeName n)) = some db' ∧ Rep P db' (dictDel n privs) { K with ekey := upd K.ekey n none } := by
  refine ⟨_, rfl, ?_⟩
  refine { h with enames := (List.filter_sublist.map _).nodup h.enames, erow := ?_, eval := ?_, inMemory := ?_ }
  · intro r hr
    obtain ⟨hr, hne⟩ := List.mem_filter.mp hr
    obtain ⟨m, hm, e1, e2⟩ := h.erow r hr
    have : m ≠ n := by
      rintro rfl
      rw [e1] at hne
      simp at hne
    refine ⟨m, hm, e1, ?_⟩
    simp only [upd, dictGet_del]
    rw [if_neg this, if_neg this]
    exact e2
  · intro m v hv
    simp only [upd] at hv
    split at hv
    · cases hv
    · next hne =>
      obtain ⟨a, r, hr, e⟩ := h.eval m v hv
      exact ⟨a, r, List.mem_filter.mpr ⟨hr, by
        simp only [decide_eq_true_eq, ne_eq]
        intro e'
        exact hne (enc_inj a hn (e.symm.trans e'))⟩, e⟩
  · intro m hm
    simp only [upd]
    rw [dictGet_del] at hm
    split
    · next e => rw [if_pos e] at hm; cases hm
    · next e => rw [if_neg e] at hm; exact h.inMemory m hm

end PyNDN.Group
