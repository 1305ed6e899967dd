import Verif.Lemmas.PibSqlite
/-
Lemmas for C74: the statements on what the database stands for.
-/
namespace PyNDN.PibSqlite
open Spec.PibSqlite (NameOk CertOk Pib up upd)

/-- Identities have no parent. -/
def G0 (g : Name) (i : Nat) : Prop := g = [] ∧ i = 0

/-- The row of the parent. -/
def GT (t : Table) (g : Name) (i : Nat) : Prop := NameOk g ∧ ∃ r ∈ t, r.name = encodeName g ∧ r.id = i

theorem G0_functional : Functional G0 := ⟨fun _ _ _ h h' => h.1.trans h'.1.symm, fun _ _ _ h h' => h.2.trans h'.2.symm⟩

theorem GT_functional {t : Table} (hi : (t.map (·.id)).Nodup) (hn : (t.map (·.name)).Nodup) : Functional (GT t) := by
  refine ⟨?_, ?_⟩
  · rintro g g' i ⟨h1, r, hr, e, q⟩ ⟨h1', r', hr', e', q'⟩
    have : r = r' := nodup_inj hi hr hr' (q.trans q'.symm)
    subst this
    exact enc_inj h1 h1' (e.symm.trans e')
  · rintro g i i' ⟨h1, r, hr, e, q⟩ ⟨h1', r', hr', e', q'⟩
    have : r = r' := nodup_inj hn hr hr' (e.trans e'.symm)
    subst this
    exact q.symm.trans q'

theorem GT_append {t u : Table} {g : Name} {i : Nat} (h : GT t g i) : GT (t ++ u) g i := by
  obtain ⟨h1, r, hr, q⟩ := h
  exact ⟨h1, r, List.mem_append_left _ hr, q⟩

theorem GT_setDefault {t : Table} {n : Bytes} {g : Name} {i : Nat} (h : GT t g i) : GT (t.setDefault n) g i := by
  obtain ⟨h1, r, hr, q1, q2⟩ := h
  refine ⟨h1, ?_⟩
  unfold Table.setDefault
  split
  · exact ⟨r, hr, q1, q2⟩
  · dsimp only
    split
    · exact ⟨_, List.mem_map.mpr ⟨r, hr, rfl⟩, by split <;> exact q1, by split <;> exact q2⟩
    · refine ⟨_, List.mem_map.mpr ⟨_, List.mem_map.mpr ⟨r, hr, rfl⟩, rfl⟩, ?_, ?_⟩
      · split <;> split <;> exact q1
      · split <;> split <;> exact q2

theorem GT_setData {t : Table} {n d : Bytes} {g : Name} {i : Nat} (h : GT t g i) : GT (t.setData n d) g i := by
  obtain ⟨h1, r, hr, q1, q2⟩ := h
  exact ⟨h1, _, List.mem_map.mpr ⟨r, hr, rfl⟩, by split <;> exact q1, by split <;> exact q2⟩

def idVal (K : Pib) (n : Name) : Option Unit := if K.identity n then some () else none
def idDef (K : Pib) (g : Name) : Option Name := if g = [] then K.default else none

/-- The certificate and its encoding. -/
def Wire (b : Bytes) (c : Data) : Prop := CertOk c ∧ ∃ x y, encodeData c = .ok (b, x, y)

/-- The database stands for the PIB. -/
structure Rep (db : DB) (K : Pib) : Prop where
  ids : TRep G0 (fun _ => []) (fun _ _ => True) db.identities (idVal K) (idDef K)
  keys : TRep (GT db.identities) up (· = ·) db.keys K.key K.defaultKey
  certs : TRep (GT db.keys) up Wire db.certs K.cert K.defaultCert
  tpm : (db.tpmInfo = [] ∧ K.locator = []) ∨ (db.tpmInfo = [K.locator] ∧ K.locator ≠ [])

theorem trep_empty {β : Type} (G : Name → Nat → Prop) (group : Name → Name) (D : Bytes → β → Prop) :
    TRep G group D [] (fun _ => none) (fun _ => none) :=
  ⟨List.nodup_nil, List.nodup_nil, fun _ h => (nomatch h), fun _ _ h => (nomatch h), fun _ _ h => (nomatch h), fun _ h => (nomatch h)⟩

theorem rep_empty : Rep {} {} := by
  refine ⟨?_, trep_empty .., trep_empty .., .inl ⟨rfl, rfl⟩⟩
  have h1 : idVal {} = fun _ => none := rfl
  have h2 : idDef {} = fun _ => none := by funext g; unfold idDef; split <;> rfl
  rw [h1, h2]
  exact trep_empty ..

variable {db : DB} {K : Pib}

theorem Rep.fi (h : Rep db K) : Functional (GT db.identities) := GT_functional h.ids.ids h.ids.names
theorem Rep.fk (h : Rep db K) : Functional (GT db.keys) := GT_functional h.keys.ids h.keys.names

theorem idVal_some {n : Name} (h : K.identity n = true) : idVal K n = some () := by simp [idVal, h]
theorem idVal_none {n : Name} (h : K.identity n = false) : idVal K n = none := by simp [idVal, h]

/-! ### Identities -/

theorem rep_insertIdentity (h : Rep db K) {n : Name} (hn : NameOk n) (hi : K.identity n = false) :
    ∃ db', exec db (.insertIdentity (encodeName n)) = some db' ∧ Rep db' (K.addIdentity n) := by
  obtain ⟨h1, h2⟩ := h.ids.insert G0_functional hn (idVal_none hi) ⟨rfl, rfl⟩ (d := []) (v := ()) trivial
  refine ⟨{ db with identities := db.identities ++ [newRow db.identities 0 (encodeName n) []] }, by simp only [exec, h1]; rfl, ?_, h.keys.congr fun r _ g => GT_append, h.certs, h.tpm⟩
  have e1 : idVal (K.addIdentity n) = upd (idVal K) n (some ()) := by
    funext m
    by_cases q : m = n <;> simp [idVal, Pib.addIdentity, upd, q]
  have e2 : idDef (K.addIdentity n) = upd (idDef K) [] (idDef K [] <|> some n) := by
    funext g
    by_cases q : g = [] <;> simp [idDef, Pib.addIdentity, upd, q]
  rw [e1, e2]
  exact h2

theorem rep_defaultIdentity (h : Rep db K) {n : Name} (hi : K.identity n = true) :
    ∃ db', exec db (.defaultIdentity (encodeName n)) = some db' ∧ Rep db' { K with default := some n } := by
  have h2 := h.ids.setDefault G0_functional (idVal_some hi)
  refine ⟨_, rfl, ?_, h.keys.congr fun r _ g => GT_setDefault, h.certs, h.tpm⟩
  have e2 : idDef { K with default := some n } = upd (idDef K) [] (some n) := by
    funext g
    by_cases q : g = [] <;> simp [idDef, upd, q]
  rw [e2]
  exact h2

/-! ### Deletion -/

section
variable {α β : Type} {Gp : Name → Nat → Prop} {gp : Name → Name} {Dp : Bytes → α → Prop} {tp tc : Table} {vp : Name → Option α}
  {dp : Name → Option Name} {D : Bytes → β → Prop} {val : Name → Option β} {dflt : Name → Option Name}

theorem cascaded (hp : TRep Gp gp Dp tp vp dp) (hc : TRep (GT tp) up D tc val dflt) (kill : Name → Bool) (p : Row → Bool)
    (hpk : ∀ r ∈ tp, ∀ n, NameOk n → r.name = encodeName n → p r = kill n) {r : Row} (hr : r ∈ tc) {c : Name} (hn : NameOk c)
    (e : r.name = encodeName c) : (List.any (tp.filter p) fun x => decide (x.id = r.parent)) = kill (up c) := by
  obtain ⟨⟨h1, x, hx, e', q⟩, _⟩ := hc.rowOf hr hn e
  have hk := hpk x hx _ h1 e'
  cases hkill : kill (up c) with
  | true => exact List.any_eq_true.mpr ⟨x, List.mem_filter.mpr ⟨hx, hk.trans hkill⟩, by simpa using q⟩
  | false =>
    rw [List.any_eq_false]
    intro y hy
    obtain ⟨hy, hpy⟩ := List.mem_filter.mp hy
    intro q'
    have : y = x := nodup_inj hp.ids hy hx (by rw [q]; simpa using q')
    subst this
    rw [hk, hkill] at hpy
    cases hpy

theorem cascade_rep (hp : TRep Gp gp Dp tp vp dp) (hc : TRep (GT tp) up D tc val dflt) (kill : Name → Bool) (p : Row → Bool)
    (hpk : ∀ r ∈ tp, ∀ n, NameOk n → r.name = encodeName n → p r = kill n) :
    TRep (GT (tp.filter fun r => !p r)) up D (tc.cascade (tp.filter p)) (fun c => if !kill (up c) then val c else none)
      (fun g => (dflt g).filter fun c => !kill (up c)) := by
  have h1 := hc.filter (fun c => !kill (up c)) (fun x => !((tp.filter p).any fun r => r.id = x.parent)) fun r hr n hn e => by
    rw [cascaded hp hc kill p hpk hr hn e]
  refine h1.congr fun r hr g hg => ?_
  obtain ⟨hr, hrk⟩ := List.mem_filter.mp hr
  obtain ⟨hg1, x, hx, e, q⟩ := hg
  refine ⟨hg1, x, List.mem_filter.mpr ⟨hx, ?_⟩, e, q⟩
  cases hpx : p x with
  | false => rfl
  | true =>
    have : (List.any (tp.filter p) fun y => decide (y.id = r.parent)) = true :=
      List.any_eq_true.mpr ⟨x, List.mem_filter.mpr ⟨hx, hpx⟩, by simpa using q⟩
    rw [this] at hrk
    cases hrk

/-- What is left of the defaults. -/
theorem filtered (hc : TRep (GT tp) up D tc val dflt) (kill : Name → Bool) :
    (fun g => (dflt g).filter fun c => !kill (up c)) = fun g => if kill g then none else dflt g := by
  funext g
  cases hg : dflt g with
  | none => simp
  | some c =>
    have := (hc.hdflt _ _ hg).1
    rw [this]
    cases hk : kill (up c) <;> simp [Option.filter, hk]

end

theorem not_if {α : Type} (b : Bool) (x y : α) : (if (!b) = true then x else y) = if b = true then y else x := by cases b <;> rfl

/-- All identities whose name is to go, with their keys and certificates. -/
theorem rep_delete (h : Rep db K) (kill : Name → Bool) (p : Row → Bool)
    (hpk : ∀ r ∈ db.identities, ∀ n, NameOk n → r.name = encodeName n → p r = kill n) :
    Rep (db.deleteIdentities p) { K with
      identity := fun n => if kill n then false else K.identity n
      default := K.default.filter fun n => !kill n
      key := fun k => if kill (up k) then none else K.key k
      defaultKey := fun n => if kill n then none else K.defaultKey n
      cert := fun c => if kill (up (up c)) then none else K.cert c
      defaultCert := fun k => if kill (up k) then none else K.defaultCert k } := by
  have h1 := h.ids.filter (fun n => !kill n) (fun r => !p r) fun r hr n hn e => by rw [hpk r hr n hn e]
  have h2 := cascade_rep h.ids h.keys kill p hpk
  have h3 := cascade_rep h.keys h.certs (fun k => kill (up k)) (fun k => (db.identities.filter p).any fun r => r.id = k.parent)
    fun r hr n hn e => cascaded h.ids h.keys kill p hpk hr hn e
  rw [filtered h.keys kill] at h2
  rw [filtered h.certs fun k => kill (up k)] at h3
  simp only [not_if] at h1 h2 h3
  refine ⟨?_, h2, h3, h.tpm⟩
  have e1 : idVal { K with identity := fun n => if kill n then false else K.identity n } = fun n => if kill n then none else idVal K n := by
    funext n; unfold idVal; dsimp only; by_cases hq : kill n = true <;> simp [hq]
  have e2 : idDef { K with default := K.default.filter fun n => !kill n } = fun g => (idDef K g).filter fun n => !kill n := by
    funext g; unfold idDef; dsimp only; split <;> rfl
  rw [← e1, ← e2] at h1
  exact h1

theorem rep_deleteIdentity (h : Rep db K) {n : Name} (hn : NameOk n) :
    ∃ db', exec db (.deleteIdentity (encodeName n)) = some db' ∧ Rep db' (K.removeIdentity n) := by
  refine ⟨_, rfl, ?_⟩
  have := rep_delete h (fun m => decide (m = n)) (fun r => decide (r.name = encodeName n)) fun r hr m hm e => by
    simp only [decide_eq_decide]
    exact ⟨fun q => enc_inj hm hn (e.symm.trans q), fun q => by rw [e, q]⟩
  simp only [decide_eq_true_eq] at this
  have ed : (K.default.filter fun m => !decide (m = n)) = if K.default = some n then none else K.default := by
    cases K.default with
    | none => rfl
    | some m => by_cases q : m = n <;> simp [Option.filter, q]
  rw [ed] at this
  exact this

theorem rep_deleteIdentities (h : Rep db K) : ∃ db', exec db .deleteIdentities = some db' ∧ Rep db' { locator := K.locator } := by
  refine ⟨_, rfl, ?_⟩
  have := rep_delete h (fun _ => true) (fun _ => true) fun _ _ _ _ _ => rfl
  simp only [if_true] at this
  have ed : (K.default.filter fun _ => !true) = none := by cases K.default <;> rfl
  rw [ed] at this
  exact this

theorem rep_deleteKey (h : Rep db K) {k : Name} (hk : NameOk k) :
    ∃ db', exec db (.deleteKey (encodeName k)) = some db' ∧ Rep db' (K.removeKey k) := by
  refine ⟨_, rfl, ?_⟩
  have hpk : ∀ r ∈ db.keys, ∀ m, NameOk m → r.name = encodeName m → decide (r.name = encodeName k) = decide (m = k) := fun r hr m hm e => by
    simp only [decide_eq_decide]
    exact ⟨fun q => enc_inj hm hk (e.symm.trans q), fun q => by rw [e, q]⟩
  have h2 := h.keys.filter (fun n => !decide (n = k)) (fun r => !decide (r.name = encodeName k)) fun r hr m hm e => by rw [hpk r hr m hm e]
  have h3 := cascade_rep h.keys h.certs (fun m => decide (m = k)) (fun r => decide (r.name = encodeName k)) hpk
  rw [filtered h.certs fun m => decide (m = k)] at h3
  simp only [not_if, decide_eq_true_eq] at h2 h3
  refine ⟨h.ids, ?_, h3, h.tpm⟩
  have e : (fun g => (K.defaultKey g).filter fun n => !decide (n = k)) = fun n => if K.defaultKey n = some k then none else K.defaultKey n := by
    funext g
    cases K.defaultKey g with
    | none => rfl
    | some m => by_cases q : m = k <;> simp [Option.filter, q]
  rw [e] at h2
  exact h2

theorem rep_deleteCert (h : Rep db K) {c : Name} (hc : NameOk c) :
    ∃ db', exec db (.deleteCert (encodeName c)) = some db' ∧ Rep db' (K.removeCert c) := by
  refine ⟨_, rfl, h.ids, h.keys, ?_, h.tpm⟩
  have h2 := h.certs.filter (fun n => !decide (n = c)) (fun r => !decide (r.name = encodeName c)) fun r hr m hm e => by
    simp only [Bool.not_eq_eq_eq_not, Bool.not_not, decide_eq_decide]
    exact ⟨fun q => enc_inj hm hc (e.symm.trans q), fun q => by rw [e, q]⟩
  simp only [not_if, decide_eq_true_eq] at h2
  have e : (fun g => (K.defaultCert g).filter fun n => !decide (n = c)) = fun n => if K.defaultCert n = some c then none else K.defaultCert n := by
    funext g
    cases K.defaultCert g with
    | none => rfl
    | some m => by_cases q : m = c <;> simp [Option.filter, q]
  rw [e] at h2
  exact h2

/-! ### Keys -/

theorem rep_insertKey (h : Rep db K) {k : Name} (hk : NameOk k) (hi : K.identity (up k) = true) (hv : K.key k = none) (bits : Bytes) :
    ∃ db', exec db (.insertKey (encodeName (up k)) (encodeName k) bits) = some db' ∧
      Rep db' { K.putKey k bits with defaultKey := upd K.defaultKey (up k) (K.defaultKey (up k) <|> some k) } := by
  obtain ⟨r, hr, hf, e, _, _⟩ := h.ids.findSome (idVal_some hi)
  have hu := (h.ids.hval _ _ (idVal_some hi)).1
  obtain ⟨h1, h2⟩ := h.keys.insert h.fi hk hv (p := r.id) ⟨hu, r, hr, e, rfl⟩ (d := bits) rfl
  refine ⟨{ db with keys := db.keys ++ [newRow db.keys r.id (encodeName k) bits] }, by simp only [exec, hf, h1]; rfl, h.ids, h2, h.certs.congr fun _ _ _ => GT_append, h.tpm⟩

theorem rep_updateKey (h : Rep db K) {k : Name} (hv : (K.key k).isSome = true) (bits : Bytes) :
    ∃ db', exec db (.updateKey (encodeName k) bits) = some db' ∧ Rep db' (K.putKey k bits) := by
  obtain ⟨v, hv⟩ := Option.isSome_iff_exists.mp hv
  exact ⟨_, rfl, h.ids, h.keys.setData hv rfl, h.certs.congr fun _ _ _ => GT_setData, h.tpm⟩

theorem rep_defaultKey (h : Rep db K) {k : Name} (hv : (K.key k).isSome = true) :
    ∃ db', exec db (.defaultKey (encodeName k)) = some db' ∧ Rep db' { K with defaultKey := upd K.defaultKey (up k) (some k) } := by
  obtain ⟨v, hv⟩ := Option.isSome_iff_exists.mp hv
  exact ⟨_, rfl, h.ids, h.keys.setDefault h.fi hv, h.certs.congr fun _ _ _ => GT_setDefault, h.tpm⟩

/-! ### Certificates -/

theorem rep_insertCert (h : Rep db K) {c : Data} (hc : CertOk c) {wire : Bytes} (hw : ∃ x y, encodeData c = .ok (wire, x, y))
    (hi : (K.key (up c.name)).isSome = true) (hv : K.cert c.name = none) :
    ∃ db', exec db (.insertCert (encodeName (up c.name)) (encodeName c.name) wire) = some db' ∧
      Rep db' { K.putCert c with defaultCert := upd K.defaultCert (up c.name) (K.defaultCert (up c.name) <|> some c.name) } := by
  obtain ⟨v, hi⟩ := Option.isSome_iff_exists.mp hi
  obtain ⟨r, hr, hf, e, _, _⟩ := h.keys.findSome hi
  have hu := (h.keys.hval _ _ hi).1
  obtain ⟨h1, h2⟩ := h.certs.insert h.fk hc.2.1 hv (p := r.id) ⟨hu, r, hr, e, rfl⟩ (d := wire) (v := c) ⟨hc, hw⟩
  exact ⟨{ db with certs := db.certs ++ [newRow db.certs r.id (encodeName c.name) wire] }, by simp only [exec, hf, h1]; rfl, h.ids, h.keys, h2, h.tpm⟩

theorem rep_updateCert (h : Rep db K) {c : Data} (hc : CertOk c) {wire : Bytes} (hw : ∃ x y, encodeData c = .ok (wire, x, y))
    (hv : (K.cert c.name).isSome = true) :
    ∃ db', exec db (.updateCert (encodeName c.name) wire) = some db' ∧ Rep db' (K.putCert c) := by
  obtain ⟨v, hv⟩ := Option.isSome_iff_exists.mp hv
  exact ⟨_, rfl, h.ids, h.keys, h.certs.setData hv ⟨hc, hw⟩, h.tpm⟩

theorem rep_defaultCert (h : Rep db K) {c : Name} (hv : (K.cert c).isSome = true) :
    ∃ db', exec db (.defaultCert (encodeName c)) = some db' ∧ Rep db' { K with defaultCert := upd K.defaultCert (up c) (some c) } := by
  obtain ⟨v, hv⟩ := Option.isSome_iff_exists.mp hv
  exact ⟨_, rfl, h.ids, h.keys, h.certs.setDefault h.fk hv, h.tpm⟩

/-! ### Selections -/

theorem sel_identities (h : Rep db K) : Sel db.identities db.identities (fun _ => []) [] := fun r =>
  ⟨fun hr => ⟨hr, by obtain ⟨n, h1, h2, _⟩ := h.ids.row r hr; exact ⟨n, h1, h2, rfl⟩⟩, fun hr => hr.1⟩

theorem sel_child {α β : Type} {Gp : Name → Nat → Prop} {gp : Name → Name} {Dp : Bytes → α → Prop} {tp tc : Table} {vp : Name → Option α}
    {dp : Name → Option Name} {D : Bytes → β → Prop} {val : Name → Option β} {dflt : Name → Option Name}
    (hp : TRep Gp gp Dp tp vp dp) (hc : TRep (GT tp) up D tc val dflt) {n : Name} (hn : NameOk n) :
    Sel (tc.filter fun k => tp.any fun i => i.id = k.parent ∧ i.name = encodeName n) tc up n := by
  intro r
  rw [List.mem_filter]
  refine and_congr_right fun hr => ?_
  obtain ⟨m, hm, e, ⟨hu, x, hx, e', q⟩, _⟩ := hc.row r hr
  rw [List.any_eq_true]
  constructor
  · rintro ⟨i, hi, hd⟩
    simp only [decide_eq_true_eq] at hd
    have : i = x := nodup_inj hp.ids hi hx (hd.1.trans q.symm)
    subst this
    exact ⟨m, hm, e, enc_inj hu hn (e'.symm.trans hd.2)⟩
  · rintro ⟨m', hm', e'', rfl⟩
    have : m = m' := enc_inj hm hm' (e.symm.trans e'')
    subst this
    exact ⟨x, hx, by simp [q, e']⟩

end PyNDN.PibSqlite
