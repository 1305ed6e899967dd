import Verif.Model.ScheduleWire
import Verif.Props.Schedule
import Verif.Lemmas.Interest
/-
C50: a schedule survives being stored in the database.
-/
namespace PyNDN
namespace Encrypt
open Spec (flat opt tlv nonNeg WholeSecond)

/-! ### The order of intervals -/

theorem cmp_neg {a b rest : Int} : RepetitiveInterval.cmp a b rest < 0 ↔ a < b ∨ (a = b ∧ rest < 0) := by
  unfold RepetitiveInterval.cmp
  split
  · omega
  · split <;> omega

/-- The order in which a schedule keeps its intervals. -/
def Before (r s : RepetitiveInterval) : Prop := r.compare s < 0

theorem before_iff (r s : RepetitiveInterval) : Before r s ↔ r.startDate < s.startDate ∨ (r.startDate = s.startDate ∧
    (r.endDate < s.endDate ∨ (r.endDate = s.endDate ∧ (r.startHour < s.startHour ∨ (r.startHour = s.startHour ∧
      (r.endHour < s.endHour ∨ (r.endHour = s.endHour ∧ (r.nRepeats < s.nRepeats ∨ (r.nRepeats = s.nRepeats ∧ r.repeatUnit < s.repeatUnit))))))))) := by
  unfold Before RepetitiveInterval.compare
  simp only [cmp_neg]
  constructor <;> intro h <;> omega

theorem before_trans {r s t : RepetitiveInterval} (h1 : Before r s) (h2 : Before s t) : Before r t := by
  rw [before_iff] at *
  omega

theorem before_total (r s : RepetitiveInterval) : Before r s ∨ r = s ∨ Before s r := by
  by_cases h : r = s
  · exact .inr (.inl h)
  · rw [before_iff, before_iff]
    have : ¬ (r.startDate = s.startDate ∧ r.endDate = s.endDate ∧ r.startHour = s.startHour ∧ r.endHour = s.endHour ∧ r.nRepeats = s.nRepeats ∧
        r.repeatUnit = s.repeatUnit) := by
      rintro ⟨h1, h2, h3, h4, h5, h6⟩
      apply h
      cases r; cases s
      simp_all
    omega

theorem before_irrefl (r : RepetitiveInterval) : ¬ Before r r := by rw [before_iff]; omega

theorem sortedSetAdd_last {l : List RepetitiveInterval} {r : RepetitiveInterval} (h : ∀ x ∈ l, Before x r) : Schedule.sortedSetAdd r l = l ++ [r] := by
  induction l with
  | nil => rfl
  | cons x l ih =>
    have hx := h x (by simp)
    unfold Schedule.sortedSetAdd
    dsimp only
    rw [if_neg (by unfold Before at hx; omega), if_neg (by unfold Before at hx; omega), ih (fun y hy => h y (by simp [hy]))]
    rfl

theorem sortedSetAdd_sorted {l : List RepetitiveInterval} (r : RepetitiveInterval) (h : l.Pairwise Before) :
    (Schedule.sortedSetAdd r l).Pairwise Before := by
  induction l with
  | nil => simp [Schedule.sortedSetAdd]
  | cons x l ih =>
    obtain ⟨h1, h2⟩ := List.pairwise_cons.mp h
    unfold Schedule.sortedSetAdd
    dsimp only
    split
    · exact h
    · next hne =>
      split
      · next hge =>
        have hlt : Before r x := by
          rcases before_total r x with h | h | h
          · exact h
          · exact absurd (compare_eq_zero.mpr h.symm) hne
          · exact absurd h hge
        refine List.pairwise_cons.mpr ⟨?_, h⟩
        intro y hy
        rcases List.mem_cons.mp hy with rfl | hy
        · exact hlt
        · exact before_trans hlt (h1 y hy)
      · next hlt =>
        refine List.pairwise_cons.mpr ⟨?_, ih h2⟩
        intro y hy
        rcases mem_sortedSetAdd.mp hy with rfl | hy
        · have : x.compare y < 0 := by omega
          exact this
        · exact h1 y hy

theorem foldl_sortedSetAdd {l : List RepetitiveInterval} (h : l.Pairwise Before) : ∀ {acc : List RepetitiveInterval},
    (∀ a ∈ acc, ∀ x ∈ l, Before a x) → l.foldl (fun s x => Schedule.sortedSetAdd x s) acc = acc ++ l := by
  induction l with
  | nil => simp
  | cons x l ih =>
    intro acc hacc
    obtain ⟨h1, h2⟩ := List.pairwise_cons.mp h
    simp only [List.foldl_cons]
    rw [sortedSetAdd_last (fun a ha => hacc a ha x (by simp)), ih h2]
    · simp
    · intro a ha y hy
      rcases List.mem_append.mp ha with ha | ha
      · exact hacc a ha y (by simp [hy])
      · rw [List.mem_singleton.mp ha]; exact h1 y hy

/-! ### Encoding -/

/-- What can be stored: whole days in the years 1000 to 9999, the conditions of the constructor, and numbers that fit in 64 bits. -/
structure Storable (r : RepetitiveInterval) : Prop where
  startDay : ∃ k : Int, r.startDate = k * 86400000
  endDay : ∃ k : Int, r.endDate = k * 86400000
  first : -30610224000000 ≤ r.startDate
  order : r.startDate ≤ r.endDate
  last : r.endDate < 253402300800000
  hours : 0 ≤ r.startHour ∧ r.startHour < r.endHour ∧ r.endHour ≤ 24
  one : r.repeatUnit = 0 → r.startDate = r.endDate
  repeats : 0 ≤ r.nRepeats ∧ r.nRepeats < 2 ^ 64
  unit : r.repeatUnit < 2 ^ 64

theorem toDateOnly_day {d : Int} (h : ∃ k : Int, d = k * 86400000) : toDateOnly (d : ℚ) = d := by
  obtain ⟨k, rfl⟩ := h
  have hm : midnight (((k * 86400000 : Int)) : ℚ) = k * 86400000 := midnight_eq (le_refl _) (by linarith)
  rw [toDateOnly_eq, hm]
  unfold NotLast
  rw [hm]
  linarith

theorem make_storable {r : RepetitiveInterval} (h : Storable r) :
    RepetitiveInterval.make (r.startDate : ℚ) (r.endDate : ℚ) r.startHour r.endHour (some r.nRepeats) (some r.repeatUnit) = .ok r := by
  unfold RepetitiveInterval.make
  rw [toDateOnly_day h.startDay, toDateOnly_day h.endDay]
  obtain ⟨h1, h2, h3⟩ := h.hours
  have h4 := h.order
  dsimp only [Option.getD_some]
  rw [if_neg (by omega), if_neg (by omega), if_neg (by omega), if_neg (by omega), if_neg (by rintro ⟨a, b⟩; exact b (h.one a))]

/-- The fields of an encoded interval, given its dates as text. -/
def intervalFields (r : RepetitiveInterval) (a b : Bytes) : List (Nat × Bytes) :=
  [(134, a), (135, b), (136, nonNeg r.startHour.toNat), (137, nonNeg r.endHour.toNat), (138, nonNeg r.nRepeats.toNat), (139, nonNeg r.repeatUnit)]

/-- The text of a date. -/
def isoBytes (ms : Int) : Bytes := match toIsoString ms with
  | .ok s => asciiBytes s
  | .error _ => []

def intervalField (r : RepetitiveInterval) : Nat × Bytes := (140, flat (intervalFields r (isoBytes r.startDate) (isoBytes r.endDate)))

theorem isoBytes_spec {ms : Int} (h : WholeSecond ms) :
    ∃ s, toIsoString ms = .ok s ∧ asciiBytes s = isoBytes ms ∧ utf8Decode (isoBytes ms) = .ok s ∧ fromIsoString s = .ok ms := by
  obtain ⟨s, h1, h2, h3⟩ := iso_roundtrip ms h
  have : isoBytes ms = asciiBytes s := by unfold isoBytes; rw [h1]
  exact ⟨s, h1, this.symm, this ▸ h2, h3⟩

theorem Storable.start_second {r : RepetitiveInterval} (h : Storable r) : WholeSecond r.startDate := by
  obtain ⟨k, hk⟩ := h.startDay
  have := h.first; have := h.order; have := h.last
  exact ⟨by omega, by omega, by omega⟩

theorem Storable.end_second {r : RepetitiveInterval} (h : Storable r) : WholeSecond r.endDate := by
  obtain ⟨k, hk⟩ := h.endDay
  have := h.first; have := h.order; have := h.last
  exact ⟨by omega, by omega, by omega⟩

theorem nonNegInt_flat (t : Nat) {n : Int} (h : 0 ≤ n) (out : Bytes) :
    writeNonNegativeIntegerTlv t n out = .ok (flat [(t, nonNeg n.toNat)] ++ out) := by
  have := nonNegTlv_flat t n.toNat out
  rwa [Int.toNat_of_nonneg h] at this

theorem encodeRepetitiveInterval_spec {r : RepetitiveInterval} (h : Storable r) (out : Bytes) :
    Schedule.encodeRepetitiveInterval r out = .ok (flat [intervalField r] ++ out) := by
  obtain ⟨s1, a1, a2, _⟩ := isoBytes_spec h.start_second
  obtain ⟨s2, b1, b2, _⟩ := isoBytes_spec h.end_second
  obtain ⟨h1, h2, h3⟩ := h.hours
  unfold Schedule.encodeRepetitiveInterval
  simp only [nonNegTlv_flat, nonNegInt_flat _ h1, nonNegInt_flat _ (show 0 ≤ r.endHour by omega), nonNegInt_flat _ h.repeats.1, a1, b1, a2, b2, bind,
    Except.bind, pure, Except.pure, blobTlv_flat, flat_app, Option.getD_some, closeTlv]
  rfl

theorem encodeList_spec {l : List RepetitiveInterval} (h : ∀ r ∈ l, Storable r) (out : Bytes) :
    Schedule.encodeList l out = .ok (flat (l.map intervalField) ++ out) := by
  induction l generalizing out with
  | nil => rfl
  | cons r l ih =>
    unfold Schedule.encodeList
    rw [ih (fun x hx => h x (by simp [hx]))]
    simp only [bind, Except.bind]
    rw [encodeRepetitiveInterval_spec (h r (by simp)), flat_app]
    rfl

theorem wireEncode_spec {s : Schedule} (h : ∀ r ∈ s.white ++ s.black, Storable r) :
    s.wireEncode = .ok (tlv 143 (flat [(141, flat (s.white.map intervalField)), (142, flat (s.black.map intervalField))])) := by
  have c1 := closeTlv 142 (s.black.map intervalField) []
  have c2 := closeTlv 141 (s.white.map intervalField) (flat [(142, flat (s.black.map intervalField))] ++ [])
  have c3 := closeTlv 143 ([(141, flat (s.white.map intervalField))] ++ [(142, flat (s.black.map intervalField))]) []
  unfold Schedule.wireEncode
  dsimp only
  rw [encodeList_spec (fun r hr => h r (List.mem_append_right _ hr))]
  simp only [bind, Except.bind, pure, Except.pure]
  rw [c1, encodeList_spec (fun r hr => h r (List.mem_append_left _ hr))]
  dsimp only
  rw [c2, flat_app, c3, flat_one, List.append_nil]
  rfl

/-! ### Decoding -/

theorem decodeRepetitiveInterval_At {inp off e l} {r : RepetitiveInterval} (hr : Storable r) (h : At inp off e (intervalField r :: l)) :
    ∃ off', Schedule.decodeRepetitiveInterval.run inp off = .ok (r, off') ∧ At inp off' e l := by
  obtain ⟨s1, _, _, a1, a2⟩ := isoBytes_spec hr.start_second
  obtain ⟨s2, _, _, b1, b2⟩ := isoBytes_spec hr.end_second
  obtain ⟨q1, q2, q3⟩ := hr.hours
  have q4 := hr.repeats
  unfold intervalField at h
  obtain ⟨e', o1, h1, h2, h3⟩ := nested_At h (by simp [intervalFields])
  unfold intervalFields at h2
  obtain ⟨o2, g1, g2⟩ := readBlobTlv_At h2
  obtain ⟨o3, g3, g4⟩ := readBlobTlv_At g2
  obtain ⟨o4, g5, g6⟩ := readNonNegativeIntegerTlv_At (by omega) g4
  obtain ⟨o5, g7, g8⟩ := readNonNegativeIntegerTlv_At (by omega) g6
  obtain ⟨o6, g9, g10⟩ := readNonNegativeIntegerTlv_At (by omega) g8
  obtain ⟨o7, g11, g12⟩ := readNonNegativeIntegerTlv_At hr.unit g10
  have hl : ∀ {α} (x : α) (r : Except Err α) o, r = .ok x → (Dec.lift r).run inp o = .ok (x, o) := by
    intro α x r o hr; subst hr; rfl
  refine ⟨e', ?_, h3⟩
  unfold Schedule.decodeRepetitiveInterval
  rw [Dec.bind_ok h1, Dec.bind_ok g1, Dec.bind_ok (hl _ _ _ a1), Dec.bind_ok (hl _ _ _ a2),
    Dec.bind_ok g3, Dec.bind_ok (hl _ _ _ b1), Dec.bind_ok (hl _ _ _ b2), Dec.bind_ok g5, Dec.bind_ok g7, Dec.bind_ok g9, Dec.bind_ok g11,
    Dec.bind_ok (finishNestedTlvs_At g12)]
  apply hl
  rw [Int.toNat_of_nonneg q1, Int.toNat_of_nonneg (show 0 ≤ r.endHour by omega), Int.toNat_of_nonneg q4.1]
  exact make_storable hr

theorem decodeList_At {inp off e} {l : List RepetitiveInterval} (hl : ∀ r ∈ l, Storable r) (hs : l.Pairwise Before) (h : At inp off e (l.map intervalField)) :
    (whileBefore e Schedule.decodeOne []).run inp off = .ok (l, e) := by
  have := whileBefore_At intervalField (fun (s : List RepetitiveInterval) r => Schedule.sortedSetAdd r s) (body := Schedule.decodeOne) (s := [])
    (fun r hr s off l' hl' => by
      obtain ⟨off', g1, g2⟩ := decodeRepetitiveInterval_At (hl r hr) hl'
      refine ⟨off', ?_, g2⟩
      unfold Schedule.decodeOne
      rw [Dec.bind_ok g1]
      rfl) h
  rw [this, foldl_sortedSetAdd hs (by simp)]
  rfl

theorem wireDecode_spec {s : Schedule} (h : ∀ r ∈ s.white ++ s.black, Storable r) (hw : s.white.Pairwise Before) (hb : s.black.Pairwise Before)
    {v : Bytes} (hv : v = flat [(141, flat (s.white.map intervalField)), (142, flat (s.black.map intervalField))]) (hlen : v.length < 2 ^ 64) :
    Schedule.wireDecode (tlv 143 v) = .ok s := by
  have a0 := At.start (t := 143) (v := v) (rest := []) (by decide) hlen
  rw [List.append_nil, hv] at a0
  obtain ⟨e1, o1, g1, g2, g3⟩ := nested_At a0 (by simp)
  obtain ⟨e2, o2, g4, g5, g6⟩ := nested_At g2 (by
    intro p hp
    obtain ⟨r, _, rfl⟩ := List.mem_map.mp hp
    show 140 < 2 ^ 64
    decide)
  obtain ⟨e3, o3, g7, g8, g9⟩ := nested_At g6 (by
    intro p hp
    obtain ⟨r, _, rfl⟩ := List.mem_map.mp hp
    show 140 < 2 ^ 64
    decide)
  unfold Schedule.wireDecode runDec
  rw [← hv] at *
  unfold Schedule.wireDecodeFrom
  rw [Dec.bind_ok g1, Dec.bind_ok g4, Dec.bind_ok (decodeList_At (fun r hr => h r (List.mem_append_left _ hr)) hw g5), Dec.bind_ok finishNestedTlvs_end,
    Dec.bind_ok g7, Dec.bind_ok (decodeList_At (fun r hr => h r (List.mem_append_right _ hr)) hb g8), Dec.bind_ok finishNestedTlvs_end,
    Dec.bind_ok (finishNestedTlvs_At g9)]
  rfl

/-! ### The property -/

/-- A call of `addWhiteInterval` (true) or `addBlackInterval` (false). -/
def addInterval (s : Schedule) (c : Bool × RepetitiveInterval) : Schedule := if c.1 then s.addWhite c.2 else s.addBlack c.2

theorem addInterval_sorted (cs : List (Bool × RepetitiveInterval)) : ∀ {s : Schedule}, s.white.Pairwise Before → s.black.Pairwise Before →
    (cs.foldl addInterval s).white.Pairwise Before ∧ (cs.foldl addInterval s).black.Pairwise Before := by
  induction cs with
  | nil => exact fun h1 h2 => ⟨h1, h2⟩
  | cons c cs ih =>
    intro s h1 h2
    obtain ⟨b, r⟩ := c
    refine ih ?_ ?_ <;> cases b
    · exact h1
    · exact sortedSetAdd_sorted r h1
    · exact sortedSetAdd_sorted r h2
    · exact h2

theorem addInterval_mem (cs : List (Bool × RepetitiveInterval)) : ∀ {s : Schedule} {r : RepetitiveInterval},
    r ∈ (cs.foldl addInterval s).white ++ (cs.foldl addInterval s).black ↔ r ∈ s.white ++ s.black ∨ ∃ c ∈ cs, c.2 = r := by
  induction cs with
  | nil => simp
  | cons c cs ih =>
    intro s r
    obtain ⟨b, x⟩ := c
    simp only [List.foldl_cons, ih, List.mem_append, List.mem_cons]
    cases b
    · simp only [addInterval, Bool.false_eq_true, if_false, Schedule.addBlack, mem_sortedSetAdd]
      grind
    · simp only [addInterval, if_true, Schedule.addWhite, mem_sortedSetAdd]
      grind

/-- C50: whatever intervals are added to a schedule, in whatever order, the encoding that is stored in the database decodes to the same schedule (so it
allows the same times).  Excluded: dates before the year 1000 (see `C50_early`), and negative or huge numbers of repeats. -/
theorem C50_roundtrip_partial {cs : List (Bool × RepetitiveInterval)} (h : ∀ c ∈ cs, Storable c.2) :
    ∃ w, (cs.foldl addInterval {}).wireEncode = .ok w ∧ (w.length < 2 ^ 64 → Schedule.wireDecode w = .ok (cs.foldl addInterval {})) := by
  obtain ⟨h1, h2⟩ := addInterval_sorted cs (s := {}) .nil .nil
  have h3 : ∀ r ∈ (cs.foldl addInterval {}).white ++ (cs.foldl addInterval {}).black, Storable r := by
    intro r hr
    rcases (addInterval_mem cs).mp hr with h' | ⟨c, hc, rfl⟩
    · cases h'
    · exact h c hc
  refine ⟨_, wireEncode_spec h3, fun hlen => wireDecode_spec h3 h1 h2 rfl ?_⟩
  rw [tlv, List.length_append, List.length_append] at hlen
  omega

/-- C50: the order in which the intervals are added does not matter. -/
theorem C50_order {cs cs' : List (Bool × RepetitiveInterval)} (h : ∀ c, c ∈ cs ↔ c ∈ cs') : cs.foldl addInterval {} = cs'.foldl addInterval {} := by
  have mem : ∀ (cs : List (Bool × RepetitiveInterval)) (s : Schedule) r,
      (r ∈ (cs.foldl addInterval s).white ↔ r ∈ s.white ∨ (true, r) ∈ cs) ∧ (r ∈ (cs.foldl addInterval s).black ↔ r ∈ s.black ∨ (false, r) ∈ cs) := by
    intro cs
    induction cs with
    | nil => simp
    | cons c cs ih =>
      intro s r
      obtain ⟨b, x⟩ := c
      simp only [List.foldl_cons, ih, List.mem_cons, Prod.mk.injEq]
      cases b
      · simp only [addInterval, Bool.false_eq_true, if_false, Schedule.addBlack, mem_sortedSetAdd]
        grind
      · simp only [addInterval, if_true, Schedule.addWhite, mem_sortedSetAdd]
        grind
  have uniq : ∀ {l l' : List RepetitiveInterval}, l.Pairwise Before → l'.Pairwise Before → (∀ r, r ∈ l ↔ r ∈ l') → l = l' := by
    intro l
    induction l with
    | nil =>
      intro l' _ _ hm
      cases l' with
      | nil => rfl
      | cons x l' => exact absurd ((hm x).mpr (by simp)) (by simp)
    | cons x l ih =>
      intro l' p p' hm
      cases l' with
      | nil => exact absurd ((hm x).mp (by simp)) (by simp)
      | cons y l' =>
        obtain ⟨p1, p2⟩ := List.pairwise_cons.mp p
        obtain ⟨p3, p4⟩ := List.pairwise_cons.mp p'
        have hxy : x = y := by
          rcases List.mem_cons.mp ((hm x).mp (by simp)) with h | h
          · exact h
          · rcases List.mem_cons.mp ((hm y).mpr (by simp)) with h' | h'
            · exact h'.symm
            · exact absurd (before_trans (p1 y h') (p3 x h)) (before_irrefl x)
        subst hxy
        congr 1
        refine ih p2 p4 ?_
        intro r
        constructor
        · intro hr
          rcases List.mem_cons.mp ((hm r).mp (by simp [hr])) with h | h
          · subst h; exact absurd (p1 r hr) (before_irrefl r)
          · exact h
        · intro hr
          rcases List.mem_cons.mp ((hm r).mpr (by simp [hr])) with h | h
          · subst h; exact absurd (p3 r hr) (before_irrefl r)
          · exact h
  obtain ⟨a1, a2⟩ := addInterval_sorted cs (s := {}) .nil .nil
  obtain ⟨b1, b2⟩ := addInterval_sorted cs' (s := {}) .nil .nil
  have e1 := uniq a1 b1 (fun r => by rw [(mem cs {} r).1, (mem cs' {} r).1, h])
  have e2 := uniq a2 b2 (fun r => by rw [(mem cs {} r).2, (mem cs' {} r).2, h])
  generalize cs.foldl addInterval {} = s at *
  generalize cs'.foldl addInterval {} = s' at *
  cases s; cases s'
  simp_all

/-! ### Cases -/

/-- The hypotheses hold of three intervals, one added twice. -/
example : ∀ c ∈ [(true, exWhite), (false, exBlack), (true, exWhite), (true, ⟨exDay, exDay, 0, 24, 0, 0⟩)], Storable c.2 := by
  intro c hc
  simp only [List.mem_cons, List.not_mem_nil, or_false] at hc
  rcases hc with rfl | rfl | rfl | rfl
  · exact ⟨⟨16672, by decide⟩, ⟨16682, by decide⟩, by decide, by decide, by decide, by decide, by decide, by decide, by decide⟩
  · exact ⟨⟨16674, by decide⟩, ⟨16674, by decide⟩, by decide, by decide, by decide, by decide, by decide, by decide, by decide⟩
  · exact ⟨⟨16672, by decide⟩, ⟨16682, by decide⟩, by decide, by decide, by decide, by decide, by decide, by decide, by decide⟩
  · exact ⟨⟨16672, by decide⟩, ⟨16672, by decide⟩, by decide, by decide, by decide, by decide, by decide, by decide, by decide⟩

/-- C50, the excluded case of early dates: a schedule for the year 999 can be stored, and then not be read. -/
theorem C50_early : ∃ (r : RepetitiveInterval) (w : Bytes), RepetitiveInterval.make (-30641760000000 : Int) (-30641760000000 : Int) 5 10 none none = .ok r ∧
    (Schedule.addWhite {} r).wireEncode = .ok w ∧ Schedule.wireDecode w = .error .runtime :=
  ⟨⟨-30641760000000, -30641760000000, 5, 10, 0, 0⟩, _, by decide +kernel, rfl, by decide +kernel⟩

end Encrypt
end PyNDN
