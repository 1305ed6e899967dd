import Verif.Model.Packet
/-
Helper lemmas: the ISO timestamps of a ValidityPeriod.
-/
namespace PyNDN

theorem isLeap_iff (y : Nat) : isLeap y = true ↔ y % 4 = 0 ∧ (y % 100 ≠ 0 ∨ y % 400 = 0) := by
  unfold isLeap; simp

theorem succ_div_eq (k c : Nat) (hc : 0 < c) :
    (k + 1) / c = k / c + (if (k + 1) % c = 0 then 1 else 0) := by
  rw [Nat.succ_div]
  simp only [Nat.dvd_iff_mod_eq_zero]

theorem daysBeforeYear_succ (y : Nat) (hy : 1 ≤ y) :
    daysBeforeYear (y + 1) = daysBeforeYear y + 365 + (if isLeap y then 1 else 0) := by
  obtain ⟨k, rfl⟩ : ∃ k, y = k + 1 := ⟨y - 1, by omega⟩
  unfold daysBeforeYear
  simp only [Nat.add_sub_cancel]
  rw [succ_div_eq k 4 (by omega), succ_div_eq k 100 (by omega), succ_div_eq k 400 (by omega)]
  have h1 : k / 100 ≤ k / 4 := Nat.div_le_div_left (by omega) (by omega)
  have h2 : (k + 1) % 400 = 0 → (k + 1) % 100 = 0 := by omega
  have h3 : (k + 1) % 100 = 0 → (k + 1) % 4 = 0 := by omega
  by_cases h : isLeap (k + 1) = true
  · rw [if_pos h]; rw [isLeap_iff] at h
    rw [if_pos h.1]
    by_cases h4 : (k + 1) % 400 = 0
    · rw [if_pos h4, if_pos (h2 h4)]; omega
    · rw [if_neg h4, if_neg (by omega)]; omega
  · rw [if_neg h]; rw [isLeap_iff] at h
    by_cases h5 : (k + 1) % 4 = 0
    · have h6 : (k + 1) % 100 = 0 := by omega
      have h7 : ¬ (k + 1) % 400 = 0 := by omega
      rw [if_pos h5, if_pos h6, if_neg h7]; omega
    · rw [if_neg h5, if_neg (by omega), if_neg (by omega)]; omega

theorem daysBeforeYear_ge (y : Nat) : (y - 1) * 365 ≤ daysBeforeYear y := by
  unfold daysBeforeYear; omega

theorem findYear_spec (n : Nat) : ∀ y, 1 ≤ y → n < daysBeforeYear (y + 1) →
    1 ≤ findYear n y ∧ findYear n y ≤ y ∧ daysBeforeYear (findYear n y) ≤ n ∧
      n < daysBeforeYear (findYear n y + 1) := by
  intro y
  induction y with
  | zero => intro h; omega
  | succ y ih =>
    intro _ hn
    unfold findYear
    split
    · exact ⟨by omega, by omega, by assumption, hn⟩
    · rename_i h
      by_cases hy : 1 ≤ y
      · obtain ⟨a, b, c, d⟩ := ih hy (by omega)
        exact ⟨a, by omega, c, d⟩
      · have : y = 0 := by omega
        subst this
        exfalso; apply h; unfold daysBeforeYear; omega

theorem findYear_ok (n : Nat) :
    1 ≤ findYear n (n / 365 + 1) ∧ daysBeforeYear (findYear n (n / 365 + 1)) ≤ n ∧
      n < daysBeforeYear (findYear n (n / 365 + 1) + 1) := by
  have h := daysBeforeYear_ge (n / 365 + 1 + 1)
  obtain ⟨a, _, c, d⟩ := findYear_spec n (n / 365 + 1) (by omega) (by omega)
  exact ⟨a, c, d⟩

theorem daysBeforeMonth_succ (y m : Nat) (hm : 1 ≤ m) :
    daysBeforeMonth y (m + 1) = daysBeforeMonth y m + daysInMonth y m := by
  obtain ⟨k, rfl⟩ : ∃ k, m = k + 1 := ⟨m - 1, by omega⟩
  rfl

theorem daysInMonth_pos (y m : Nat) : 28 ≤ daysInMonth y m ∧ daysInMonth y m ≤ 31 := by
  unfold daysInMonth; repeat' split
  all_goals omega

theorem findMonth_spec (y : Nat) : ∀ fuel r m, 1 ≤ m →
    daysBeforeMonth y m + r < daysBeforeMonth y (m + fuel + 1) →
    let p := findMonth y r m fuel
    m ≤ p.1 ∧ p.1 ≤ m + fuel ∧ 1 ≤ p.2 ∧ p.2 ≤ daysInMonth y p.1 ∧
      daysBeforeMonth y p.1 + (p.2 - 1) = daysBeforeMonth y m + r := by
  intro fuel
  induction fuel with
  | zero =>
    intro r m hm h
    simp only [findMonth]
    rw [Nat.add_zero, daysBeforeMonth_succ y m hm] at h
    exact ⟨by omega, by omega, by omega, by omega, by omega⟩
  | succ fuel ih =>
    intro r m hm h
    unfold findMonth
    split
    · dsimp only; exact ⟨by omega, by omega, by omega, by omega, by omega⟩
    · rename_i hr
      have h1 := daysBeforeMonth_succ y m hm
      have := ih (r - daysInMonth y m) (m + 1) (by omega)
        (by rw [show m + 1 + fuel + 1 = m + (fuel + 1) + 1 by omega]; omega)
      obtain ⟨a, b, c, d, e⟩ := this
      refine ⟨by omega, by omega, c, d, by omega⟩

theorem daysBeforeMonth_year (y : Nat) : daysBeforeMonth y 13 = 365 + (if isLeap y then 1 else 0) := by
  simp only [daysBeforeMonth, daysInMonth]
  have : ¬ (0 + 1 = 2) := by omega
  by_cases h : isLeap y = true <;> simp [h]

theorem daysBeforeYear_mono {a b : Nat} (h : a ≤ b) : daysBeforeYear a ≤ daysBeforeYear b := by
  induction h with
  | refl => exact Nat.le_refl _
  | @step m hm ih =>
    refine Nat.le_trans ih ?_
    rcases Nat.eq_zero_or_pos m with h | h
    · subst h; decide
    · rw [Nat.succ_eq_add_one, daysBeforeYear_succ m h]; omega

/-- What `datetimeFromSeconds` gives between the years 1000 and 9999. -/
theorem datetimeFromSeconds_spec (s : Int) (h1 : -30610224000 ≤ s) (h2 : s < 253402300800) :
    ∃ t, datetimeFromSeconds s = .ok t ∧ secondsOfDatetime t = s ∧
      1000 ≤ t.year ∧ t.year ≤ 9999 ∧ 1 ≤ t.month ∧ t.month ≤ 12 ∧ 1 ≤ t.day ∧
      t.day ≤ daysInMonth t.year t.month ∧ t.hour ≤ 23 ∧ t.minute ≤ 59 ∧ t.second ≤ 59 := by
  unfold datetimeFromSeconds
  simp only
  generalize ht : s + ((epochDays * 86400 : Nat) : Int) = t
  have ht1 : ((364877 * 86400 : Nat) : Int) ≤ t := by rw [← ht]; unfold epochDays; omega
  have ht2 : t < ((3652059 * 86400 : Nat) : Int) := by rw [← ht]; unfold epochDays; omega
  rw [if_neg (by omega)]
  obtain ⟨T, hT⟩ : ∃ T : Nat, t = T := ⟨t.toNat, by omega⟩
  subst hT
  simp only [Int.toNat_natCast]
  generalize hn : T / 86400 = n
  have hn1 : 364877 ≤ n := by omega
  have hn2 : n < 3652059 := by omega
  obtain ⟨y1, y2, y3⟩ := findYear_ok n
  generalize hy : findYear n (n / 365 + 1) = y at y1 y2 y3
  have hyl : 1000 ≤ y := by
    rcases Nat.lt_or_ge y 1000 with h | h
    · have := daysBeforeYear_mono (a := y + 1) (b := 1000) (by omega)
      have : daysBeforeYear 1000 = 364877 := by decide
      omega
    · exact h
  have hyu : y ≤ 9999 := by
    rcases Nat.lt_or_ge 9999 y with h | h
    · have := daysBeforeYear_mono (a := 10000) (b := y) (by omega)
      have : daysBeforeYear 10000 = 3652059 := by decide
      omega
    · exact h
  have hm := findMonth_spec y 11 (n - daysBeforeYear y) 1 (by omega) (by
    rw [show 1 + 11 + 1 = 13 by omega, daysBeforeMonth_year]
    have := daysBeforeYear_succ y y1
    simp only [daysBeforeMonth]; omega)
  generalize findMonth y (n - daysBeforeYear y) 1 11 = p at hm
  obtain ⟨m, d⟩ := p
  obtain ⟨m1, m2, m3, m4, m5⟩ := hm
  dsimp only at *
  rw [if_neg (by omega)]
  refine ⟨_, rfl, ?_, hyl, hyu, m1, by omega, m3, m4, by dsimp only; omega, by dsimp only; omega,
    by dsimp only; omega⟩
  unfold secondsOfDatetime
  dsimp only
  have e1 : daysBeforeMonth y 1 = 0 := rfl
  have e2 : daysBeforeYear y + daysBeforeMonth y m + (d - 1) = n := by omega
  rw [e2]
  have e3 : n * 86400 + T % 86400 / 3600 * 3600 + T % 86400 % 3600 / 60 * 60 + T % 86400 % 60 = T := by
    omega
  rw [e3]
  omega

theorem pyInt2 (n : Nat) (h : n ≤ 99) : pyInt (pad2 n) = .ok (n : Int) := by
  have : ∀ k : Fin 100, pyInt (pad2 k.val) = .ok (k.val : Int) := by decide +kernel
  exact this ⟨n, by omega⟩

theorem decimal4 (y : Nat) (h1 : 1000 ≤ y) (h2 : y ≤ 9999) :
    decimal y = [digitChar (y / 1000), digitChar (y / 100), digitChar (y / 10), digitChar y] := by
  unfold decimal; rw [if_neg (by omega)]
  unfold decimal; rw [if_neg (by omega)]
  unfold decimal; rw [if_neg (by omega)]
  unfold decimal; rw [if_pos (by omega)]
  simp [Nat.div_div_eq_div_mul]

theorem digit_range (n : Nat) : 48 ≤ digitChar n ∧ digitChar n ≤ 57 := by unfold digitChar; omega

theorem isSpace_digit (n : Nat) : isSpace (digitChar n) = false := by
  have := digit_range n
  unfold isSpace; simp; omega

theorem pyInt4 (y : Nat) (h1 : 1000 ≤ y) (h2 : y ≤ 9999) : pyInt (decimal y) = .ok (y : Int) := by
  rw [decimal4 y h1 h2]
  unfold pyInt
  simp only [List.dropWhile_cons, isSpace_digit, List.reverse_cons, List.reverse_nil, List.nil_append,
    List.cons_append, Bool.false_eq_true, if_false]
  have a := digit_range (y / 1000); have b := digit_range (y / 100)
  have c := digit_range (y / 10); have d := digit_range y
  have hne1 : digitChar (y / 1000) ≠ 45 := by omega
  have hne2 : digitChar (y / 1000) ≠ 43 := by omega
  have hv : pyDigits [digitChar (y / 1000), digitChar (y / 100), digitChar (y / 10), digitChar y] none
      = some y := by
    simp only [pyDigits, a, b, c, d, and_self, if_true, Option.getD_none, Option.getD_some]
    unfold digitChar
    simp only [Option.some.injEq]; omega
  have : ∀ (x : Nat) (l : List Nat), x ≠ 45 → x ≠ 43 → pyDigits (x :: l) none = some y →
    (match (match x :: l with
      | 45 :: ds => (pyDigits ds none).map fun n => -(n : Int)
      | 43 :: ds => (pyDigits ds none).map fun n => (n : Int)
      | ds => (pyDigits ds none).map fun n => (n : Int) : Option Int) with
    | some n => (.ok n : Except Err Int)
    | none => .error .value) = .ok (y : Int) := by
    intro x l hx1 hx2 hp
    split
    · rename_i n heq
      split at heq
      · rename_i hc; cases hc; exact absurd rfl hx1
      · rename_i hc; cases hc; exact absurd rfl hx2
      · rename_i hc; rw [hp] at heq; simp at heq; rw [heq]
    · rename_i heq
      split at heq
      · rename_i hc; cases hc; exact absurd rfl hx1
      · rename_i hc; cases hc; exact absurd rfl hx2
      · rw [hp] at heq; simp at heq
  exact this _ _ hne1 hne2 hv

theorem fromIso_strftime (t : DateTime) (h : 1000 ≤ t.year ∧ t.year ≤ 9999 ∧ 1 ≤ t.month ∧
    t.month ≤ 12 ∧ 1 ≤ t.day ∧ t.day ≤ daysInMonth t.year t.month ∧ t.hour ≤ 23 ∧ t.minute ≤ 59 ∧
    t.second ≤ 59) : fromIsoString (strftimeIso t) = .ok (secondsOfDatetime t * 1000) := by
  obtain ⟨y1, y2, m1, m2, d1, d2, hh, hm, hs⟩ := h
  have hd := (daysInMonth_pos t.year t.month).2
  have e : strftimeIso t = decimal t.year ++ (pad2 t.month ++ (pad2 t.day ++ ([84] ++ (pad2 t.hour ++
    (pad2 t.minute ++ pad2 t.second))))) := by simp [strftimeIso]
  have h4 : (decimal t.year).length = 4 := by rw [decimal4 _ y1 y2]; rfl
  unfold fromIsoString
  rw [e]
  have hp : ∀ n, (pad2 n).length = 2 := fun _ => rfl
  have s0 : ∀ (l : List Nat), (decimal t.year ++ l).take 4 = decimal t.year := by
    intro l; rw [← h4]; simp
  have s1 : ∀ (l : List Nat) k, (decimal t.year ++ l).drop (4 + k) = l.drop k := by
    intro l k; rw [← h4]; simp
  rw [if_neg (by
    rw [show 8 = 4 + 4 by rfl, s1]
    simp [h4, pad2])]
  rw [s0]
  rw [show (6 : Nat) = 4 + 2 by rfl, show (9 : Nat) = 4 + 5 by rfl, show (11 : Nat) = 4 + 7 by rfl,
    show (13 : Nat) = 4 + 9 by rfl, s1, s1, s1, s1]
  have s4 : ∀ l, (decimal t.year ++ l).drop 4 = l := by intro l; rw [← h4]; simp
  rw [s4]
  have f1 : (pad2 t.month ++ (pad2 t.day ++ ([84] ++ (pad2 t.hour ++ (pad2 t.minute ++ pad2 t.second))))).take 2 = pad2 t.month := rfl
  have f2 : ((pad2 t.month ++ (pad2 t.day ++ ([84] ++ (pad2 t.hour ++ (pad2 t.minute ++ pad2 t.second))))).drop 2).take 2 = pad2 t.day := rfl
  have f3 : ((pad2 t.month ++ (pad2 t.day ++ ([84] ++ (pad2 t.hour ++ (pad2 t.minute ++ pad2 t.second))))).drop 5).take 2 = pad2 t.hour := rfl
  have f4 : ((pad2 t.month ++ (pad2 t.day ++ ([84] ++ (pad2 t.hour ++ (pad2 t.minute ++ pad2 t.second))))).drop 7).take 2 = pad2 t.minute := rfl
  have f5 : ((pad2 t.month ++ (pad2 t.day ++ ([84] ++ (pad2 t.hour ++ (pad2 t.minute ++ pad2 t.second))))).drop 9).take 2 = pad2 t.second := rfl
  rw [f1, f2, f3, f4, f5, pyInt4 _ y1 y2, pyInt2 _ (by omega), pyInt2 _ (by omega), pyInt2 _ (by omega),
    pyInt2 _ (by omega), pyInt2 _ (by omega)]
  have : mkDateTime t.year t.month t.day t.hour t.minute t.second = .ok t := by
    unfold mkDateTime
    rw [if_pos (by simp only [Int.toNat_natCast]; omega)]
    simp
  simp only [bind, Except.bind, this]
  rfl

theorem strftime_ascii (t : DateTime) : ∀ c ∈ strftimeIso t, c < 128 := by
  have hp : ∀ n, ∀ c ∈ pad2 n, c < 128 := by
    intro n c hc
    simp only [pad2, List.mem_cons, List.not_mem_nil, or_false] at hc
    have h1 := digit_range (n / 10); have h2 := digit_range n
    omega
  have hd : ∀ k n, n ≤ k → ∀ c ∈ decimal n, c < 128 := by
    intro k
    induction k with
    | zero =>
      intro n hn c hc
      unfold decimal at hc
      rw [if_pos (by omega)] at hc
      simp only [List.mem_singleton] at hc
      have := digit_range n; omega
    | succ k ih =>
      intro n hn c hc
      unfold decimal at hc
      have := digit_range n
      split at hc
      · simp only [List.mem_singleton] at hc; omega
      · rcases List.mem_append.mp hc with hc | hc
        · exact ih (n / 10) (by omega) c hc
        · simp only [List.mem_singleton] at hc; omega
  intro c hc
  simp only [strftimeIso, List.mem_append, List.mem_singleton] at hc
  have h84 : (84 : Nat) < 128 := by omega
  rcases hc with (((((hc | hc) | hc) | hc) | hc) | hc) | hc
  · exact hd _ _ (Nat.le_refl _) c hc
  · exact hp _ c hc
  · exact hp _ c hc
  · omega
  · exact hp _ c hc
  · exact hp _ c hc
  · exact hp _ c hc

theorem utf8Decode_ascii (s : List Nat) (h : ∀ c ∈ s, c < 128) : utf8Decode (asciiBytes s) = .ok s := by
  induction s with
  | nil => simp [asciiBytes, utf8Decode]
  | cons c s ih =>
    have hc := h c (by simp)
    have ih := ih fun d hd => h d (by simp [hd])
    have hb : (UInt8.ofNat c).toNat = c := by simp [UInt8.toNat_ofNat']; omega
    have : asciiBytes (c :: s) = UInt8.ofNat c :: asciiBytes s := rfl
    rw [this, utf8Decode.eq_def]
    dsimp only
    rw [if_pos (by rw [hb]; omega), ih, hb]; rfl

/-- A time at a whole second in the years 1000-9999. -/
def IsoTime (ms : Int) : Prop := ms % 1000 = 0 ∧ -30610224000000 ≤ ms ∧ ms < 253402300800000

theorem iso_roundtrip (ms : Int) (h : IsoTime ms) : ∃ s, toIsoString ms = .ok s ∧
    utf8Decode (asciiBytes s) = .ok s ∧ fromIsoString s = .ok ms := by
  obtain ⟨h1, h2, h3⟩ := h
  have hr : roundThousand ms = ms / 1000 := by
    unfold roundThousand; simp only; rw [if_pos (by omega)]
  obtain ⟨t, ht, hs, hrest⟩ := datetimeFromSeconds_spec (ms / 1000) (by omega) (by omega)
  refine ⟨strftimeIso t, ?_, utf8Decode_ascii _ (strftime_ascii t), ?_⟩
  · unfold toIsoString; rw [hr, ht]; rfl
  · rw [fromIso_strftime t hrest, hs]
    congr 1; omega

end PyNDN
