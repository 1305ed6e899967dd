import Verif.Lemmas.DerParse
import Verif.Lemmas.Iso
/-
Lemmas for C71: the values.
-/
namespace PyNDN.Der
open Spec.Der

/-! ### Integers -/

theorem fromBe_number (b : Bytes) : fromBe b = number 256 (b.map (·.toNat)) := by
  induction hn : b.length generalizing b with
  | zero => rw [List.eq_nil_of_length_eq_zero hn]; rfl
  | succ k ih =>
    rcases List.eq_nil_or_concat b with rfl | ⟨b', x, rfl⟩
    · rfl
    · rw [List.concat_eq_append] at *
      unfold fromBe
      rw [List.foldl_append, List.map_append, List.map_singleton, number_snoc]
      show fromBe b' * 256 + x.toNat = _
      rw [ih b' (by simpa using hn)]

theorem integerBytes_spec (n : Nat) : IsInteger n (integerBytes n) := by
  unfold integerBytes
  by_cases h : n = 0
  · subst h
    exact ⟨rfl, 0, [], rfl, by decide, fun _ b' r' e => nomatch e⟩
  · obtain ⟨b, r, hb, h0⟩ := beBytes_head n h
    have hn := beBytes_number n
    rw [if_neg h, hb] at *
    dsimp only
    split
    · next hge =>
      have hge : b.toNat ≥ 128 := hge
      refine ⟨?_, 0, b :: r, rfl, by decide, fun _ b' r' e => by cases e; exact hge⟩
      show 0 * _ + number 256 ((b :: r).map (·.toNat)) = n
      rw [hn]; omega
    · next hge =>
      have hge : ¬ b.toNat ≥ 128 := hge
      exact ⟨hn, b, r, rfl, by omega, fun hc => absurd hc h0⟩

/-! ### Object identifiers -/

theorem encode128High_pos {n : Nat} (h : n ≠ 0) : encode128High n = encode128High (n / 128) ++ [UInt8.ofNat (n % 128 + 128)] := by
  rw [encode128High, if_neg h]

theorem encode128High_zero : encode128High 0 = [] := by rw [encode128High, if_pos rfl]

theorem encode128High_spec (n : Nat) : (∀ b ∈ encode128High n, 128 ≤ b.toNat) ∧ (encode128High n).head? ≠ some 128 ∧
    number 128 ((encode128High n).map (·.toNat - 128)) = n := by
  induction n using Nat.strongRecOn with
  | ind n ih =>
    by_cases h : n = 0
    · subst h
      rw [encode128High_zero]
      exact ⟨fun b hb => (nomatch hb), by simp, rfl⟩
    · obtain ⟨i1, i2, i3⟩ := ih (n / 128) (by omega)
      have hv : (UInt8.ofNat (n % 128 + 128)).toNat = n % 128 + 128 := by rw [UInt8.toNat_ofNat']; omega
      rw [encode128High_pos h]
      refine ⟨fun b hb => ?_, ?_, ?_⟩
      · rcases List.mem_append.mp hb with hb | hb
        · exact i1 b hb
        · rw [List.mem_singleton.mp hb, hv]; omega
      · by_cases h2 : n / 128 = 0
        · rw [h2, encode128High_zero, List.nil_append, List.head?_cons]
          intro hc
          have h3 := congrArg UInt8.toNat (Option.some.inj hc)
          rw [hv] at h3
          have h4 : (128 : UInt8).toNat = 128 := rfl
          omega
        · rw [List.head?_append]
          rcases hq : (encode128High (n / 128)).head? with _ | x
          · rw [encode128High_pos h2] at hq
            simp at hq
          · rw [hq] at i2
            exact i2
      · rw [List.map_append, List.map_singleton, number_snoc, i3, hv]
        omega

theorem encode128_spec (n : Nat) : IsSubidentifier n (encode128 n) := by
  unfold encode128
  split
  · next h =>
    have hv : (UInt8.ofNat ((n : Int) % 128).toNat).toNat = n := by rw [UInt8.toNat_ofNat']; omega
    refine ⟨[], UInt8.ofNat ((n : Int) % 128).toNat, rfl, by rw [hv]; omega, fun b hb => (nomatch hb), by simp, ?_⟩
    show (UInt8.ofNat ((n : Int) % 128).toNat).toNat * 1 + 0 = n
    rw [hv]; omega
  · next h =>
    rw [Int.toNat_natCast]
    obtain ⟨h1, h2, h3⟩ := encode128High_spec (n / 128)
    have hv : (UInt8.ofNat (n % 128)).toNat = n % 128 := by rw [UInt8.toNat_ofNat']; omega
    refine ⟨_, _, rfl, by rw [hv]; omega, h1, h2, ?_⟩
    rw [number_snoc, h3, hv]
    omega

theorem decode128_spec (high : Bytes) (last : UInt8) (post : Bytes) (h : ∀ b ∈ high, 128 ≤ b.toNat) (hl : last.toNat < 128) :
    ∀ acc, decode128 (high ++ last :: post) acc =
      .ok (acc * 128 ^ (high.length + 1) + number 128 (high.map (·.toNat - 128) ++ [last.toNat]), post) := by
  induction high with
  | nil =>
    intro acc
    show (if last.toNat ≥ 128 then _ else Except.ok (acc * 128 + last.toNat, post)) = _
    rw [if_neg (by omega)]
    simp [number]
  | cons b r ih =>
    intro acc
    have hb := h b (List.mem_cons_self ..)
    show (if b.toNat ≥ 128 then decode128 (r ++ last :: post) (128 * acc + b.toNat - 128) else _) = _
    rw [if_pos hb, ih (fun x hx => h x (List.mem_cons_of_mem _ hx))]
    have e : number 128 ((b :: r).map (·.toNat - 128) ++ [last.toNat]) = (b.toNat - 128) * 128 ^ (r.length + 1) +
        number 128 (r.map (·.toNat - 128) ++ [last.toNat]) := by
      rw [List.map_cons, List.cons_append, number, List.length_append, List.length_map, List.length_singleton]
    rw [e, List.length_cons, Nat.pow_succ 128 (r.length + 1), show 128 * acc + b.toNat - 128 = acc * 128 + (b.toNat - 128) by omega,
      Nat.add_mul, Nat.mul_assoc, Nat.mul_comm 128 (128 ^ (r.length + 1)), Nat.add_assoc]

theorem decode128_sub {n : Nat} {c : Bytes} (h : IsSubidentifier n c) (post : Bytes) : decode128 (c ++ post) 0 = .ok (n, post) ∧ 0 < c.length := by
  obtain ⟨high, last, rfl, h1, h2, _, h4⟩ := h
  refine ⟨?_, by simp⟩
  rw [List.append_assoc]
  show decode128 (high ++ last :: post) 0 = _
  rw [decode128_spec high last post h2 h1, h4, Nat.zero_mul, Nat.zero_add]

theorem oidParts_spec (ns : List Nat) : ∀ c f, IsSubidentifiers ns c → c.length ≤ f → oidParts f c = .ok ns := by
  induction ns with
  | nil =>
    intro c f h _
    have h : c = [] := h
    subst h
    unfold oidParts
    rfl
  | cons n ns ih =>
    intro c f h hf
    obtain ⟨x, y, h1, h2, rfl⟩ := h
    obtain ⟨h3, h4⟩ := decode128_sub h1 y
    rw [List.length_append] at hf
    obtain ⟨f, rfl⟩ : ∃ g, f = g + 1 := ⟨f - 1, by omega⟩
    have : ∃ b r, x ++ y = b :: r := by
      rcases x with _ | ⟨b, r⟩
      · simp at h4
      · exact ⟨b, r ++ y, rfl⟩
    obtain ⟨b, r, e⟩ := this
    rw [e] at h3 ⊢
    unfold oidParts
    rw [h3]
    dsimp only
    rw [ih y f h2 (by omega)]
    rfl

theorem oidString_spec {value : List Nat} {c : Bytes} (h : IsOid value c) (hb : ∀ a b rest, value = a :: b :: rest → b < 40) :
    oidString c = .ok (dotted value) := by
  obtain ⟨a, b, rest, rfl, h⟩ := h
  have hb := hb a b rest rfl
  unfold oidString
  rw [oidParts_spec _ c _ h (Nat.le_refl _)]
  dsimp only
  rw [show (40 * a + b) / 40 = a by omega, show (40 * a + b) % 40 = b by omega]

theorem subs_flatten (ns : List Nat) : IsSubidentifiers ns (((ns.map fun n : Nat => (n : Int)).map encode128).flatten) := by
  induction ns with
  | nil => rfl
  | cons n ns ih => exact ⟨encode128 n, _, encode128_spec n, ih, by rw [List.map_cons, List.map_cons, List.flatten_cons]⟩

theorem oid_spec (a b : Nat) (rest : List Nat) (ha : a ≤ 2) (hb : b ≤ 39) :
    ∃ c, oid ((a :: b :: rest).map fun n : Nat => (n : Int)) = .ok (prim 6 c) ∧ IsOid (a :: b :: rest) c := by
  refine ⟨encode128 ((a : Int) * 40 + b) ++ ((rest.map fun n : Nat => (n : Int)).map encode128).flatten, ?_, a, b, rest, rfl, _, _, ?_, ?_, rfl⟩
  · rw [List.map_cons, List.map_cons]
    unfold oid
    dsimp only
    rw [if_neg (by omega), if_neg (by omega)]
  · have := encode128_spec (40 * a + b)
    rwa [show ((40 * a + b : Nat) : Int) = (a : Int) * 40 + b by omega] at this
  · exact subs_flatten rest

/-! ### Decimal strings -/

theorem pyDigits_snoc (l : List Nat) (c : Nat) (hl : ∀ x ∈ l, 48 ≤ x ∧ x ≤ 57) (hc : 48 ≤ c ∧ c ≤ 57) : ∀ acc,
    pyDigits (l ++ [c]) acc = some ((pyDigits l acc).getD 0 * 10 + (c - 48)) := by
  induction l with
  | nil =>
    intro acc
    show (if 48 ≤ c ∧ c ≤ 57 then pyDigits [] (some (acc.getD 0 * 10 + (c - 48))) else _) = _
    rw [if_pos hc]
    rfl
  | cons x l ih =>
    intro acc
    have hx := hl x (List.mem_cons_self ..)
    have e : ∀ s, pyDigits (x :: s) acc = pyDigits s (some (acc.getD 0 * 10 + (x - 48))) := by
      intro s
      rw [pyDigits.eq_def]
      exact if_pos hx
    rw [List.cons_append, e, e, ih (fun y hy => hl y (List.mem_cons_of_mem _ hy))]

theorem decimal_digits (n : Nat) : ∀ x ∈ decimal n, 48 ≤ x ∧ x ≤ 57 := by
  induction n using Nat.strongRecOn with
  | ind n ih =>
    intro x hx
    unfold decimal at hx
    split at hx
    · rw [List.mem_singleton.mp hx]; exact digit_range n
    · rcases List.mem_append.mp hx with hx | hx
      · exact ih (n / 10) (by omega) x hx
      · rw [List.mem_singleton.mp hx]; exact digit_range n

theorem pyDigits_decimal (n : Nat) : pyDigits (decimal n) none = some n := by
  induction n using Nat.strongRecOn with
  | ind n ih =>
    unfold decimal
    have hd := digit_range n
    split
    · rw [pyDigits, if_pos hd]
      show some _ = _
      unfold digitChar
      simp only [Option.getD_none, Option.some.injEq]; omega
    · rw [pyDigits_snoc _ _ (decimal_digits _) hd, ih _ (by omega)]
      unfold digitChar
      simp only [Option.getD_some, Option.some.injEq]; omega

theorem decimal_ne (n : Nat) : decimal n ≠ [] := by
  unfold decimal
  split <;> simp

theorem dropWhile_none (l : List Nat) (h : ∀ x ∈ l, isSpace x = false) : l.dropWhile isSpace = l := by
  cases l with
  | nil => rfl
  | cons x l => rw [List.dropWhile_cons, h x (List.mem_cons_self ..)]; rfl

theorem strip_none (l : List Nat) (h : ∀ x ∈ l, isSpace x = false) : ((l.dropWhile isSpace).reverse.dropWhile isSpace).reverse = l := by
  rw [dropWhile_none l h, dropWhile_none _ (fun x hx => h x (List.mem_reverse.mp hx)), List.reverse_reverse]

theorem digit_not_space (x : Nat) (h : 48 ≤ x ∧ x ≤ 57) : isSpace x = false := by
  unfold isSpace; simp; omega

theorem pyInt_decimal (n : Nat) : pyInt (decimal n) = .ok (n : Int) := by
  have hd := decimal_digits n
  unfold pyInt
  rw [strip_none _ fun x hx => digit_not_space x (hd x hx)]
  have hp := pyDigits_decimal n
  rcases hl : decimal n with _ | ⟨x, l⟩
  · exact absurd hl (decimal_ne n)
  · rw [hl] at hp hd
    have hx := hd x (List.mem_cons_self ..)
    dsimp only
    split
    · next heq =>
      split at heq
      · next hc => cases hc; omega
      · next hc => cases hc; omega
      · rw [hp] at heq; cases heq; rfl
    · next heq =>
      split at heq
      · next hc => cases hc; omega
      · next hc => cases hc; omega
      · rw [hp] at heq; cases heq

theorem pyInt_repr (i : Int) : pyInt (reprInt i) = .ok i := by
  unfold reprInt
  split
  · next h =>
    have hd := decimal_digits i.natAbs
    unfold pyInt
    rw [strip_none _ fun x hx => by
      rcases List.mem_cons.mp hx with rfl | hx
      · rfl
      · exact digit_not_space x (hd x hx)]
    have hp := pyDigits_decimal i.natAbs
    simp only [hp]
    show Except.ok (-(i.natAbs : Int)) = _
    congr 1
    omega
  · next h =>
    rw [pyInt_decimal]
    congr 1
    omega

theorem splitDots_none (l : List Nat) (h : 46 ∉ l) : splitDots l = [l] := by
  induction l with
  | nil => rfl
  | cons c l ih =>
    unfold splitDots
    rw [if_neg (fun hc : c = 46 => h (by rw [hc]; exact List.mem_cons_self ..)), ih fun hc => h (List.mem_cons_of_mem _ hc)]

theorem splitDots_dot (l s : List Nat) (h : 46 ∉ l) : splitDots (l ++ 46 :: s) = l :: splitDots s := by
  induction l with
  | nil => rfl
  | cons c l ih =>
    rw [List.cons_append, splitDots, if_neg (fun hc : c = 46 => h (by rw [hc]; exact List.mem_cons_self ..)), ih fun hc => h (List.mem_cons_of_mem _ hc)]

theorem repr_no_dot (i : Int) : 46 ∉ reprInt i := by
  have hd := decimal_digits i.natAbs
  unfold reprInt
  intro h
  split at h
  · rcases List.mem_cons.mp h with h | h
    · omega
    · have := hd _ h; omega
  · have := hd _ h; omega

theorem oid_string (i : Int) (is : List Int) : oidOfString (stringOfOid (i :: is)) = .ok (i :: is) := by
  induction is generalizing i with
  | nil =>
    show oidOfString (reprInt i) = _
    unfold oidOfString
    rw [splitDots_none _ (repr_no_dot i), List.mapM_cons, pyInt_repr]
    rfl
  | cons j is ih =>
    show oidOfString (reprInt i ++ 46 :: stringOfOid (j :: is)) = _
    have h := ih j
    unfold oidOfString at h ⊢
    rw [splitDots_dot _ _ (repr_no_dot i), List.mapM_cons, pyInt_repr, h]
    rfl

theorem dotted_eq : ∀ ns : List Nat, dotted ns = stringOfOid (ns.map fun n : Nat => (n : Int))
  | [] => rfl
  | [n] => by
    show decimal n = reprInt n
    unfold reprInt
    rw [if_neg (by omega)]
    rfl
  | n :: m :: ns => by
    show decimal n ++ 46 :: dotted (m :: ns) = reprInt n ++ 46 :: stringOfOid ((m :: ns).map fun n : Nat => (n : Int))
    have e : reprInt n = decimal n := by
      unfold reprInt
      rw [if_neg (by omega)]
      rfl
    rw [dotted_eq (m :: ns), e]

/-! ### Times -/

theorem field_step {f : List Alt} {fs : List (List Alt)} {g r : List Nat} {x : List (List Nat) × List Nat} {a b : List Alt} {alt : Alt}
    (hf : f = a ++ alt :: b) (ha : ∀ al ∈ a, takeAlt al (g ++ r) = none) (h : takeAlt alt (g ++ r) = some (g, r)) (hx : matchFields fs r = some x) :
    matchFields (f :: fs) (g ++ r) = some (g :: x.1, x.2) := by
  subst hf
  unfold matchFields
  induction a with
  | nil =>
    rw [List.nil_append, List.findSome?_cons, h]
    dsimp only
    rw [hx]
    rfl
  | cons al a ih =>
    rw [List.cons_append, List.findSome?_cons, ha al (List.mem_cons_self ..)]
    exact ih fun y hy => ha y (List.mem_cons_of_mem _ hy)

theorem takeAlt_some (alt : Alt) : ∀ (g r : List Nat), takeAlt alt g = some (g, []) → takeAlt alt (g ++ r) = some (g, r) := by
  induction alt with
  | nil => intro g r h; cases h; rfl
  | cons cs alt ih =>
    intro g r h
    cases g with
    | nil => cases h
    | cons c g =>
      rw [List.cons_append]
      unfold takeAlt at h ⊢
      split at h
      · next hc =>
        rw [if_pos hc]
        rcases ht : takeAlt alt g with _ | ⟨g', r'⟩
        · rw [ht] at h; cases h
        · rw [ht] at h
          cases h
          rw [ih _ r ht]
          rfl
      · cases h

theorem takeAlt_none (alt : Alt) : ∀ (g r : List Nat), alt.length ≤ g.length → takeAlt alt g = none → takeAlt alt (g ++ r) = none := by
  induction alt with
  | nil => intro g r _ h; cases h
  | cons cs alt ih =>
    intro g r hl h
    cases g with
    | nil => cases hl
    | cons c g =>
      rw [List.cons_append]
      unfold takeAlt at h ⊢
      split at h
      · next hc =>
        rw [if_pos hc]
        rcases ht : takeAlt alt g with _ | x
        · rw [ih g r (by simpa using hl) ht]; rfl
        · rw [ht] at h; cases h
      · next hc => exact if_neg hc

/-- The alternative of a field for a number of two digits, found by evaluation. -/
def picks (f : List Alt) (n : Nat) : Bool :=
  (List.range f.length).any fun i => (f.take i).all (fun al => al.length ≤ 2 && (takeAlt al (pad2 n)).isNone) &&
    takeAlt (f[i]?.getD []) (pad2 n) == some (pad2 n, [])

theorem field_pad2 {f : List Alt} {fs : List (List Alt)} {n : Nat} {r : List Nat} {x : List (List Nat) × List Nat} (h : picks f n = true)
    (hx : matchFields fs r = some x) : matchFields (f :: fs) (pad2 n ++ r) = some (pad2 n :: x.1, x.2) := by
  unfold picks at h
  obtain ⟨i, hi, h⟩ := List.any_eq_true.mp h
  have hi := List.mem_range.mp hi
  simp only [Bool.and_eq_true, List.all_eq_true, decide_eq_true_eq, Option.isNone_iff_eq_none, beq_iff_eq] at h
  rw [List.getElem?_eq_getElem hi, Option.getD_some] at h
  exact field_step (a := f.take i) (b := f.drop (i + 1)) (by rw [List.getElem_cons_drop, List.take_append_drop])
    (fun al hal => takeAlt_none al _ r (h.1 al hal).1 (h.1 al hal).2) (takeAlt_some _ _ r h.2) hx

theorem digit_mem (n : Nat) : (digits 0 9).contains (digitChar n) = true := by
  have h : ∀ k : Fin 10, (digits 0 9).contains (48 + k.val) = true := by decide +kernel
  exact h ⟨n % 10, by omega⟩

theorem strptime_strftime (t : DateTime) (h : 1000 ≤ t.year ∧ t.year ≤ 9999 ∧ 1 ≤ t.month ∧
    t.month ≤ 12 ∧ 1 ≤ t.day ∧ t.day ≤ daysInMonth t.year t.month ∧ t.hour ≤ 23 ∧ t.minute ≤ 59 ∧
    t.second ≤ 59) : strptime (strftimeDer t) = .ok t := by
  obtain ⟨y1, y2, m1, m2, d1, d2, hh, hm, hs⟩ := h
  have hd := (daysInMonth_pos t.year t.month).2
  have e : strftimeDer t = decimal t.year ++ (pad2 t.month ++ (pad2 t.day ++ (pad2 t.hour ++ (pad2 t.minute ++ (pad2 t.second ++ [90]))))) := by
    simp [strftimeDer]
  have km : ∀ k : Fin 13, k.val = 0 ∨ picks [[[49], digits 0 2], [[48], digits 1 9], [digits 1 9]] k.val = true := by decide +kernel
  have kd : ∀ k : Fin 32, k.val = 0 ∨ picks [[[51], digits 0 1], [digits 1 2, digits 0 9], [[48], digits 1 9], [digits 1 9], [[32], digits 1 9]] k.val = true := by
    decide +kernel
  have kh : ∀ k : Fin 24, picks [[[50], digits 0 3], [digits 0 1, digits 0 9], [digits 0 9]] k.val = true := by decide +kernel
  have ki : ∀ k : Fin 60, picks [[digits 0 5, digits 0 9], [digits 0 9]] k.val = true := by decide +kernel
  have ks : ∀ k : Fin 60, picks [[[54], digits 0 1], [digits 0 5, digits 0 9], [digits 0 9]] k.val = true := by decide +kernel
  have f7 : matchFields [[[[90, 122]]]] [90] = some ([[90]], []) := by decide +kernel
  have f6 := field_pad2 (ks ⟨t.second, by omega⟩) f7
  have f5 := field_pad2 (ki ⟨t.minute, by omega⟩) f6
  have f4 := field_pad2 (kh ⟨t.hour, by omega⟩) f5
  have f3 := field_pad2 ((kd ⟨t.day, by omega⟩).resolve_left (by dsimp only; omega)) f4
  have f2 := field_pad2 ((km ⟨t.month, by omega⟩).resolve_left (by dsimp only; omega)) f3
  dsimp only at f2
  have hy : takeAlt [digits 0 9, digits 0 9, digits 0 9, digits 0 9] (decimal t.year) = some (decimal t.year, []) := by
    rw [decimal4 _ y1 y2]
    unfold takeAlt; rw [if_pos (digit_mem _)]
    unfold takeAlt; rw [if_pos (digit_mem _)]
    unfold takeAlt; rw [if_pos (digit_mem _)]
    unfold takeAlt; rw [if_pos (digit_mem _)]
    rfl
  have f1 := field_step (f := [[digits 0 9, digits 0 9, digits 0 9, digits 0 9]]) (a := []) rfl (fun al hal => nomatch hal) (takeAlt_some _ _ _ hy) f2
  have fin : mkDateTime t.year t.month t.day t.hour t.minute t.second = .ok t := by
    unfold mkDateTime
    rw [if_pos (by simp only [Int.toNat_natCast]; omega)]
    simp
  unfold strptime
  rw [e, show fields = [[digits 0 9, digits 0 9, digits 0 9, digits 0 9]] :: _ from rfl, f1]
  dsimp only
  rw [pyInt4 _ y1 y2, pyInt2 _ (by omega), pyInt2 _ (by omega), pyInt2 _ (by omega), pyInt2 _ (by omega), pyInt2 _ (by omega)]
  dsimp only
  rw [fin]

theorem strftimeDer_ascii (t : DateTime) : ∀ c ∈ strftimeDer t, c < 128 := by
  have hp : ∀ n, ∀ c ∈ pad2 n, c < 128 := by
    intro n c hc
    simp only [pad2, List.mem_cons, List.not_mem_nil, or_false] at hc
    have h1 := digit_range (n / 10); have h2 := digit_range n
    omega
  intro c hc
  simp only [strftimeDer, List.mem_append, List.mem_singleton] at hc
  rcases hc with (((((hc | hc) | hc) | hc) | hc) | hc) | hc
  · have := decimal_digits _ c hc; omega
  · exact hp _ c hc
  · exact hp _ c hc
  · exact hp _ c hc
  · exact hp _ c hc
  · exact hp _ c hc
  · omega

theorem ascii_back (s : List Nat) (h : ∀ c ∈ s, c < 128) : (asciiBytes s).map (·.toNat) = s := by
  unfold asciiBytes
  rw [List.map_map]
  conv => rhs; rw [← List.map_id s]
  refine List.map_congr_left fun c hc => ?_
  have := h c hc
  show (UInt8.ofNat c).toNat = c
  rw [UInt8.toNat_ofNat']; omega

/-- A time in the years 1000 to 9999 comes back as its whole second. -/
theorem time_spec (ms : Int) (h1 : -30610224000000 ≤ ms) (h2 : ms < 253402300800000) :
    ∃ s, timeString ms = .ok s ∧ generalizedTime ms = .ok (prim 24 (asciiBytes s)) ∧
      ∃ d, strptime ((asciiBytes s).map (·.toNat)) = .ok d ∧ secondsOfDatetime d * 1000 = ms - ms % 1000 := by
  obtain ⟨t, ht, hs, hrest⟩ := datetimeFromSeconds_spec (ms / 1000) (by omega) (by omega)
  have e : timeString ms = .ok (strftimeDer t) := by
    unfold timeString
    rw [ht]
  refine ⟨strftimeDer t, e, by unfold generalizedTime; rw [e]; rfl, t, ?_, ?_⟩
  · rw [ascii_back _ (strftimeDer_ascii t)]
    exact strptime_strftime t hrest
  · rw [hs]; omega

end PyNDN.Der
