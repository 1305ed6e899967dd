import Verif.Spec.TpmFile
import Verif.Props.Name
import Verif.Props.DigestTree
/-
Lemmas about Base 64 and about the directory.
-/
namespace PyNDN.TpmFile
open Spec.TpmFile (alphabet IsBase64 InLines)

theorem value_char (n : Nat) (h : n < 64) : value (char n) = some n := by
  have : ∀ n : Fin 64, value (char n) = some n.val := by decide
  exact this ⟨n, h⟩

theorem char_ne (n : Nat) (h : n < 64) : char n ≠ 61 := by
  intro e
  have := value_char n h
  rw [e] at this
  cases this

theorem char_alphabet (n : Nat) (h : n < 64) : alphabet[n]? = some (char n) := by
  have : ∀ n : Fin 64, alphabet[n.val]? = some (char n) := by decide +kernel
  exact this ⟨n, h⟩

theorem char_ascii (n : Nat) : char n < 128 := by
  unfold char
  split
  · omega
  · split
    · omega
    · split
      · omega
      · split <;> omega

/-- Induction over groups of three. -/
theorem groups {p : Bytes → Prop} (h0 : p []) (h1 : ∀ a, p [a]) (h2 : ∀ a b, p [a, b]) (h3 : ∀ a b c r, p r → p (a :: b :: c :: r)) : ∀ b, p b
  | [] => h0
  | [a] => h1 a
  | [a, b] => h2 a b
  | a :: b :: c :: r => h3 a b c r (groups h0 h1 h2 h3 r)

theorem b64_isBase64 (b : Bytes) : IsBase64 b (b64encode b) := by
  induction b using groups with
  | h0 => exact .nil
  | h1 a =>
    have ha := a.toNat_lt
    exact .one (char_alphabet _ (by omega)) (char_alphabet _ (by omega)) (by omega)
  | h2 a b =>
    have ha := a.toNat_lt
    have hb := b.toNat_lt
    exact .two (char_alphabet _ (by omega)) (char_alphabet _ (by omega)) (char_alphabet _ (by omega)) (by omega)
  | h3 a b c r ih =>
    have ha := a.toNat_lt
    have hb := b.toNat_lt
    have hc := c.toNat_lt
    exact .three (char_alphabet _ (by omega)) (char_alphabet _ (by omega)) (char_alphabet _ (by omega)) (char_alphabet _ (by omega)) (by omega) ih

/-! ### Decoding -/

theorem a2b_0 (n : Nat) (h : n < 64) (r : List Nat) (left pads : Nat) : a2b (char n :: r) 0 left pads = a2b r 1 n 0 := by
  rw [a2b, if_neg (char_ne n h), value_char n h]; rfl

theorem a2b_1 (n : Nat) (h : n < 64) (r : List Nat) (left pads : Nat) :
    a2b (char n :: r) 1 left pads = (a2b r 2 (n % 16) 0).map (UInt8.ofNat (left * 4 + n / 16) :: ·) := by
  rw [a2b, if_neg (char_ne n h), value_char n h]; rfl

theorem a2b_2 (n : Nat) (h : n < 64) (r : List Nat) (left pads : Nat) :
    a2b (char n :: r) 2 left pads = (a2b r 3 (n % 4) 0).map (UInt8.ofNat (left * 16 + n / 4) :: ·) := by
  rw [a2b, if_neg (char_ne n h), value_char n h]; rfl

theorem a2b_3 (n : Nat) (h : n < 64) (r : List Nat) (left pads : Nat) :
    a2b (char n :: r) 3 left pads = (a2b r 0 0 0).map (UInt8.ofNat (left * 64 + n) :: ·) := by
  rw [a2b, if_neg (char_ne n h), value_char n h]; rfl

theorem ofNat_eq (a : UInt8) (n : Nat) (h : n = a.toNat) : UInt8.ofNat n = a := by rw [h, UInt8.ofNat_toNat]

theorem a2b_pad2 (r : List Nat) (left pads : Nat) : a2b (61 :: 61 :: r) 2 left pads = some [] := by
  rw [a2b, if_pos rfl, if_pos (by omega)]
  split
  · rfl
  · rw [a2b, if_pos rfl, if_pos (by omega), if_pos (by omega)]

theorem a2b_pad3 (r : List Nat) (left pads : Nat) : a2b (61 :: r) 3 left pads = some [] := by
  rw [a2b, if_pos rfl, if_pos (by omega), if_pos (by omega)]

theorem a2b_three (a b c : UInt8) (r : List Nat) : a2b (char (a.toNat / 4) :: char (a.toNat % 4 * 16 + b.toNat / 16) ::
    char (b.toNat % 16 * 4 + c.toNat / 64) :: char (c.toNat % 64) :: r) 0 0 0 = (a2b r 0 0 0).map fun x => a :: b :: c :: x := by
  have ha := a.toNat_lt
  have hb := b.toNat_lt
  have hc := c.toNat_lt
  rw [a2b_0 _ (by omega), a2b_1 _ (by omega), a2b_2 _ (by omega), a2b_3 _ (by omega)]
  rw [ofNat_eq a _ (by omega), ofNat_eq b _ (by omega), ofNat_eq c _ (by omega)]
  cases a2b r 0 0 0 <;> rfl

theorem a2b_encode (b : Bytes) : a2b (b64encode b) 0 0 0 = some b := by
  induction b using groups with
  | h0 => rfl
  | h1 a =>
    have ha := a.toNat_lt
    rw [b64encode, a2b_0 _ (by omega), a2b_1 _ (by omega)]
    rw [a2b_pad2, ofNat_eq a _ (by omega)]
    rfl
  | h2 a b =>
    have ha := a.toNat_lt
    have hb := b.toNat_lt
    rw [b64encode, a2b_0 _ (by omega), a2b_1 _ (by omega), a2b_2 _ (by omega), a2b_pad3, ofNat_eq a _ (by omega), ofNat_eq b _ (by omega)]
    rfl
  | h3 a b c r ih => rw [b64encode, a2b_three, ih]; rfl

/-- The characters that are not skipped. -/
def kept (c : Nat) : Bool := c = 61 || (value c).isSome

theorem a2b_filter (s : List Nat) : ∀ quad left pads, a2b (s.filter kept) quad left pads = a2b s quad left pads := by
  induction s with
  | nil => intros; rfl
  | cons c r ih =>
    intro quad left pads
    by_cases hc : c = 61
    · subst hc
      rw [List.filter_cons_of_pos rfl, a2b, a2b]
      simp only [ih]
    · rcases hv : value c with _ | v
      · rw [List.filter_cons_of_neg (by simp [kept, hc, hv]), a2b, if_neg hc, hv, ih]
      · rw [List.filter_cons_of_pos (by simp [kept, hv]), a2b, a2b, hv]
        simp only [ih]

theorem char_kept (n : Nat) (h : n < 64) : kept (char n) = true := by
  unfold kept
  rw [value_char n h]
  simp

theorem b64_kept (b : Bytes) : ∀ c ∈ b64encode b, kept c = true ∧ c < 128 := by
  have key : ∀ n, n < 64 → kept (char n) = true ∧ char n < 128 := fun n h => ⟨char_kept n h, char_ascii n⟩
  have pad : kept 61 = true ∧ 61 < 128 := by decide
  induction b using groups with
  | h0 => intro c hc; cases hc
  | h1 a =>
    have ha := a.toNat_lt
    intro c hc
    simp only [b64encode, List.mem_cons, List.not_mem_nil, or_false] at hc
    rcases hc with rfl | rfl | rfl | rfl
    · exact key _ (by omega)
    · exact key _ (by omega)
    · exact pad
    · exact pad
  | h2 a b =>
    have ha := a.toNat_lt
    have hb := b.toNat_lt
    intro c hc
    simp only [b64encode, List.mem_cons, List.not_mem_nil, or_false] at hc
    rcases hc with rfl | rfl | rfl | rfl
    · exact key _ (by omega)
    · exact key _ (by omega)
    · exact key _ (by omega)
    · exact pad
  | h3 a b c r ih =>
    have ha := a.toNat_lt
    have hb := b.toNat_lt
    have hc' := c.toNat_lt
    intro x hx
    simp only [b64encode, List.mem_cons] at hx
    rcases hx with rfl | rfl | rfl | rfl | hx
    · exact key _ (by omega)
    · exact key _ (by omega)
    · exact key _ (by omega)
    · exact key _ (by omega)
    · exact ih x hx

theorem addNewlines_nil : addNewlines [] = [] := by rw [addNewlines]

theorem addNewlines_cons {s : List Nat} (h : s ≠ []) : addNewlines s = s.take 64 ++ 10 :: addNewlines (s.drop 64) := by
  cases s with
  | nil => exact absurd rfl h
  | cons c r => rw [addNewlines]

theorem drop_length_lt {s : List Nat} (h : s ≠ []) : (s.drop 64).length < s.length := by
  have := List.length_pos_iff.mpr h
  rw [List.length_drop]
  omega

theorem addNewlines_inLines (s : List Nat) : InLines s (addNewlines s) := by
  by_cases h : s = []
  · subst h; rw [addNewlines_nil]; exact .nil
  · rw [addNewlines_cons h]
    by_cases hl : s.length ≤ 64
    · rw [List.take_of_length_le hl, List.drop_of_length_le hl, addNewlines_nil]
      exact .last h hl
    · have hd : s.drop 64 ≠ [] := by rw [ne_eq, List.drop_eq_nil_iff]; omega
      have ih := addNewlines_inLines (s.drop 64)
      have := InLines.line (s := s.take 64) (by rw [List.length_take]; omega) hd ih
      rwa [List.take_append_drop] at this
termination_by s.length
decreasing_by exact drop_length_lt h

theorem addNewlines_filter (s : List Nat) (hs : ∀ c ∈ s, kept c = true) : (addNewlines s).filter kept = s := by
  by_cases h : s = []
  · subst h; rw [addNewlines_nil]; rfl
  · rw [addNewlines_cons h, List.filter_append, List.filter_cons_of_neg (by decide),
      addNewlines_filter (s.drop 64) (fun c hc => hs c (List.mem_of_mem_drop hc)),
      List.filter_eq_self.mpr (fun c hc => hs c (List.mem_of_mem_take hc)), List.take_append_drop]
termination_by s.length
decreasing_by exact drop_length_lt h

theorem addNewlines_ascii (s : List Nat) (hs : ∀ c ∈ s, c < 128) : ∀ c ∈ addNewlines s, c < 128 := by
  by_cases h : s = []
  · subst h; rw [addNewlines_nil]; intro c hc; cases hc
  · rw [addNewlines_cons h]
    intro c hc
    rcases List.mem_append.mp hc with hc | hc
    · exact hs c (List.mem_of_mem_take hc)
    · rcases List.mem_cons.mp hc with rfl | hc
      · omega
      · exact addNewlines_ascii (s.drop 64) (fun c hc => hs c (List.mem_of_mem_drop hc)) c hc
termination_by s.length
decreasing_by exact drop_length_lt h

theorem text_spec (b : Bytes) (newlines : Bool) : (base64Encode b newlines).filter kept = b64encode b ∧
    ∀ c ∈ base64Encode b newlines, c < 128 := by
  cases newlines
  · exact ⟨List.filter_eq_self.mpr fun c hc => (b64_kept b c hc).1, fun c hc => (b64_kept b c hc).2⟩
  · exact ⟨addNewlines_filter _ fun c hc => (b64_kept b c hc).1, addNewlines_ascii _ fun c hc => (b64_kept b c hc).2⟩

theorem b64decode_encode (b : Bytes) (newlines : Bool) : b64decode (base64Encode b newlines) = some b := by
  obtain ⟨h1, h2⟩ := text_spec b newlines
  unfold b64decode
  rw [if_pos (List.all_eq_true.mpr fun c hc => decide_eq_true (h2 c hc)), ← a2b_filter, h1, a2b_encode]

/-- A part of an encoding from the start: nothing is decoded, or the bytes of whole groups, fewer than all. -/
theorem a2b_take (b : Bytes) : ∀ n, n < (b64encode b).length → a2b ((b64encode b).take n) 0 0 0 = none ∨
    ∃ m, m < b.length ∧ a2b ((b64encode b).take n) 0 0 0 = some (b.take m) := by
  have one : ∀ i, i < 64 → a2b [char i] 0 0 0 = none := fun i hi => by rw [a2b_0 _ hi]; rfl
  have two : ∀ i j, i < 64 → j < 64 → a2b [char i, char j] 0 0 0 = none := fun i j hi hj => by
    rw [a2b_0 _ hi, a2b_1 _ hj]; rfl
  have three : ∀ i j k, i < 64 → j < 64 → k < 64 → a2b [char i, char j, char k] 0 0 0 = none := fun i j k hi hj hk => by
    rw [a2b_0 _ hi, a2b_1 _ hj, a2b_2 _ hk]; rfl
  have padOne : ∀ i j, i < 64 → j < 64 → a2b [char i, char j, 61] 0 0 0 = none := fun i j hi hj => by
    rw [a2b_0 _ hi, a2b_1 _ hj]; rfl
  induction b using groups with
  | h0 => intro n h; exact absurd h (Nat.not_lt_zero _)
  | h1 a =>
    have ha := a.toNat_lt
    intro n h
    rw [b64encode] at h ⊢
    simp only [List.length_cons, List.length_nil] at h
    match n, h with
    | 0, _ => exact .inr ⟨0, by simp, rfl⟩
    | 1, _ => exact .inl (one _ (by omega))
    | 2, _ => exact .inl (two _ _ (by omega) (by omega))
    | 3, _ => exact .inl (padOne _ _ (by omega) (by omega))
  | h2 a b =>
    have ha := a.toNat_lt
    have hb := b.toNat_lt
    intro n h
    rw [b64encode] at h ⊢
    simp only [List.length_cons, List.length_nil] at h
    match n, h with
    | 0, _ => exact .inr ⟨0, by simp, rfl⟩
    | 1, _ => exact .inl (one _ (by omega))
    | 2, _ => exact .inl (two _ _ (by omega) (by omega))
    | 3, _ => exact .inl (three _ _ _ (by omega) (by omega) (by omega))
  | h3 a b c r ih =>
    have ha := a.toNat_lt
    have hb := b.toNat_lt
    have hc := c.toNat_lt
    intro n h
    rw [b64encode] at h ⊢
    simp only [List.length_cons] at h
    match n, h with
    | 0, _ => exact .inr ⟨0, by simp, rfl⟩
    | 1, _ => exact .inl (one _ (by omega))
    | 2, _ => exact .inl (two _ _ (by omega) (by omega))
    | 3, _ => exact .inl (three _ _ _ (by omega) (by omega) (by omega))
    | n + 4, h =>
      simp only [List.take_succ_cons]
      rw [a2b_three]
      rcases ih n (by omega) with q | ⟨m, hm, q⟩
      · exact .inl (by rw [q]; rfl)
      · exact .inr ⟨m + 3, by simp only [List.length_cons]; omega, by rw [q]; rfl⟩

theorem filter_take_prefix {α} (p : α → Bool) (s : List α) (n : Nat) : (s.take n).filter p <+: s.filter p :=
  List.IsPrefix.filter p (List.take_prefix n s)

/-- Part of the text of a key: an error, part of the bytes, or all of them. -/
theorem b64decode_take (b : Bytes) (newlines : Bool) (n : Nat) : b64decode ((base64Encode b newlines).take n) = none ∨
    (∃ m, m < b.length ∧ b64decode ((base64Encode b newlines).take n) = some (b.take m)) ∨
    (b64decode ((base64Encode b newlines).take n) = some b ∧ (base64Encode b newlines).length ≤ n + 1) := by
  obtain ⟨h1, h2⟩ := text_spec b newlines
  have h3 : b64decode ((base64Encode b newlines).take n) = a2b (((base64Encode b newlines).take n).filter kept) 0 0 0 := by
    unfold b64decode
    rw [if_pos (List.all_eq_true.mpr fun c hc => decide_eq_true (h2 c (List.mem_of_mem_take hc))), a2b_filter]
  obtain ⟨k, hk⟩ : ∃ k, ((base64Encode b newlines).take n).filter kept = (b64encode b).take k := by
    have := filter_take_prefix kept (base64Encode b newlines) n
    rw [h1] at this
    exact ⟨_, List.prefix_iff_eq_take.mp this⟩
  rw [h3, hk]
  by_cases hlt : k < (b64encode b).length
  · rcases a2b_take b k hlt with q | q
    · exact .inl q
    · exact .inr (.inl q)
  · refine .inr (.inr ⟨by rw [List.take_of_length_le (Nat.le_of_not_lt hlt), a2b_encode], ?_⟩)
    rw [List.take_of_length_le (Nat.le_of_not_lt hlt)] at hk
    -- what is not written has no characters of the encoding, so that it is at most the last newline
    have hdrop : ((base64Encode b newlines).drop n).filter kept = [] := by
      have e : ((base64Encode b newlines).take n).filter kept ++ ((base64Encode b newlines).drop n).filter kept = b64encode b := by
        rw [← List.filter_append, List.take_append_drop, h1]
      rw [hk] at e
      exact List.append_cancel_left (e.trans (List.append_nil _).symm)
    by_cases hn : (base64Encode b newlines).length ≤ n + 1
    · exact hn
    · exfalso
      -- the last character but one is kept
      have hl : ∃ c, (base64Encode b newlines)[(base64Encode b newlines).length - 2]? = some c ∧ kept c = true := by
        cases newlines with
        | false =>
          have hlen : (b64encode b).length - 2 < (b64encode b).length := by
            have : ¬ (b64encode b).length ≤ n + 1 := hn
            omega
          exact ⟨_, List.getElem?_eq_getElem hlen, (b64_kept b _ (List.getElem_mem hlen)).1⟩
        | true =>
          have key : ∀ s : List Nat, s ≠ [] → (∀ c ∈ s, kept c = true) →
              ∃ c, (addNewlines s)[(addNewlines s).length - 2]? = some c ∧ kept c = true := by
            intro s
            induction hs : s.length using Nat.strongRecOn generalizing s with
            | ind len ih =>
              intro hne hk
              rw [addNewlines_cons hne]
              by_cases hd : s.drop 64 = []
              · have h64 : s.length ≤ 64 := by rwa [List.drop_eq_nil_iff] at hd
                rw [hd, addNewlines_nil, List.take_of_length_le h64]
                have hp := List.length_pos_iff.mpr hne
                refine ⟨s.getLast hne, ?_, hk _ (List.getLast_mem hne)⟩
                rw [List.length_append, List.length_singleton, List.getElem?_append_left (by omega)]
                rw [show s.length + 1 - 2 = s.length - 1 by omega, ← List.getLast?_eq_getElem?, List.getLast?_eq_some_getLast hne]
              · obtain ⟨c, h1, h2⟩ := ih (s.drop 64).length (hs ▸ drop_length_lt hne) _ rfl hd (fun c hc => hk c (List.mem_of_mem_drop hc))
                refine ⟨c, ?_, h2⟩
                have hl : 2 ≤ (addNewlines (s.drop 64)).length := by
                  rw [addNewlines_cons hd, List.length_append, List.length_cons, List.length_take]
                  have := List.length_pos_iff.mpr hd
                  omega
                rw [show s.take 64 ++ 10 :: addNewlines (s.drop 64) = (s.take 64 ++ [10]) ++ addNewlines (s.drop 64) by simp]
                rw [List.length_append, List.getElem?_append_right (by omega)]
                rw [Nat.add_sub_assoc hl, Nat.add_sub_cancel_left]
                exact h1
          refine key _ (fun he => ?_) (fun c hc => (b64_kept b c hc).1)
          have : ¬ (addNewlines (b64encode b)).length ≤ n + 1 := hn
          rw [he, addNewlines_nil] at this
          exact this (by simp)
      obtain ⟨c, hc, hkc⟩ := hl
      have hmem : c ∈ (base64Encode b newlines).drop n := by
        have : ((base64Encode b newlines).drop n)[(base64Encode b newlines).length - 2 - n]? = some c := by
          rw [List.getElem?_drop, show n + ((base64Encode b newlines).length - 2 - n) = (base64Encode b newlines).length - 2 by omega]
          exact hc
        exact List.mem_of_getElem? this
      have : c ∈ ((base64Encode b newlines).drop n).filter kept := List.mem_filter.mpr ⟨hmem, hkc⟩
      rw [hdrop] at this
      cases this

/-! ### The directory -/

theorem lookup_filter (d : Dir) (p q : List Char) : (d.filter (·.1 ≠ p)).lookup q = if q = p then none else d.lookup q := by
  induction d with
  | nil => simp
  | cons x d ih =>
    obtain ⟨k, t⟩ := x
    by_cases hk : k = p
    · rw [List.filter_cons_of_neg (by simp [hk]), ih]
      split
      · rfl
      · rename_i hq
        rw [List.lookup_cons, beq_eq_false_iff_ne.mpr (by rw [hk]; exact hq)]
    · rw [List.filter_cons_of_pos (by simp [hk]), List.lookup_cons, List.lookup_cons, ih]
      by_cases hqk : q = k
      · subst hqk
        simp [hk]
      · rw [beq_eq_false_iff_ne.mpr hqk]

theorem read_remove (d : Dir) (p q : List Char) : (d.remove p).read q = if q = p then none else d.read q := lookup_filter d p q

theorem read_write (d : Dir) (p q : List Char) (t : List Nat) : (d.write p t).read q = if q = p then some t else d.read q := by
  unfold Dir.write Dir.read
  rw [List.lookup_cons]
  by_cases h : q = p
  · rw [if_pos h, h, beq_self_eq_true]
  · rw [if_neg h, beq_eq_false_iff_ne.mpr h]
    show (d.remove p).read q = _
    rw [read_remove, if_neg h]
    rfl

end PyNDN.TpmFile
