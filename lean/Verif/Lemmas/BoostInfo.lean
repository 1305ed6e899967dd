import Verif.Spec.BoostInfo
/-
Lemmas for C82: the parser of configuration files.
-/
namespace PyNDN.BoostInfo
open PyNDN.Spec.BoostInfo
open PyNDN (strip isPySpace Err)

/-! ### Tokens -/

theorem dropWhile_all {p : Char → Bool} {s : Str} (h : ∀ c ∈ s, p c = true) : s.dropWhile p = [] := by
  induction s with
  | nil => rfl
  | cons c s ih => rw [List.dropWhile_cons_of_pos (h c (by simp)), ih fun d hd => h d (List.mem_cons_of_mem _ hd)]

theorem isPySpace_of_blank {c : Char} (h : isBlank c = true) : isPySpace c = true := by
  simp only [isBlank, Bool.or_eq_true, beq_iff_eq] at h
  rcases h with ((rfl | rfl) | rfl) | rfl <;> decide

theorem blank_of_space {c : Char} (h : c = ' ' ∨ c = '\t') : isBlank c = true := by
  rcases h with rfl | rfl <;> decide

/-- The rest of a line after a token. -/
def Stop (rest : Str) : Prop := rest = [] ∨ ∃ c r, rest = c :: r ∧ isBlank c = true

theorem scanToken_stop {rest : Str} (h : Stop rest) (tok : Str) : scanToken false tok rest = (tok, rest) := by
  rcases h with rfl | ⟨c, r, rfl, hc⟩
  · rfl
  · have h1 : c ≠ '\\' := fun e => by subst e; exact absurd hc (by decide)
    have h2 : c ≠ '"' := fun e => by subst e; exact absurd hc (by decide)
    unfold scanToken
    simp [h1, h2, hc]

theorem scanToken_plain (w : Str) (h : ∀ c ∈ w, isBlank c = false ∧ c ≠ '"' ∧ c ≠ '\\') (tok rest : Str) :
    scanToken false tok (w ++ rest) = scanToken false (tok ++ w) rest := by
  induction w generalizing tok with
  | nil => simp
  | cons c w ih =>
    obtain ⟨h1, h2, h3⟩ := h c (by simp)
    rw [List.cons_append, scanToken.eq_def]
    simp only [h3, if_false, Bool.false_eq_true, h2, h1]
    rw [ih fun d hd => h d (List.mem_cons_of_mem _ hd)]
    simp

theorem scanToken_quoted (w tok rest : Str) :
    scanToken true tok (w.flatMap (fun c => if c = '"' ∨ c = '\\' then ['\\', c] else [c]) ++ '"' :: rest) =
      scanToken false (tok ++ w) rest := by
  induction w generalizing tok with
  | nil =>
    simp only [List.flatMap_nil, List.nil_append, List.append_nil]
    rw [scanToken.eq_def]
    simp
  | cons c w ih =>
    rw [List.flatMap_cons]
    by_cases hc : c = '"' ∨ c = '\\'
    · simp only [hc, if_true, List.cons_append, List.nil_append]
      rw [scanToken.eq_def]
      simp only [if_true]
      rw [ih]
      simp
    · simp only [hc, if_false, List.cons_append, List.nil_append]
      have h1 : c ≠ '"' := fun e => hc (.inl e)
      have h2 : c ≠ '\\' := fun e => hc (.inr e)
      rw [scanToken.eq_def]
      simp only [h1, h2, if_false, if_true]
      rw [ih]
      simp

theorem plain_blank {w : Str} (h : Plain w) : ∀ c ∈ w, isBlank c = false ∧ c ≠ '"' ∧ c ≠ '\\' := by
  intro c hc
  obtain ⟨h1, h2, h3, _⟩ := h.2 c hc
  refine ⟨?_, h2, h3⟩
  cases hb : isBlank c with
  | false => rfl
  | true => rw [isPySpace_of_blank hb] at h1; cases h1

theorem scanToken_word {w text : Str} (h : WordText w text) {rest : Str} (hr : Stop rest) :
    scanToken false [] (text ++ rest) = (w, rest) := by
  rcases h with ⟨rfl, hp⟩ | ⟨rfl, _⟩
  · rw [scanToken_plain _ (plain_blank hp), scanToken_stop hr]
    simp
  · unfold quote
    rw [List.cons_append, List.cons_append, scanToken.eq_def]
    simp only [show ('"' : Char) ≠ '\\' by decide, if_false, Bool.false_eq_true, if_true]
    rw [List.append_assoc, List.singleton_append, scanToken_quoted, List.nil_append, scanToken_stop hr]

/-- The text of a word starts with a character that is not blank. -/
theorem wordText_head {w text : Str} (h : WordText w text) : ∃ c r, text = c :: r ∧ isBlank c = false := by
  rcases h with ⟨rfl, hp⟩ | ⟨rfl, _⟩
  · cases text with
    | nil => exact absurd rfl hp.1
    | cons c r => exact ⟨c, r, rfl, (plain_blank hp c (by simp)).1⟩
  · exact ⟨'"', _, rfl, by decide⟩

/-- Words with gaps. -/
inductive Words : List Str → Str → Prop
  | nil {s} : (∀ c ∈ s, isBlank c = true) → Words [] s
  | cons {w text sp ws rest} : (∀ c ∈ sp, isBlank c = true) → WordText w text → Stop rest → Words ws rest →
      Words (w :: ws) (sp ++ text ++ rest)

theorem splitLoop_words {ws : List Str} {s : Str} (h : Words ws s) : ∀ n, s.length ≤ n → splitLoop n s = ws := by
  induction h with
  | nil hs =>
    intro n _
    cases n with
    | zero => rfl
    | succ n =>
      unfold splitLoop
      rw [dropWhile_all hs]
  | cons hsp hw hr _ ih =>
    rename_i w text sp ws rest _
    intro n hn
    obtain ⟨c, r, htext, hc⟩ := wordText_head hw
    have hd : (sp ++ text ++ rest).dropWhile isBlank = text ++ rest := by
      rw [List.append_assoc, List.dropWhile_append_of_pos hsp, htext, List.cons_append, List.dropWhile_cons_of_neg]
      simp [hc]
    have hlen : rest.length < (sp ++ text ++ rest).length := by
      rw [htext]; simp; omega
    obtain ⟨n, rfl⟩ : ∃ m, n = m + 1 := ⟨n - 1, by omega⟩
    unfold splitLoop
    rw [hd]
    have hs := scanToken_word hw hr
    rw [htext, List.cons_append] at hs ⊢
    simp only [hs]
    rw [ih n (by omega)]

theorem shlexSplit_words {ws : List Str} {s : Str} (h : Words ws s) : shlexSplit s = ws := splitLoop_words h _ (Nat.le_refl _)

/-! ### Lines -/

/-- The text has no blank at its ends. -/
def Trim (core : Str) : Prop := core.dropWhile isPySpace = core ∧ core.reverse.dropWhile isPySpace = core.reverse

theorem pySpace_of_spaces {s : Str} (h : Spaces s) : ∀ c ∈ s, isPySpace c = true := fun c hc =>
  isPySpace_of_blank (blank_of_space (h c hc))

theorem dropWhile_trim {core b : Str} (h : Trim core) (hne : core ≠ []) :
    (core ++ b).dropWhile isPySpace = core ++ b := by
  cases core with
  | nil => exact absurd rfl hne
  | cons c core =>
    have h1 := h.1
    rw [List.dropWhile_cons] at h1
    split at h1
    · next hs =>
      have := congrArg List.length h1
      have h2 : (core.dropWhile isPySpace).length ≤ core.length := (List.dropWhile_suffix isPySpace).length_le
      simp at this
      omega
    · next hs => rw [List.cons_append, List.dropWhile_cons_of_neg hs]

theorem strip_line {a core b : Str} (ha : Spaces a) (hb : Spaces b) (h : Trim core) : strip (a ++ core ++ b) = core := by
  unfold strip
  rw [List.append_assoc, List.dropWhile_append_of_pos (pySpace_of_spaces ha)]
  by_cases hne : core = []
  · subst hne
    rw [List.nil_append, dropWhile_all (pySpace_of_spaces hb)]
    rfl
  · rw [dropWhile_trim h hne, List.reverse_append, List.dropWhile_append_of_pos, h.2, List.reverse_reverse]
    intro c hc
    exact pySpace_of_spaces hb c (List.mem_reverse.mp hc)

theorem rstrip_comment (x cm : Str) :
    ∃ cm', ((x ++ ';' :: cm).reverse.dropWhile isPySpace).reverse = x ++ ';' :: cm' := by
  rw [List.reverse_append, List.reverse_cons, List.append_assoc, List.dropWhile_append]
  split
  · refine ⟨[], ?_⟩
    rw [List.singleton_append, List.dropWhile_cons_of_neg (by decide)]
    simp
  · refine ⟨(cm.reverse.dropWhile isPySpace).reverse, ?_⟩
    simp

theorem idxOf_semicolon (x r : Str) (h : ';' ∉ x) : (x ++ ';' :: r).idxOf ';' = x.length := by
  induction x with
  | nil => simp
  | cons c x ih =>
    have hc : c ≠ ';' := fun e => h (by simp [e])
    have hb : (c == ';') = false := beq_eq_false_iff_ne.mpr hc
    rw [List.cons_append, List.idxOf_cons, hb, ih fun hm => h (List.mem_cons_of_mem _ hm)]
    rfl

theorem spaces_no {s : Str} (h : Spaces s) {c : Char} (h1 : c ≠ ' ') (h2 : c ≠ '\t') : c ∉ s := fun hm =>
  (h c hm).elim h1 h2

/-- What `_parseLine` works on, for a line of the given text. -/
theorem cut_line {core line : Str} (h : LineOf core line) (ht : Trim core) (hs : ';' ∉ core) : cutComment (strip line) = core := by
  obtain ⟨a, e, ha, ⟨sp, cm, hsp, hcm, rfl⟩, rfl⟩ := h
  rcases hcm with rfl | ⟨cm, rfl⟩
  · rw [List.append_nil, strip_line ha hsp ht]
    unfold cutComment
    rw [if_neg hs]
  · have hx : ∃ x cm', strip (a ++ core ++ (sp ++ ';' :: cm)) = x ++ ';' :: cm' ∧ ';' ∉ x ∧ strip x = core := by
      unfold strip
      rw [List.append_assoc, List.dropWhile_append_of_pos (pySpace_of_spaces ha)]
      by_cases hne : core = []
      · subst hne
        rw [List.nil_append, List.dropWhile_append_of_pos (pySpace_of_spaces hsp), List.dropWhile_cons_of_neg (by decide)]
        obtain ⟨cm', hcm'⟩ := rstrip_comment [] cm
        exact ⟨[], cm', hcm', by simp, rfl⟩
      · rw [dropWhile_trim ht hne, ← List.append_assoc]
        obtain ⟨cm', hcm'⟩ := rstrip_comment (core ++ sp) cm
        refine ⟨core ++ sp, cm', hcm', ?_, ?_⟩
        · intro hm
          rcases List.mem_append.mp hm with hm | hm
          · exact hs hm
          · exact spaces_no hsp (by decide) (by decide) hm
        · have := strip_line (a := []) (b := sp) (fun c hc => by cases hc) hsp ht
          simpa [strip] using this
    obtain ⟨x, cm', h1, h2, h3⟩ := hx
    rw [h1]
    unfold cutComment
    rw [if_pos (by simp), idxOf_semicolon x cm' h2, List.take_left', h3]
    rfl

theorem quote_last (w : Str) : (quote w).reverse = '"' :: ('"' :: w.flatMap fun c => if c = '"' ∨ c = '\\' then ['\\', c] else [c]).reverse := by
  unfold quote
  simp

/-- The text of a word: no blank at the ends, no semicolon. -/
theorem wordText_ends {w text : Str} (h : WordText w text) :
    (∃ c r, text = c :: r ∧ isPySpace c = false) ∧ (∃ c r, text.reverse = c :: r ∧ isPySpace c = false) ∧ ';' ∉ text := by
  rcases h with ⟨rfl, hp⟩ | ⟨rfl, hw⟩
  · refine ⟨?_, ?_, fun hm => (hp.2 _ hm).2.2.2 rfl⟩
    · cases text with
      | nil => exact absurd rfl hp.1
      | cons c r => exact ⟨c, r, rfl, (hp.2 c (by simp)).1⟩
    · cases hr : text.reverse with
      | nil => exact absurd (List.reverse_eq_nil_iff.mp hr) hp.1
      | cons c r =>
        refine ⟨c, r, rfl, (hp.2 c ?_).1⟩
        rw [← List.mem_reverse, hr]
        simp
  · refine ⟨⟨'"', _, rfl, by decide⟩, ⟨'"', _, quote_last w, by decide⟩, ?_⟩
    intro hm
    unfold quote at hm
    simp only [List.cons_append, List.mem_cons, List.mem_append, List.mem_flatMap, List.not_mem_nil, or_false] at hm
    rcases hm with hm | ⟨c, hc, hm⟩ | hm
    · exact absurd hm (by decide)
    · split at hm
      · simp only [List.mem_cons, List.not_mem_nil, or_false] at hm
        rcases hm with hm | hm
        · exact absurd hm (by decide)
        · exact (hw c hc).2 hm.symm
      · simp only [List.mem_cons, List.not_mem_nil, or_false] at hm
        exact (hw c hc).2 hm.symm
    · exact absurd hm (by decide)

theorem trim_of {a b : Char} {r s text : Str} (h1 : text = a :: r) (ha : isPySpace a = false) (h2 : text.reverse = b :: s)
    (hb : isPySpace b = false) : Trim text := by
  refine ⟨?_, ?_⟩
  · rw [h1, List.dropWhile_cons_of_neg (by simp [ha])]
  · rw [h2, List.dropWhile_cons_of_neg (by simp [hb])]

theorem stop_nil : Stop [] := .inl rfl
theorem stop_space {gap rest : Str} (hg : Spaces gap) (hne : gap ≠ []) : Stop (gap ++ rest) := by
  cases gap with
  | nil => exact absurd rfl hne
  | cons c g => exact .inr ⟨c, g ++ rest, rfl, blank_of_space (hg c (by simp))⟩

theorem blanks_of_spaces {s : Str} (h : Spaces s) : ∀ c ∈ s, isBlank c = true := fun c hc => blank_of_space (h c hc)

/-- The words of the text of an entry, followed by a gap or nothing and other words. -/
theorem entry_words {key : Str} {value : Option Str} {text : Str} (h : EntryText key value text) {ws : List Str} {rest : Str}
    (hr : Stop rest) (hw : Words ws rest) : Words (key :: (value.toList ++ ws)) (text ++ rest) := by
  obtain ⟨_, h⟩ := h
  cases value with
  | none =>
    have := Words.cons (sp := []) (by simp) h hr hw
    simpa using this
  | some v =>
    obtain ⟨kt, gap, vt, hk, hg, hne, hv, rfl⟩ := h
    have h1 := Words.cons (blanks_of_spaces hg) hv hr hw
    have h2 := Words.cons (sp := []) (by simp) hk (by rw [List.append_assoc]; exact stop_space hg hne) h1
    simpa using h2

theorem entry_ends {key : Str} {value : Option Str} {text : Str} (h : EntryText key value text) :
    (∃ c r, text = c :: r ∧ isPySpace c = false) ∧ (∃ c r, text.reverse = c :: r ∧ isPySpace c = false) ∧ ';' ∉ text := by
  obtain ⟨_, h⟩ := h
  cases value with
  | none => exact wordText_ends h
  | some v =>
    obtain ⟨kt, gap, vt, hk, hg, hne, hv, rfl⟩ := h
    obtain ⟨⟨c, r, rfl, hc⟩, _, h3⟩ := wordText_ends hk
    obtain ⟨_, ⟨d, s, hd, hd'⟩, h4⟩ := wordText_ends hv
    refine ⟨⟨c, _, by simp; rfl, hc⟩, ⟨d, s ++ ((c :: r) ++ gap).reverse, by
      rw [List.reverse_append, hd]; simp, hd'⟩, ?_⟩
    intro hm
    rcases List.mem_append.mp hm with hm | hm
    · rcases List.mem_append.mp hm with hm | hm
      · exact h3 hm
      · exact spaces_no hg (by decide) (by decide) hm
    · exact h4 hm

theorem not_brace {key : Str} {value : Option Str} (h : WordsOk key value) :
    ((key :: value.toList).any fun s => s == ['{']) = false ∧ ((key :: value.toList).any fun s => s == ['}']) = false := by
  constructor
  · rw [List.any_eq_false]
    intro w hw
    simpa using (h.1 w hw).1
  · rw [List.any_eq_false]
    intro w hw
    simpa using (h.1 w hw).2

theorem cutComment_id {s : Str} (h : ';' ∉ s) : cutComment s = s := by
  unfold cutComment
  rw [if_neg h]

variable {files : Files} {readFile : Str → Ctx → Except Err Ctx}

/-- The text of an entry, maybe followed by a gap. -/
theorem parse_entry {key : Str} {value : Option Str} {text : Str} (h : EntryText key value text) {gap : Str} (hg : Spaces gap)
    {string : Str} (hs : cutComment string = text ++ gap) (n : Nat) (ctx : Ctx) :
    parseLine files readFile (n + 1) string ctx = ctx.create key value := by
  have hw : Words (key :: (value.toList ++ [])) (text ++ gap) := by
    refine entry_words h ?_ (.nil (blanks_of_spaces hg))
    cases gap with
    | nil => exact stop_nil
    | cons c g => exact .inr ⟨c, g, rfl, blank_of_space (hg c (by simp))⟩
  rw [List.append_nil] at hw
  obtain ⟨⟨c, r, hc, _⟩, _, _⟩ := entry_ends h
  have hlen : (text ++ gap).length ≠ 0 := by rw [hc]; simp
  unfold parseLine
  simp only [hs, hlen, if_false, shlexSplit_words hw, (not_brace h.1).1, (not_brace h.1).2, Bool.not_false, Bool.and_self, if_true]
  rw [if_neg h.1.2]
  congr 1
  cases value <;> rfl

/-- A line of inclusion. -/
theorem parse_include {name w : Str} (hw : WordText name w) (hn : name ≠ ['{'] ∧ name ≠ ['}']) {input : Str}
    (hf : files name = some input) {string : Str} (hs : cutComment string = "#include ".toList ++ w) (n : Nat) (ctx : Ctx) :
    parseLine files readFile (n + 1) string ctx = readFile input ctx := by
  have hk : WordText "#include".toList "#include".toList := .inl ⟨rfl, by decide, by decide⟩
  have h1 := Words.cons (sp := [' ']) (ws := []) (rest := []) (by decide) hw stop_nil (.nil (by simp))
  have h2 := Words.cons (sp := []) (by simp) hk (.inr ⟨' ', w ++ [], rfl, by decide⟩) h1
  have heq : [] ++ "#include".toList ++ ' ' :: (w ++ []) = "#include ".toList ++ w := by
    rw [List.append_nil]
    rfl
  rw [heq] at h2
  have hlen : ("#include ".toList ++ w).length ≠ 0 := by
    rw [List.length_append]
    have : "#include ".toList.length = 9 := by decide
    omega
  have ha : (["#include".toList, name].any fun s => s == ['{']) = false := by
    have : ("#include".toList == ['{']) = false := by decide
    simp [this, hn.1]
  have hb : (["#include".toList, name].any fun s => s == ['}']) = false := by
    have : ("#include".toList == ['}']) = false := by decide
    simp [this, hn.2]
  unfold parseLine
  simp only [hs, hlen, if_false, shlexSplit_words h2, ha, hb, Bool.not_false, Bool.and_self, if_true, List.head?_cons, hf]

theorem parse_blank {line : Str} (h : BlankLine line) (n : Nat) (ctx : Ctx) :
    parseLine files readFile (n + 1) (strip line) ctx = .ok ctx := by
  have : cutComment (strip line) = [] :=
    cut_line (core := []) ⟨[], line, (fun c hc => by cases hc), h, by simp⟩ ⟨rfl, rfl⟩ (by simp)
  unfold parseLine
  simp [this]

theorem parse_open {string : Str} (hs : cutComment string = ['{']) (n : Nat) (ctx : Ctx) :
    parseLine files readFile (n + 1) string ctx = ctx.enter := by
  unfold parseLine
  have h1 : shlexSplit ['{'] = [['{']] := by decide
  simp only [hs, h1]
  simp

theorem parse_close {string : Str} (hs : cutComment string = ['}']) (n : Nat) (ctx : Ctx) :
    parseLine files readFile (n + 1) string ctx = ctx.leave := by
  unfold parseLine
  have h1 : shlexSplit ['}'] = [['}']] := by decide
  have h2 : List.idxOf '{' ['}'] = 1 := by decide
  simp only [hs, h1, h2]
  simp

theorem idxOf_brace (x r : Str) (h : '{' ∉ x) : (x ++ '{' :: r).idxOf '{' = x.length := by
  induction x with
  | nil => simp
  | cons c x ih =>
    have hc : c ≠ '{' := fun e => h (by simp [e])
    have hb : (c == '{') = false := beq_eq_false_iff_ne.mpr hc
    rw [List.cons_append, List.idxOf_cons, hb, ih fun hm => h (List.mem_cons_of_mem _ hm)]
    rfl

/-- An entry with an opening brace on the same line. -/
theorem parse_both {key : Str} {value : Option Str} {text gap : Str} (h : EntryText key value text) (hb : '{' ∉ text)
    (hg : Spaces gap) (hne : gap ≠ []) {string : Str} (hs : cutComment string = text ++ gap ++ ['{']) (ctx : Ctx) :
    parseLine files readFile 2 string ctx = (do let c ← ctx.create key value; c.enter) := by
  have hbrace : WordText ['{'] ['{'] := .inl ⟨rfl, by simp, by
    intro c hc
    simp only [List.mem_singleton] at hc
    subst hc
    decide⟩
  have hw : Words (key :: (value.toList ++ [['{']])) (text ++ (gap ++ ['{'] ++ [])) :=
    entry_words h (by rw [List.append_assoc]; exact stop_space hg hne)
      (.cons (blanks_of_spaces hg) hbrace stop_nil (.nil (by simp)))
  obtain ⟨⟨c, r, hc, _⟩, _, hsemi⟩ := entry_ends h
  have heq : text ++ (gap ++ ['{'] ++ []) = text ++ gap ++ ['{'] := by simp
  rw [heq] at hw
  have hlen : (text ++ gap ++ ['{']).length ≠ 0 := by simp
  have hno : '{' ∉ text ++ gap := by
    intro hm
    rcases List.mem_append.mp hm with hm | hm
    · exact hb hm
    · exact spaces_no hg (by decide) (by decide) hm
  have hsno : ';' ∉ text ++ gap := by
    intro hm
    rcases List.mem_append.mp hm with hm | hm
    · exact hsemi hm
    · exact spaces_no hg (by decide) (by decide) hm
  have hany : ((key :: (value.toList ++ [['{']])).any fun s => s == ['{']) = true := by simp
  have hidx := idxOf_brace (text ++ gap) [] hno
  have hpos : 0 < (text ++ gap).length ∧ (text ++ gap).length < (text ++ gap ++ ['{']).length := by
    constructor
    · rw [hc]; simp only [List.cons_append, List.length_cons]; omega
    · simp only [List.length_append, List.length_cons, List.length_nil]; omega
  have htake : (text ++ gap ++ ['{']).take (text ++ gap).length = text ++ gap := List.take_left
  have hdrop : (text ++ gap ++ ['{']).drop (text ++ gap).length = ['{'] := List.drop_left
  rw [parseLine]
  simp only [hs, hlen, if_false, shlexSplit_words hw, hany, Bool.not_true, Bool.false_and, Bool.false_eq_true, hidx]
  rw [if_pos hpos, htake, hdrop, parse_entry h hg (cutComment_id hsno) 0 ctx]
  cases ctx.create key value with
  | error e => rfl
  | ok c =>
    show parseLine files readFile 1 ['{'] c = c.enter
    exact parse_open (cutComment_id (by decide)) 0 c

/-! ### Trees -/

theorem viewList_append (a b : List Tree) : viewList (a ++ b) = viewList a ++ viewList b := by
  induction a with
  | nil => rw [List.nil_append, viewList.eq_def []]; simp
  | cons t a ih => rw [List.cons_append, viewList.eq_def, viewList.eq_def (t :: a)]; simp [ih]

/-- `addSubtree`, for any kind of elements. -/
def insertKey {α : Type} (k : Str) (x : α) : List (Str × List α) → List (Str × List α)
  | [] => [(k, [x])]
  | (j, xs) :: rest => if j = k then (j, xs ++ [x]) :: rest else (j, xs) :: insertKey k x rest

theorem viewDict_insert (k : Str) (c : Tree) (subs : List (Str × List Tree)) :
    viewDict (insertTree k c subs) = insertKey k (view c) (viewDict subs) := by
  induction subs with
  | nil => simp [insertTree, viewDict, viewList, insertKey]
  | cons p subs ih =>
    obtain ⟨j, ts⟩ := p
    simp only [insertTree, viewDict, insertKey]
    split
    · simp [viewDict, viewList_append, viewList]
    · simp [viewDict, ih]

theorem replaceLast_insert (k : Str) (c d : Tree) (subs : List (Str × List Tree)) :
    replaceLast k d (insertTree k c subs) = insertTree k d subs := by
  induction subs with
  | nil => simp [insertTree, replaceLast]
  | cons p subs ih =>
    obtain ⟨j, ts⟩ := p
    simp only [insertTree]
    split
    · simp [replaceLast, *]
    · simp [replaceLast, *]

theorem lookup_insert (k : Str) (c : Tree) (subs : List (Str × List Tree)) :
    ∃ ts, lookup k (insertTree k c subs) = some (ts ++ [c]) := by
  induction subs with
  | nil => exact ⟨[], by simp [insertTree, lookup]⟩
  | cons p subs ih =>
    obtain ⟨j, ts⟩ := p
    simp only [insertTree]
    split
    · exact ⟨ts, by simp [lookup, *]⟩
    · simpa [lookup, *] using ih

theorem lastChild_create (t : Tree) (k : Str) (v : Option Str) : (t.createSubtree k v).lastChild = some (Tree.empty v) := by
  obtain ⟨ts, h⟩ := lookup_insert k (Tree.empty v) t.subtrees
  simp [Tree.lastChild, Tree.createSubtree, Tree.last, Tree.subtrees, h]
  have h' : lookup k (insertTree k (Tree.empty v) t.subtrees) = some (ts ++ [Tree.empty v]) := h
  simp only [Tree.subtrees] at h'
  rw [h']
  simp

theorem view_setLastChild (t : Tree) (k : Str) (v : Option Str) (c : Tree) :
    view ((t.createSubtree k v).setLastChild c) = .node t.value (insertKey k (view c) (viewDict t.subtrees)) := by
  simp [Tree.setLastChild, Tree.createSubtree, Tree.last, Tree.subtrees, Tree.value, view]
  rw [replaceLast_insert, viewDict_insert]

theorem view_create (t : Tree) (k : Str) (v : Option Str) :
    view (t.createSubtree k v) = .node t.value (insertKey k (.node v []) (viewDict t.subtrees)) := by
  simp [Tree.createSubtree, view, viewDict_insert, Tree.empty, viewDict]

/-! ### Grouping -/

theorem firsts_append (ks : List Str) (k : Str) : firsts (ks ++ [k]) = if k ∈ ks then firsts ks else firsts ks ++ [k] := by
  induction ks with
  | nil => simp [firsts]
  | cons j ks ih =>
    rw [List.cons_append, firsts, ih]
    by_cases hk : k ∈ ks
    · simp [hk, firsts]
    · by_cases hj : k = j
      · subst hj
        simp [hk, firsts]
      · simp [hk, hj, firsts, List.filter_append]

theorem mem_firsts (ks : List Str) (k : Str) : k ∈ firsts ks ↔ k ∈ ks := by
  induction ks with
  | nil => simp [firsts]
  | cons j ks ih =>
    simp only [firsts, List.mem_cons, List.mem_filter, ih, decide_eq_true_eq]
    by_cases h : k = j <;> simp [h]

theorem nodup_firsts (ks : List Str) : (firsts ks).Nodup := by
  induction ks with
  | nil => simp [firsts]
  | cons j ks ih =>
    rw [firsts, List.nodup_cons]
    exact ⟨by simp, ih.filter _⟩

theorem insertKey_map {α : Type} (k : Str) (x : α) (f : Str → List α) (ks : List Str) (hn : ks.Nodup) :
    insertKey k x (ks.map fun j => (j, f j)) =
      if k ∈ ks then ks.map fun j => (j, f j ++ if j = k then [x] else []) else (ks.map fun j => (j, f j)) ++ [(k, [x])] := by
  induction ks with
  | nil => simp [insertKey]
  | cons j ks ih =>
    rw [List.nodup_cons] at hn
    rw [List.map_cons, insertKey, ih hn.2]
    by_cases hj : j = k
    · subst hj
      simp only [if_true, List.mem_cons, true_or, List.map_cons, List.cons.injEq, true_and]
      apply List.map_congr_left
      intro i hi
      have : i ≠ j := fun e => hn.1 (e ▸ hi)
      simp [this]
    · have hj' : ¬ k = j := fun e => hj e.symm
      simp only [hj, if_false, List.mem_cons, hj', false_or, List.append_nil]
      split <;> simp [hj]

theorem group_append {α : Type} (l : List (Str × α)) (k : Str) (x : α) : group (l ++ [(k, x)]) = insertKey k x (group l) := by
  unfold group
  rw [insertKey_map _ _ _ _ (nodup_firsts _)]
  simp only [List.map_append, List.map_cons, List.map_nil, firsts_append, mem_firsts]
  by_cases hk : k ∈ l.map Prod.fst
  · rw [if_pos hk, if_pos hk]
    apply List.map_congr_left
    intro j _
    by_cases hj : j = k
    · subst hj; simp [List.filter_append]
    · have : ¬ k = j := fun e => hj e.symm
      simp [List.filter_append, hj, this]
  · rw [if_neg hk, if_neg hk, List.map_append]
    congr 1
    · apply List.map_congr_left
      intro j hj
      rw [mem_firsts] at hj
      have : ¬ k = j := fun e => hk (e ▸ hj)
      simp [List.filter_append, this]
    · have : l.filter (fun p => decide (p.1 = k)) = [] := by
        rw [List.filter_eq_nil_iff]
        intro p hp
        simp only [decide_eq_true_eq]
        intro e
        exact hk (List.mem_map.mpr ⟨p, hp, e⟩)
      simp [List.filter_append, this]

theorem itemsView_append (a b : List Item) : itemsView (a ++ b) = itemsView a ++ itemsView b := by
  induction a with
  | nil => simp [itemsView]
  | cons i a ih => simp [itemsView, ih]

/-! ### Reading lines -/

theorem readLines_append (a b : List Str) (ctx : Ctx) :
    readLines files readFile (a ++ b) ctx = (do let c ← readLines files readFile a ctx; readLines files readFile b c) := by
  induction a generalizing ctx with
  | nil => rfl
  | cons l a ih =>
    rw [List.cons_append, readLines, readLines]
    cases parseLine files readFile 2 (strip l) ctx with
    | error e => rfl
    | ok c => exact ih c

theorem readLines_blanks {bs : List Str} (h : ∀ b ∈ bs, BlankLine b) (ctx : Ctx) :
    readLines files readFile bs ctx = .ok ctx := by
  induction bs with
  | nil => rfl
  | cons b bs ih =>
    rw [readLines, parse_blank (h b (by simp)) 1 ctx]
    exact ih fun c hc => h c (List.mem_cons_of_mem _ hc)

/-- What a node has after the entries. -/
def addItems (d : List (Str × List View)) : List Item → List (Str × List View)
  | [] => d
  | i :: is => addItems (insertKey i.key (itemView i) d) is

theorem addItems_group (pre items : List Item) : addItems (group (itemsView pre)) items = group (itemsView (pre ++ items)) := by
  induction items generalizing pre with
  | nil => simp [addItems]
  | cons i is ih =>
    rw [addItems]
    have := ih (pre ++ [i])
    rw [itemsView_append, show itemsView [i] = [(i.key, itemView i)] by simp [itemsView], group_append] at this
    rw [this, List.append_assoc]
    rfl

theorem trim_brace {c : Char} (h : isPySpace c = false) : Trim [c] := trim_of rfl h rfl h

theorem entry_trim {key : Str} {value : Option Str} {text : Str} (h : EntryText key value text) : Trim text := by
  obtain ⟨⟨c, r, h1, h2⟩, ⟨d, s, h3, h4⟩, _⟩ := entry_ends h
  exact trim_of h1 h2 h3 h4

theorem view_eq (t : Tree) : view t = .node t.value (viewDict t.subtrees) := by
  obtain ⟨v, s, l⟩ := t
  simp [view, Tree.value, Tree.subtrees]

/-- The lines of entries add the entries to the node. -/
theorem readLines_items {items : List Item} {ls : List Str} (h : Lines items ls) : ∀ (t : Tree) (anc : List Tree),
    ∃ t', readLines files readFile ls (.node t anc) = .ok (.node t' anc) ∧
      view t' = .node t.value (addItems (viewDict t.subtrees) items) := by
  induction h with
  | nil => exact fun t anc => ⟨t, rfl, view_eq t⟩
  | blank hb _ ih =>
    intro t anc
    rw [readLines, parse_blank hb 1]
    exact ih t anc
  | entry he hl _ ih =>
    rename_i key value text l items ls _
    intro t anc
    have hs := cut_line hl (entry_trim he) (entry_ends he).2.2
    rw [readLines, parse_entry he (gap := []) (fun c hc => by cases hc) (by simpa using hs) 1]
    obtain ⟨t', h1, h2⟩ := ih (t.createSubtree key value) anc
    refine ⟨t', h1, ?_⟩
    have hv := view_create t key value
    rw [view_eq] at hv
    injection hv with hv1 hv2
    rw [h2, hv1, hv2, addItems]
    simp [Item.key, itemView, itemsView, group, firsts]
  | «section» he hl hbl ho hc hcl hrest ihc ihr =>
    rename_i key value text l blanks o children body c items ls
    intro t anc
    have hs := cut_line hl (entry_trim he) (entry_ends he).2.2
    rw [readLines, parse_entry he (gap := []) (fun c hc => by cases hc) (by simpa using hs) 1]
    show ∃ t', readLines files readFile (blanks ++ o :: (body ++ c :: ls)) (.node (t.createSubtree key value) anc) = _ ∧ _
    rw [readLines_append, readLines_blanks hbl]
    show ∃ t', readLines files readFile (o :: (body ++ c :: ls)) (.node (t.createSubtree key value) anc) = _ ∧ _
    rw [readLines, parse_open (cut_line ho (trim_brace (by decide)) (by decide)) 1, Ctx.enter, lastChild_create]
    show ∃ t', readLines files readFile (body ++ c :: ls) (.node (Tree.empty value) (t.createSubtree key value :: anc)) = _ ∧ _
    obtain ⟨u, hu1, hu2⟩ := ihc (Tree.empty value) (t.createSubtree key value :: anc)
    rw [readLines_append, hu1]
    show ∃ t', readLines files readFile (c :: ls) (.node u (t.createSubtree key value :: anc)) = _ ∧ _
    rw [readLines, parse_close (cut_line hcl (trim_brace (by decide)) (by decide)) 1, Ctx.leave]
    obtain ⟨t', h1, h2⟩ := ihr ((t.createSubtree key value).setLastChild u) anc
    refine ⟨t', h1, ?_⟩
    have hv := view_setLastChild t key value u
    rw [view_eq ((t.createSubtree key value).setLastChild u)] at hv
    injection hv with hv1 hv2
    have hg := addItems_group [] children
    rw [show group (itemsView []) = ([] : List (Str × List View)) by simp [itemsView, group, firsts]] at hg
    rw [h2, hv1, hv2, addItems, hu2]
    simp [Item.key, itemView, Tree.empty, Tree.value, Tree.subtrees, viewDict, hg]
  | sectionSame he hb hg hne hl hc hcl hrest ihc ihr =>
    rename_i key value text gap l children body c items ls
    intro t anc
    obtain ⟨⟨x, r, hx1, hx2⟩, _, hsemi⟩ := entry_ends he
    have htrim : Trim (text ++ gap ++ ['{']) := by
      refine trim_of (a := x) (b := '{') (r := r ++ gap ++ ['{']) (s := (text ++ gap).reverse) ?_ hx2 ?_ (by decide)
      · rw [hx1]; simp
      · simp
    have hno : ';' ∉ text ++ gap ++ ['{'] := by
      intro hm
      rcases List.mem_append.mp hm with hm | hm
      · rcases List.mem_append.mp hm with hm | hm
        · exact hsemi hm
        · exact spaces_no hg (by decide) (by decide) hm
      · exact absurd hm (by decide)
    rw [readLines, parse_both he hb hg hne (cut_line hl htrim hno)]
    show ∃ t', (do
      let ctx ← (Ctx.node (t.createSubtree key value) anc).enter
      readLines files readFile (body ++ c :: ls) ctx) = _ ∧ _
    rw [Ctx.enter, lastChild_create]
    show ∃ t', readLines files readFile (body ++ c :: ls) (.node (Tree.empty value) (t.createSubtree key value :: anc)) = _ ∧ _
    obtain ⟨u, hu1, hu2⟩ := ihc (Tree.empty value) (t.createSubtree key value :: anc)
    rw [readLines_append, hu1]
    show ∃ t', readLines files readFile (c :: ls) (.node u (t.createSubtree key value :: anc)) = _ ∧ _
    rw [readLines, parse_close (cut_line hcl (trim_brace (by decide)) (by decide)) 1, Ctx.leave]
    obtain ⟨t', h1, h2⟩ := ihr ((t.createSubtree key value).setLastChild u) anc
    refine ⟨t', h1, ?_⟩
    have hv := view_setLastChild t key value u
    rw [view_eq ((t.createSubtree key value).setLastChild u)] at hv
    injection hv with hv1 hv2
    have hg := addItems_group [] children
    rw [show group (itemsView []) = ([] : List (Str × List View)) by simp [itemsView, group, firsts]] at hg
    rw [h2, hv1, hv2, addItems, hu2]
    simp [Item.key, itemView, Tree.empty, Tree.value, Tree.subtrees, viewDict, hg]

/-! ### Splitting lines -/

theorem splitLines_prefix (l : Str) (h : ∀ c ∈ l, isLineBreak c = false) (acc rest : Str) :
    splitLines acc (l ++ rest) = splitLines (acc ++ l) rest := by
  induction l generalizing acc with
  | nil => simp
  | cons c l ih =>
    have hc := h c (by simp)
    have hr : c ≠ '\r' := fun e => by subst e; exact absurd hc (by decide)
    rw [List.cons_append, splitLines.eq_def]
    split
    · next h => cases h
    · next h =>
      injection h with h _
      exact absurd h hr
    · next h =>
      injection h with h1 h2
      subst h1 h2
      rw [hc]
      simp only [Bool.false_eq_true, if_false]
      rw [ih fun d hd => h d (List.mem_cons_of_mem _ hd)]
      simp

theorem splitLines_text {ls : List Str} {text : Str} (h : Text ls text) : splitLines [] text = ls := by
  induction h with
  | nil => rfl
  | last hne hl =>
    rename_i l
    have := splitLines_prefix l hl [] []
    rw [List.append_nil, List.nil_append] at this
    rw [this, splitLines.eq_def]
    have : l.length ≠ 0 := fun e => hne (List.length_eq_zero_iff.mp e)
    simp [this, hne]
  | cons hl hnl _ ih =>
    rw [List.append_assoc, splitLines_prefix _ hl, List.nil_append]
    rcases hnl with rfl | rfl
    · rw [List.singleton_append, splitLines.eq_def]
      simp [isLineBreak, ih]
    · rw [List.cons_append, List.singleton_append, splitLines.eq_def]
      simp [ih]

/-- Reading a document. -/
theorem read_lines {items : List Item} {ls : List Str} {text : Str} (hl : Lines items ls) (ht : Text ls text) (depth : Nat)
    (root : Tree) : ∃ t, read files (depth + 1) text root = .ok t ∧
      view t = .node root.value (addItems (viewDict root.subtrees) items) := by
  obtain ⟨t, h1, h2⟩ := readLines_items (files := files) (readFile := readInput files depth) hl root []
  refine ⟨t, ?_, h2⟩
  unfold read readInput
  rw [splitLines_text ht, h1]
  rfl

/-! ### Paths -/

theorem splitPath_prefix (l : Str) (h : '/' ∉ l) (acc rest : Str) : splitPath acc (l ++ rest) = splitPath (acc ++ l) rest := by
  induction l generalizing acc with
  | nil => simp
  | cons c l ih =>
    have hc : c ≠ '/' := fun e => h (by simp [e])
    rw [List.cons_append, splitPath, if_neg hc, ih fun hm => h (List.mem_cons_of_mem _ hm)]
    simp

theorem splitPath_join (ks : List Str) (hne : ks ≠ []) (h : ∀ k ∈ ks, '/' ∉ k) : splitPath [] (joinPath ks) = ks := by
  induction ks with
  | nil => exact absurd rfl hne
  | cons k ks ih =>
    cases ks with
    | nil =>
      have := splitPath_prefix k (h k (by simp)) [] []
      simp only [List.append_nil, List.nil_append] at this
      simp [joinPath, this, splitPath]
    | cons j ks =>
      rw [joinPath, splitPath_prefix k (h k (by simp)), splitPath, if_pos rfl,
        ih (by simp) fun i hi => h i (List.mem_cons_of_mem _ hi)]
      simp

theorem joinPath_head (ks : List Str) (hne : ks ≠ []) (h : ∀ k ∈ ks, k ≠ [] ∧ '/' ∉ k) :
    ∃ c r, joinPath ks = c :: r ∧ c ≠ '/' := by
  cases ks with
  | nil => exact absurd rfl hne
  | cons k ks =>
    obtain ⟨h1, h2⟩ := h k (by simp)
    cases k with
    | nil => exact absurd rfl h1
    | cons c k =>
      have hc : c ≠ '/' := fun e => h2 (by simp [e])
      cases ks with
      | nil => exact ⟨c, k, rfl, hc⟩
      | cons j ks => exact ⟨c, _, rfl, hc⟩

theorem joinPath_intercalate (ks : List Str) : joinPath ks = List.intercalate ['/'] ks := by
  induction ks with
  | nil => rfl
  | cons k ks ih =>
    cases ks with
    | nil => simp [joinPath, List.intercalate]
    | cons j ks => rw [joinPath, ih]; simp [List.intercalate, List.intersperse]

/-- The list of a key in what can be seen. -/
def lookupV {α : Type} (key : Str) : List (Str × List α) → Option (List α)
  | [] => none
  | (k, ts) :: rest => if k = key then some ts else lookupV key rest

theorem lookup_view (key : Str) (subs : List (Str × List Tree)) :
    (lookup key subs).map viewList = lookupV key (viewDict subs) := by
  induction subs with
  | nil => simp [lookup, viewDict, lookupV]
  | cons p subs ih =>
    obtain ⟨k, ts⟩ := p
    simp only [lookup, viewDict, lookupV]
    split <;> simp [*]

theorem lookupV_map {α : Type} (key : Str) (f : Str → List α) (ks : List Str) :
    lookupV key (ks.map fun j => (j, f j)) = if key ∈ ks then some (f key) else none := by
  induction ks with
  | nil => simp [lookupV]
  | cons k ks ih =>
    rw [List.map_cons, lookupV, ih]
    by_cases h : k = key
    · subst h; simp
    · have : ¬ key = k := fun e => h e.symm
      simp [h, this]

theorem itemsView_map (items : List Item) : itemsView items = items.map fun i => (i.key, itemView i) := by
  induction items with
  | nil => simp [itemsView]
  | cons i is ih => simp [itemsView, ih]

theorem lookupV_group (key : Str) (items : List Item) :
    lookupV key (group (itemsView items)) =
      if ∃ i ∈ items, i.key = key then some ((items.filter fun i => i.key = key).map itemView) else none := by
  unfold group
  rw [lookupV_map, itemsView_map]
  simp only [mem_firsts, List.map_map, List.mem_map, Function.comp_def, List.filter_map]

theorem viewList_map (ts : List Tree) : viewList ts = ts.map view := by
  induction ts with
  | nil => simp [viewList]
  | cons t ts ih => simp [viewList, ih]

theorem get_select (ks : List Str) : ∀ (_ : ks ≠ []) (_ : ∀ k ∈ ks, k ≠ [] ∧ '/' ∉ k) (slashes : Str) (_ : ∀ c ∈ slashes, c = '/')
    (fuel : Nat) (_ : ks.length ≤ fuel) (t : Tree) (v : Option Str) (items : List Item)
    (_ : view t = .node v (group (itemsView items))),
    (getItem fuel (slashes ++ joinPath ks) t).map view = (select ks items).map itemView := by
  induction ks with
  | nil => exact fun h => absurd rfl h
  | cons k ks ih =>
    intro hne hks slashes hsl fuel hf t v items hv
    obtain ⟨fuel, rfl⟩ : ∃ m, fuel = m + 1 := ⟨fuel - 1, by simp at hf; omega⟩
    obtain ⟨c, r, hc, hcs⟩ := joinPath_head (k :: ks) hne hks
    have hdrop : (slashes ++ joinPath (k :: ks)).dropWhile (· == '/') = joinPath (k :: ks) := by
      rw [List.dropWhile_append_of_pos (by intro d hd; simp [hsl d hd]), hc, List.dropWhile_cons_of_neg (by simp [hcs])]
    have hlen : (joinPath (k :: ks)).length ≠ 0 := by rw [hc]; simp
    rw [view_eq] at hv
    injection hv with hv1 hv2
    have hlk := lookup_view k t.subtrees
    rw [hv2, lookupV_group] at hlk
    rw [getItem]
    simp only [hdrop, splitPath_join (k :: ks) hne (fun j hj => (hks j hj).2), hlen, if_false, List.headD_cons, List.length_cons,
      List.drop_succ_cons, List.drop_zero]
    cases hl : lookup k t.subtrees with
    | none =>
      rw [hl] at hlk
      have hno : ¬ ∃ i ∈ items, i.key = k := by
        intro h
        rw [if_pos h] at hlk
        cases hlk
      have hnil : items.filter (fun i => decide (i.key = k)) = [] := by
        rw [List.filter_eq_nil_iff]
        intro i hi
        simp only [decide_eq_true_eq]
        exact fun e => hno ⟨i, hi, e⟩
      cases ks with
      | nil => simp [select, hnil]
      | cons j ks => simp [select, hnil]
    | some subs =>
      rw [hl] at hlk
      have hyes : ∃ i ∈ items, i.key = k := by
        by_cases h : ∃ i ∈ items, i.key = k
        · exact h
        · rw [if_neg h] at hlk; cases hlk
      rw [if_pos hyes, Option.map_some, viewList_map] at hlk
      injection hlk with hlk
      cases ks with
      | nil => simpa [select] using hlk
      | cons j ks =>
        simp only [List.length_cons, Nat.add_eq_right, Nat.add_one_ne_zero, if_false, select]
        rw [List.map_flatMap, List.map_flatMap]
        have key : ∀ (us : List Tree) (is : List Item), us.map view = is.map itemView →
            us.flatMap (fun u => (getItem fuel (joinPath (j :: ks)) u).map view) =
              is.flatMap (fun i => (select (j :: ks) i.children).map itemView) := by
          intro us
          induction us with
          | nil =>
            intro is h
            cases is with
            | nil => rfl
            | cons i is => cases h
          | cons u us ihu =>
            intro is h
            cases is with
            | nil => cases h
            | cons i is =>
              simp only [List.map_cons, List.cons.injEq] at h
              rw [List.flatMap_cons, List.flatMap_cons, ihu is h.2]
              congr 1
              have hi : view u = .node i.value (group (itemsView i.children)) := by
                rw [h.1]
                obtain ⟨a, b, d⟩ := i
                simp [itemView, Item.value, Item.children]
              have := ih (by simp) (fun x hx => hks x (List.mem_cons_of_mem _ hx)) [] (by simp) fuel
                (by simp at hf ⊢; omega) u i.value i.children hi
              simpa using this
        exact key subs _ hlk

theorem length_joinPath (ks : List Str) (h : ∀ k ∈ ks, k ≠ []) : ks.length ≤ (joinPath ks).length + 1 := by
  induction ks with
  | nil => simp
  | cons k ks ih =>
    have := ih fun j hj => h j (List.mem_cons_of_mem _ hj)
    cases ks with
    | nil => simp
    | cons j ks => rw [joinPath]; simp at this ⊢; omega

end PyNDN.BoostInfo
