import Verif.Spec.Regex
import Verif.Lemmas.NameUri
/-
Compiling the text of an expression.
-/
namespace PyNDN.Regex
open PyNDN PyNDN.Spec.Regex

/-- The matchers for a sequence of patterns. -/
def toRx (search : List Char → List Char → Bool) : Pat → Nat → Rx × Nat
  | .nil, k => (.nil, k)
  | .comp x r next, k =>
    (.cons (.rep r.bounds.1 r.bounds.2 (.set (componentTest search x))) (toRx search next k).1,
      (toRx search next k).2)
  | .set inclusive xs r next, k =>
    (.cons (.rep r.bounds.1 r.bounds.2 (.set fun c =>
        if inclusive then xs.any fun e => componentTest search e c
        else !xs.any fun e => componentTest search e c)) (toRx search next k).1,
      (toRx search next k).2)
  | .group body r next, k =>
    let b := toRx search body (k + 1)
    (.cons (match r with
        | .one => .group k b.1
        | r => .rep r.bounds.1 r.bounds.2 (.group k b.1)) (toRx search next b.2).1,
      (toRx search next b.2).2)

theorem extractSub_skip {l r : Char} (hlr : l ≠ r) : ∀ (x : List Char) (d : Nat) (cs : List Char),
    (∀ c ∈ x, c ≠ l ∧ c ≠ r) →
    extractSub l r (d + 1) (x ++ cs) = (match extractSub l r (d + 1) cs with
      | .ok (y, rest) => .ok (x ++ y, rest)
      | .error e => .error e)
  | [], d, cs, _ => by
    rw [List.nil_append]
    cases extractSub l r (d + 1) cs with
    | error e => rfl
    | ok p => rfl
  | c :: x, d, cs, h => by
    have hc := h c (List.mem_cons_self ..)
    rw [List.cons_append, extractSub]
    dsimp only
    rw [if_neg hc.1, if_neg hc.2, extractSub_skip hlr x d cs (fun c h' => h c (List.mem_cons_of_mem _ h'))]
    cases extractSub l r (d + 1) cs with
    | error e => rfl
    | ok p => rfl

theorem extractSub_close {l r : Char} (hlr : l ≠ r) (x rest : List Char) (h : ∀ c ∈ x, c ≠ l ∧ c ≠ r) :
    extractSub l r 1 (x ++ r :: rest) = .ok (x ++ [r], rest) := by
  rw [extractSub_skip hlr x 0 _ h, extractSub]
  dsimp only
  rw [if_neg hlr.symm, if_pos rfl]
  simp [extractSub, bind, Except.bind, pure, Except.pure]

/-- The characters of a repetition. -/
theorem strDec_reDigit (n : Nat) : ∀ c ∈ strDec n, reDigit c = true := by
  intro c hc
  have := strDec_digits n c hc
  unfold PyNDN.isDigit at this
  simpa [reDigit] using this

theorem digit_ne {c x : Char} (h : reDigit c = true) (hx : reDigit x = false) : c ≠ x := by
  intro e; subst e; rw [h] at hx; cases hx

theorem rep_chars (r : Rep) : ∀ c ∈ r.text, reDigit c = true ∨ c ∈ ['?', '+', '*', '{', ',', '}'] := by
  intro c hc
  cases r <;> simp only [Rep.text, List.mem_cons, List.mem_append, List.not_mem_nil, or_false] at hc
  · exact .inr (by simp [hc])
  · exact .inr (by simp [hc])
  · exact .inr (by simp [hc])
  · rcases hc with h | h | h
    · exact .inr (by simp [h])
    · exact .inl (strDec_reDigit _ _ h)
    · exact .inr (by simp [h])
  · rcases hc with h | h | h | h | h
    · exact .inr (by simp [h])
    · exact .inl (strDec_reDigit _ _ h)
    · exact .inr (by simp [h])
    · exact .inl (strDec_reDigit _ _ h)
    · exact .inr (by simp [h])
  · rcases hc with h | h | h | h
    · exact .inr (by simp [h])
    · exact .inr (by simp [h])
    · exact .inl (strDec_reDigit _ _ h)
    · exact .inr (by simp [h])
  · rcases hc with h | h | h | h
    · exact .inr (by simp [h])
    · exact .inl (strDec_reDigit _ _ h)
    · exact .inr (by simp [h])
    · exact .inr (by simp [h])

theorem rep_avoid (r : Rep) {x : Char} (hx : reDigit x = false)
    (hx' : x ∉ ['?', '+', '*', '{', ',', '}']) : ∀ c ∈ r.text, c ≠ x := by
  intro c hc e
  subst e
  rcases rep_chars r c hc with h | h
  · rw [h] at hx; cases hx
  · exact hx' h

theorem extractBrace_close : ∀ (x rest : List Char), (∀ c ∈ x, c ≠ '}') →
    extractBrace (x ++ '}' :: rest) = .ok (x ++ ['}'], rest)
  | [], rest, _ => by simp [extractBrace]
  | c :: x, rest, h => by
    rw [List.cons_append, extractBrace, if_neg (h c (List.mem_cons_self ..)),
      extractBrace_close x rest (fun c h' => h c (List.mem_cons_of_mem _ h'))]
    rfl

/-- What can follow a repetition. -/
def Follows (cs : List Char) : Prop := ∀ c, cs.head? = some c → c ≠ '+' ∧ c ≠ '?' ∧ c ≠ '*' ∧ c ≠ '{'

theorem extractRepetition_text (r : Rep) (cs : List Char) (h : Follows cs) :
    extractRepetition (r.text ++ cs) = .ok (r.text, cs) := by
  have hb : ∀ x : List Char, (∀ c ∈ x, reDigit c = true ∨ c = ',') →
      extractRepetition ('{' :: (x ++ ['}']) ++ cs) = .ok ('{' :: (x ++ ['}']), cs) := by
    intro x hx
    have h2 := extractBrace_close ('{' :: x) cs (by
      intro c hc
      rcases List.mem_cons.1 hc with rfl | hc
      · decide
      · rcases hx c hc with hd | rfl
        · exact digit_ne hd (by decide)
        · decide)
    have e : ('{' :: (x ++ ['}']) ++ cs) = '{' :: (x ++ '}' :: cs) := by simp
    rw [e]
    unfold extractRepetition
    simp only
    rw [if_neg (by decide), if_pos trivial]
    simpa using h2
  cases r with
  | one =>
    simp only [Rep.text, List.nil_append]
    cases cs with
    | nil => rfl
    | cons c cs =>
      obtain ⟨h1, h2, h3, h4⟩ := h c rfl
      unfold extractRepetition
      simp [h1, h2, h3, h4]
  | opt => simp [Rep.text, extractRepetition]
  | plus => simp [Rep.text, extractRepetition]
  | star => simp [Rep.text, extractRepetition]
  | times n => exact hb (strDec n) (fun c hc => .inl (strDec_reDigit _ _ hc))
  | between a b =>
    have := hb (strDec a ++ ',' :: strDec b) (by
      intro c hc
      simp only [List.mem_append, List.mem_cons] at hc
      rcases hc with h | h | h
      · exact .inl (strDec_reDigit _ _ h)
      · exact .inr h
      · exact .inl (strDec_reDigit _ _ h))
    simpa [Rep.text] using this
  | upTo b =>
    have := hb (',' :: strDec b) (by
      intro c hc
      simp only [List.mem_cons] at hc
      rcases hc with h | h
      · exact .inr h
      · exact .inl (strDec_reDigit _ _ h))
    simpa [Rep.text] using this
  | atLeast a =>
    have := hb (strDec a ++ [',']) (by
      intro c hc
      simp only [List.mem_append, List.mem_singleton] at hc
      rcases hc with h | h
      · exact .inl (strDec_reDigit _ _ h)
      · exact .inr h)
    simpa [Rep.text] using this

theorem takeWhile_digits (n : Nat) (c : Char) (cs : List Char) (hc : reDigit c = false) :
    (strDec n ++ c :: cs).takeWhile reDigit = strDec n ∧ (strDec n ++ c :: cs).dropWhile reDigit = c :: cs := by
  have h := strDec_reDigit n
  constructor
  · rw [List.takeWhile_append_of_pos (fun a ha => by simpa using h a ha)]
    simp [List.takeWhile_cons, hc]
  · rw [List.dropWhile_append_of_pos (fun a ha => by simpa using h a ha)]
    simp [List.dropWhile_cons, hc]

theorem toInt_strDec (n : Nat) : toInt (strDec n) = n := by
  obtain ⟨k, hk⟩ := foldl_strDec n 0
  unfold toInt
  rw [hk]
  simp

theorem parseBraces_range {cs x : List Char} (b : Nat) (h1 : cs.takeWhile reDigit = x)
    (h2 : cs.dropWhile reDigit = ',' :: (strDec b ++ ['}'])) :
    parseBraces cs = .ok (if x = [] then 0 else toInt x, b) := by
  obtain ⟨h3, h4⟩ := takeWhile_digits b '}' [] (by decide)
  have hne := strDec_ne_nil b
  have hcond : (strDec b ++ ['}']).takeWhile reDigit ≠ [] ∧ (strDec b ++ ['}']).dropWhile reDigit = ['}'] :=
    ⟨by rw [h3]; exact hne, h4⟩
  obtain ⟨d, ds, hds⟩ : ∃ d ds, strDec b = d :: ds := List.exists_cons_of_ne_nil hne
  have hd : d ≠ '}' := digit_ne (strDec_reDigit b d (by rw [hds]; exact List.mem_cons_self ..)) (by decide)
  unfold parseBraces
  dsimp only
  rw [h1, h2]
  have hshape : ∀ y, strDec b ++ ['}'] = '}' :: y → False := by
    intro y hy
    rw [hds] at hy
    exact hd (List.cons.inj hy).1
  split
  · rename_i e
    exact absurd (List.cons.inj e).2 (hshape [])
  · rename_i e
    cases (List.cons.inj e).1
  · rename_i r' _ e
    rw [← (List.cons.inj e).2, if_pos hcond, h3, toInt_strDec]
  · rename_i e1 e2 e3; exact absurd rfl (e3 _)

theorem parseRepetition_text (r : Rep) (h : r.Ok) : parseRepetition r.text = .ok r.bounds := by
  unfold Rep.Ok at h
  cases r with
  | one => rfl
  | opt => rfl
  | plus => rfl
  | star => rfl
  | times n =>
    obtain ⟨h1, h2⟩ := takeWhile_digits n '}' [] (by decide)
    simp only [Rep.text, parseRepetition, parseBraces, h1, h2, strDec_ne_nil, if_false, toInt_strDec,
      bind, Except.bind, Rep.bounds] at h ⊢
    rw [if_neg (by unfold maxRepetitions; omega)]
    rfl
  | between a b =>
    obtain ⟨h1, h2⟩ := takeWhile_digits a ',' (strDec b ++ ['}']) (by decide)
    have := parseBraces_range b h1 h2
    simp only [Rep.text, parseRepetition, this, strDec_ne_nil, if_false, toInt_strDec, bind, Except.bind,
      Rep.bounds] at h ⊢
    rw [if_neg (by unfold maxRepetitions; omega)]
    rfl
  | upTo b =>
    have h1 : (',' :: (strDec b ++ ['}'])).takeWhile reDigit = [] := by
      rw [List.takeWhile_cons]; simp [show reDigit ',' = false by decide]
    have h2 : (',' :: (strDec b ++ ['}'])).dropWhile reDigit = ',' :: (strDec b ++ ['}']) := by
      rw [List.dropWhile_cons]; simp [show reDigit ',' = false by decide]
    have := parseBraces_range b h1 h2
    simp only [Rep.text, parseRepetition, this, if_true, bind, Except.bind,
      Rep.bounds] at h ⊢
    rw [if_neg (by unfold maxRepetitions; omega)]
    rfl
  | atLeast a =>
    obtain ⟨h1, h2⟩ := takeWhile_digits a ',' ['}'] (by decide)
    simp only [Rep.text, parseRepetition, parseBraces, h1, h2, strDec_ne_nil, if_false, toInt_strDec,
      bind, Except.bind, Rep.bounds] at h ⊢
    rw [if_neg (by unfold maxRepetitions; omega)]
    rfl

theorem pat_follows (p : Pat) : Follows p.text := by
  intro c hc
  cases p <;> simp [Pat.text] at hc <;> subst hc <;> decide

theorem compileComponents_text : ∀ (xs : List (List Char)), (∀ x ∈ xs, NoBrackets x) →
    compileComponents (xs.flatMap fun x => '<' :: (x ++ ['>'])) = .ok xs
  | [], _ => by simp [compileComponents]
  | x :: xs, h => by
    have hx := h x (List.mem_cons_self ..)
    have he := extractSub_close (l := '<') (r := '>') (by decide) x
      (xs.flatMap fun x => '<' :: (x ++ ['>'])) (fun c hc => ⟨(hx c hc).1, (hx c hc).2.1⟩)
    have ih := compileComponents_text xs (fun x h' => h x (List.mem_cons_of_mem _ h'))
    simp only [List.flatMap_cons, List.cons_append, List.append_assoc, List.nil_append]
    rw [compileComponents]
    rw [if_neg (by decide)]
    split
    · rename_i e h1; rw [he] at h1; cases h1
    · rename_i y rest h1
      rw [he] at h1
      cases h1
      rw [ih]
      simp [bind, Except.bind, pure, Except.pure]

/-- Extracting a subpattern in parentheses skips a pattern. -/
theorem extractSub_pat : ∀ (p : Pat), p.Ok → ∀ (d : Nat) (cs : List Char),
    extractSub '(' ')' (d + 1) (p.text ++ cs) = (match extractSub '(' ')' (d + 1) cs with
      | .ok (y, rest) => .ok (p.text ++ y, rest)
      | .error e => .error e)
  | .nil, _, d, cs => by
    simp only [Pat.text, List.nil_append]
    cases extractSub '(' ')' (d + 1) cs with
    | error e => rfl
    | ok p => rfl
  | .comp x r next, ⟨hx, hr, hn⟩, d, cs => by
    have e : (Pat.comp x r next).text ++ cs = ('<' :: (x ++ '>' :: r.text)) ++ (next.text ++ cs) := by
      simp [Pat.text]
    have e2 : (Pat.comp x r next).text = ('<' :: (x ++ '>' :: r.text)) ++ next.text := by
      simp [Pat.text]
    rw [e, extractSub_skip (by decide) _ d _ (by
      intro c hc
      simp only [List.mem_cons, List.mem_append] at hc
      rcases hc with rfl | hc | rfl | hc
      · decide
      · exact ⟨(hx c hc).2.2.1, (hx c hc).2.2.2.1⟩
      · decide
      · exact ⟨rep_avoid r (by decide) (by decide) c hc, rep_avoid r (by decide) (by decide) c hc⟩),
      extractSub_pat next hn d cs, e2]
    cases extractSub '(' ')' (d + 1) cs with
    | error e => rfl
    | ok p => simp
  | .set inc xs r next, ⟨hx, hr, hn⟩, d, cs => by
    have e : (Pat.set inc xs r next).text ++ cs = ('[' :: ((if inc then [] else ['^']) ++
        (xs.flatMap fun x => '<' :: (x ++ ['>'])) ++ ']' :: r.text)) ++ (next.text ++ cs) := by
      simp [Pat.text]
    have e2 : (Pat.set inc xs r next).text = ('[' :: ((if inc then [] else ['^']) ++
        (xs.flatMap fun x => '<' :: (x ++ ['>'])) ++ ']' :: r.text)) ++ next.text := by
      simp [Pat.text]
    rw [e, extractSub_skip (by decide) _ d _ (by
      intro c hc
      simp only [List.mem_cons, List.mem_append, List.mem_flatMap, List.mem_singleton] at hc
      rcases hc with rfl | (hc | ⟨x, hx', hc⟩) | rfl | hc
      · decide
      · cases inc
        · simp at hc; subst hc; decide
        · simp at hc
      · simp only [List.not_mem_nil, or_false] at hc
        rcases hc with rfl | hc | rfl
        · decide
        · exact ⟨(hx x hx' c hc).2.2.1, (hx x hx' c hc).2.2.2.1⟩
        · decide
      · decide
      · exact ⟨rep_avoid r (by decide) (by decide) c hc, rep_avoid r (by decide) (by decide) c hc⟩),
      extractSub_pat next hn d cs, e2]
    cases extractSub '(' ')' (d + 1) cs with
    | error e => rfl
    | ok p => simp
  | .group body r next, ⟨hb, hr, hn⟩, d, cs => by
    have e : (Pat.group body r next).text ++ cs = '(' :: (body.text ++ (')' :: (r.text ++ (next.text ++ cs)))) := by
      simp [Pat.text]
    have e2 : (Pat.group body r next).text = '(' :: (body.text ++ (')' :: (r.text ++ next.text))) := rfl
    rw [e, extractSub]
    dsimp only
    rw [if_pos rfl, extractSub_pat body hb (d + 1)]
    rw [extractSub]
    dsimp only
    rw [if_neg (by decide), if_pos rfl, extractSub_skip (by decide) r.text d _ (fun c hc =>
      ⟨rep_avoid r (by decide) (by decide) c hc, rep_avoid r (by decide) (by decide) c hc⟩),
      extractSub_pat next hn d cs, e2]
    cases extractSub '(' ')' (d + 1) cs with
    | error e => rfl
    | ok p => simp [bind, Except.bind, pure, Except.pure]

theorem compileList_text (search : List Char → List Char → Bool) : ∀ (p : Pat), p.Ok → ∀ k,
    compileList search p.text k = .ok (toRx search p k)
  | .nil, _, k => by simp [Pat.text, compileList, toRx]
  | .comp x r next, ⟨hx, hr, hn⟩, k => by
    have he := extractSub_close (l := '<') (r := '>') (by decide) x (r.text ++ next.text)
      (fun c hc => ⟨(hx c hc).1, (hx c hc).2.1⟩)
    have hrep := extractRepetition_text r next.text (pat_follows next)
    have ih := compileList_text search next hn k
    simp only [Pat.text]
    rw [compileList, if_neg (by decide), if_pos rfl]
    split
    · rename_i e h1; rw [he] at h1; cases h1
    · rename_i y rest h1
      rw [he] at h1
      cases h1
      split
      · rename_i e h2; rw [hrep] at h2; cases h2
      · rename_i y2 rest2 h2
        rw [hrep] at h2
        cases h2
        rw [parseRepetition_text r hr, ih]
        simp [bind, Except.bind, pure, Except.pure, toRx]
  | .set inc xs r next, ⟨hx, hr, hn⟩, k => by
    have he := extractSub_close (l := '[') (r := ']') (by decide)
      ((if inc then [] else ['^']) ++ (xs.flatMap fun x => '<' :: (x ++ ['>']))) (r.text ++ next.text) (by
      intro c hc
      simp only [List.mem_append, List.mem_flatMap, List.mem_cons, List.not_mem_nil, or_false] at hc
      rcases hc with hc | ⟨x, hx', hc⟩
      · cases inc
        · simp at hc; subst hc; decide
        · simp at hc
      · rcases hc with rfl | hc | rfl
        · decide
        · exact ⟨(hx x hx' c hc).2.2.2.2.1, (hx x hx' c hc).2.2.2.2.2⟩
        · decide)
    have hrep := extractRepetition_text r next.text (pat_follows next)
    have ih := compileList_text search next hn k
    have hset : compileSet search ((if inc then [] else ['^']) ++ (xs.flatMap fun x => '<' :: (x ++ ['>']))) =
        .ok (fun c => if inc then xs.any fun e => componentTest search e c
          else !xs.any fun e => componentTest search e c) := by
      have hcc := compileComponents_text xs hx
      unfold compileSet
      cases inc with
      | false =>
        simp only [Bool.false_eq_true, if_false, List.cons_append, List.nil_append, hcc]
        rfl
      | true =>
        simp only [if_true, List.nil_append]
        split
        · rename_i cs e
          cases xs with
          | nil => simp at e
          | cons x xs => simp at e
        · rw [hcc]; rfl
    simp only [Pat.text]
    rw [compileList, if_neg (by decide), if_neg (by decide), if_pos rfl]
    split
    · rename_i e h1; rw [he] at h1; cases h1
    · rename_i y rest h1
      rw [he] at h1
      cases h1
      split
      · rename_i e h2; rw [hrep] at h2; cases h2
      · rename_i y2 rest2 h2
        rw [hrep] at h2
        cases h2
        rw [List.dropLast_concat, hset, parseRepetition_text r hr, ih]
        simp [bind, Except.bind, pure, Except.pure, toRx]
  | .group body r next, ⟨hb, hr, hn⟩, k => by
    have he : extractSub '(' ')' 1 (body.text ++ ')' :: (r.text ++ next.text)) =
        .ok (body.text ++ [')'], r.text ++ next.text) := by
      rw [extractSub_pat body hb 0, extractSub]
      dsimp only
      rw [if_neg (by decide), if_pos rfl]
      simp [extractSub, bind, Except.bind, pure, Except.pure]
    have hrep := extractRepetition_text r next.text (pat_follows next)
    have ihb := compileList_text search body hb (k + 1)
    have ih := compileList_text search next hn (toRx search body (k + 1)).2
    simp only [Pat.text]
    rw [compileList, if_pos rfl]
    split
    · rename_i e h1; rw [he] at h1; cases h1
    · rename_i y rest h1
      rw [he] at h1
      cases h1
      split
      · rename_i e h2; rw [hrep] at h2; cases h2
      · rename_i y2 rest2 h2
        rw [hrep] at h2
        cases h2
        rw [List.dropLast_concat, ihb, parseRepetition_text r hr]
        simp only [bind, Except.bind, pure, Except.pure, ih, toRx]
        cases r <;> simp [Rep.text]

end PyNDN.Regex
