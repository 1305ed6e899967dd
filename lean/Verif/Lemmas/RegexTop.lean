import Verif.Lemmas.RegexCompile
/-
The language of a compiled expression.
-/
namespace PyNDN.Regex
open PyNDN PyNDN.Spec.Regex

theorem pow_set {t : Component → Bool} : ∀ {n : Nat} {u : List Component},
    Pow (Lang (.set t)) n u ↔ u.length = n ∧ ∀ c ∈ u, t c = true
  | 0, u => by simp +contextual [Spec.Regex.Pow]
  | n + 1, u => by
    constructor
    · rintro ⟨a, b, rfl, ⟨c, rfl, hc⟩, hb⟩
      obtain ⟨h1, h2⟩ := pow_set.1 hb
      simp
      exact ⟨h1, hc, h2⟩
    · rintro ⟨h1, h2⟩
      cases u with
      | nil => simp at h1
      | cons c u =>
        refine ⟨[c], u, rfl, ⟨c, rfl, h2 c (List.mem_cons_self ..)⟩, pow_set.2 ⟨by simpa using h1, ?_⟩⟩
        intro c hc
        exact h2 c (List.mem_cons_of_mem _ hc)

theorem lang_rep_set {t : Component → Bool} {a b : Nat} {u : List Component} :
    Lang (.rep a b (.set t)) u ↔ a ≤ u.length ∧ u.length ≤ b ∧ ∀ c ∈ u, t c = true := by
  constructor
  · rintro ⟨n, h1, h2, h3⟩
    obtain ⟨h4, h5⟩ := pow_set.1 h3
    subst h4
    exact ⟨h1, h2, h5⟩
  · rintro ⟨h1, h2, h3⟩
    exact ⟨_, h1, h2, pow_set.2 ⟨rfl, h3⟩⟩

theorem componentTest_fits {search : List Char → List Char → Bool} {x : List Char} {c : Component} :
    componentTest search x c = true ↔ Fits search x c := by
  unfold componentTest Fits
  split <;> simp_all

theorem setTest_fits {search : List Char → List Char → Bool} {xs : List (List Char)} {inc : Bool} {c : Component} :
    (if inc then xs.any fun e => componentTest search e c
      else !xs.any fun e => componentTest search e c) = true ↔
    ((∃ x ∈ xs, Fits search x c) ↔ inc = true) := by
  have h : (xs.any fun e => componentTest search e c) = true ↔ ∃ x ∈ xs, Fits search x c := by
    rw [List.any_eq_true]
    constructor
    · rintro ⟨x, h1, h2⟩; exact ⟨x, h1, componentTest_fits.1 h2⟩
    · rintro ⟨x, h1, h2⟩; exact ⟨x, h1, componentTest_fits.2 h2⟩
  rw [← h]
  cases inc <;> simp

theorem Pow.mono {L M : List Component → Prop} (h : ∀ w, L w → M w) : ∀ {n : Nat} {w : List Component},
    Pow L n w → Pow M n w
  | 0, _, hw => hw
  | _ + 1, _, ⟨u, v, e, hu, hv⟩ => ⟨u, v, e, h u hu, Pow.mono h hv⟩

theorem pow_one {L : List Component → Prop} {w : List Component} : Pow L 1 w ↔ L w := by
  constructor
  · rintro ⟨u, v, rfl, hu, hv⟩
    have : v = [] := hv
    subst this
    simpa using hu
  · intro h
    exact ⟨w, [], by simp, h, rfl⟩

theorem toRx_lang (search : List Char → List Char → Bool) : ∀ (p : Pat) (k : Nat) (w : List Component),
    Lang (toRx search p k).1 w ↔ p.Lang search w
  | .nil, k, w => Iff.rfl
  | .comp x r next, k, w => by
    simp only [toRx, Lang.eq_3, Pat.Lang]
    constructor
    · rintro ⟨u, v, e, hu, hv⟩
      obtain ⟨h1, h2, h3⟩ := lang_rep_set.1 hu
      exact ⟨u, v, e, h1, h2, fun c hc => componentTest_fits.1 (h3 c hc), (toRx_lang search next k v).1 hv⟩
    · rintro ⟨u, v, e, h1, h2, h3, hv⟩
      exact ⟨u, v, e, lang_rep_set.2 ⟨h1, h2, fun c hc => componentTest_fits.2 (h3 c hc)⟩,
        (toRx_lang search next k v).2 hv⟩
  | .set inc xs r next, k, w => by
    simp only [toRx, Lang.eq_3, Pat.Lang]
    constructor
    · rintro ⟨u, v, e, hu, hv⟩
      obtain ⟨h1, h2, h3⟩ := lang_rep_set.1 hu
      exact ⟨u, v, e, h1, h2, fun c hc => setTest_fits.1 (h3 c hc), (toRx_lang search next k v).1 hv⟩
    · rintro ⟨u, v, e, h1, h2, h3, hv⟩
      exact ⟨u, v, e, lang_rep_set.2 ⟨h1, h2, fun c hc => setTest_fits.2 (h3 c hc)⟩,
        (toRx_lang search next k v).2 hv⟩
  | .group body r next, k, w => by
    have hb := toRx_lang search body (k + 1)
    have hn := toRx_lang search next (toRx search body (k + 1)).2
    have key : ∀ u, Lang (match r with
        | .one => .group k (toRx search body (k + 1)).1
        | r => .rep r.bounds.1 r.bounds.2 (.group k (toRx search body (k + 1)).1)) u ↔
        ∃ n, r.bounds.1 ≤ n ∧ n ≤ r.bounds.2 ∧ Pow (body.Lang search) n u := by
      intro u
      have hr : Lang (.rep r.bounds.1 r.bounds.2 (.group k (toRx search body (k + 1)).1)) u ↔
          ∃ n, r.bounds.1 ≤ n ∧ n ≤ r.bounds.2 ∧ Pow (body.Lang search) n u := by
        constructor
        · rintro ⟨n, h1, h2, h3⟩
          exact ⟨n, h1, h2, Pow.mono (fun w hw => (hb w).1 hw) h3⟩
        · rintro ⟨n, h1, h2, h3⟩
          exact ⟨n, h1, h2, Pow.mono (fun w hw => (hb w).2 hw) h3⟩
      cases r with
      | one =>
        constructor
        · intro h
          exact ⟨1, Nat.le_refl _, Nat.le_refl _, pow_one.2 ((hb u).1 h)⟩
        · rintro ⟨n, h1, h2, h3⟩
          have : n = 1 := by simp [Rep.bounds] at h1 h2; omega
          subst this
          exact (hb u).2 (pow_one.1 h3)
      | _ => exact hr
    simp only [toRx, Lang.eq_3, Pat.Lang]
    constructor
    · rintro ⟨u, v, e, hu, hv⟩
      obtain ⟨n, h1, h2, h3⟩ := (key u).1 hu
      exact ⟨u, v, n, e, h1, h2, h3, (hn v).1 hv⟩
    · rintro ⟨u, v, n, e, h1, h2, h3, hv⟩
      exact ⟨u, v, e, (key u).2 ⟨n, h1, h2, h3⟩, (hn v).2 hv⟩

theorem toRx_solid (search : List Char → List Char → Bool) : ∀ (p : Pat) (k : Nat), p.Solid search →
    Solid (toRx search p k).1
  | .nil, k, _ => trivial
  | .comp x r next, k, h => ⟨⟨trivial, .inr (fun ⟨_, h, _⟩ => by cases h)⟩, toRx_solid search next k h⟩
  | .set inc xs r next, k, h => ⟨⟨trivial, .inr (fun ⟨_, h, _⟩ => by cases h)⟩, toRx_solid search next k h⟩
  | .group body r next, k, ⟨h1, h2, h3⟩ => by
    have hb := toRx_solid search body (k + 1) h1
    have hn := toRx_solid search next (toRx search body (k + 1)).2 h2
    refine ⟨?_, hn⟩
    have hr : r ≠ .one → Solid (.rep r.bounds.1 r.bounds.2 (.group k (toRx search body (k + 1)).1)) := by
      intro hne
      refine ⟨hb, (h3.resolve_left hne).imp (fun h => h) ?_⟩
      intro h hl
      exact h ((toRx_lang search body (k + 1) []).1 hl)
    cases r with
    | one => exact hb
    | _ => exact hr (by simp)

theorem toRx_count (search : List Char → List Char → Bool) : ∀ (p : Pat) (k : Nat),
    (toRx search p k).2 = k + p.count
  | .nil, k => rfl
  | .comp x r next, k => toRx_count search next k
  | .set inc xs r next, k => toRx_count search next k
  | .group body r next, k => by
    simp only [toRx, Pat.count]
    rw [toRx_count search next, toRx_count search body]
    omega

theorem toRx_groups (search : List Char → List Char → Bool) : ∀ (p : Pat) (k : Nat),
    groups (toRx search p k).1 = List.range' k p.count
  | .nil, k => rfl
  | .comp x r next, k => by
    simp only [toRx, Pat.count, groups, List.nil_append]
    exact toRx_groups search next k
  | .set inc xs r next, k => by
    simp only [toRx, Pat.count, groups, List.nil_append]
    exact toRx_groups search next k
  | .group body r next, k => by
    have h : groups (match r with
        | .one => .group k (toRx search body (k + 1)).1
        | r => .rep r.bounds.1 r.bounds.2 (.group k (toRx search body (k + 1)).1)) =
        List.range' k (1 + body.count) := by
      have hr : k :: groups (toRx search body (k + 1)).1 = List.range' k (1 + body.count) := by
        rw [toRx_groups search body (k + 1), Nat.add_comm 1, List.range'_succ]
      cases r <;> exact hr
    simp only [toRx, Pat.count, groups]
    refine (congrArg (· ++ _) h).trans ?_
    rw [toRx_groups search next, toRx_count]
    have : k + 1 + body.count = k + 1 * (1 + body.count) := by omega
    rw [this, List.range'_append]

theorem toRx_plain (search : List Char → List Char → Bool) : ∀ (p : Pat) (k : Nat), p.Single →
    Plain (toRx search p k).1
  | .nil, k, _ => trivial
  | .comp x r next, k, h => ⟨rfl, toRx_plain search next k h⟩
  | .set inc xs r next, k, h => ⟨rfl, toRx_plain search next k h⟩
  | .group body r next, k, ⟨h1, h2, h3⟩ => by
    subst h1
    exact ⟨toRx_plain search body (k + 1) h2, toRx_plain search next _ h3⟩

theorem toRx_split (search : List Char → List Char → Bool) : ∀ (p : Pat) (k : Nat) (w : List Component)
    (cap : Nat → List Component), p.Single → Capture (toRx search p k).1 w cap → p.Split search k w cap
  | .nil, k, w, cap, _, h => h
  | .comp x r next, k, w, cap, hs, h => by
    obtain ⟨u, v, e, hu, hv⟩ := h
    obtain ⟨h1, h2, h3⟩ := lang_rep_set.1 hu
    exact ⟨u, v, e, h1, h2, fun c hc => componentTest_fits.1 (h3 c hc), toRx_split search next k v cap hs hv⟩
  | .set inc xs r next, k, w, cap, hs, h => by
    obtain ⟨u, v, e, hu, hv⟩ := h
    obtain ⟨h1, h2, h3⟩ := lang_rep_set.1 hu
    exact ⟨u, v, e, h1, h2, fun c hc => setTest_fits.1 (h3 c hc), toRx_split search next k v cap hs hv⟩
  | .group body r next, k, w, cap, ⟨h1, h2, h3⟩, h => by
    subst h1
    obtain ⟨u, v, e, ⟨hc, hu⟩, hv⟩ := h
    have := toRx_split search next _ v cap h3 hv
    rw [toRx_count] at this
    subst hc
    exact ⟨v, e, toRx_split search body (k + 1) _ cap h2 hu, this⟩

/-! ### Expressions without `^` or `$` -/

def _root_.PyNDN.Spec.Regex.Pat.append : Pat → Pat → Pat
  | .nil, q => q
  | .comp x r next, q => .comp x r (next.append q)
  | .set i xs r next, q => .set i xs r (next.append q)
  | .group b r next, q => .group b r (next.append q)

theorem append_text : ∀ (p q : Pat), (p.append q).text = p.text ++ q.text
  | .nil, q => rfl
  | .comp x r next, q => by simp [Pat.append, Pat.text, append_text next q]
  | .set i xs r next, q => by simp [Pat.append, Pat.text, append_text next q]
  | .group b r next, q => by simp [Pat.append, Pat.text, append_text next q]

theorem append_ok : ∀ (p q : Pat), p.Ok → q.Ok → (p.append q).Ok
  | .nil, q, _, h => h
  | .comp x r next, q, ⟨h1, h2, h3⟩, h => ⟨h1, h2, append_ok next q h3 h⟩
  | .set i xs r next, q, ⟨h1, h2, h3⟩, h => ⟨h1, h2, append_ok next q h3 h⟩
  | .group b r next, q, ⟨h1, h2, h3⟩, h => ⟨h1, h2, append_ok next q h3 h⟩

theorem append_solid {search : List Char → List Char → Bool} : ∀ (p q : Pat), p.Solid search → q.Solid search →
    (p.append q).Solid search
  | .nil, q, _, h => h
  | .comp x r next, q, h3, h => append_solid next q h3 h
  | .set i xs r next, q, h3, h => append_solid next q h3 h
  | .group b r next, q, ⟨h1, h2, h3⟩, h => ⟨h1, append_solid next q h2 h, h3⟩

theorem append_lang {search : List Char → List Char → Bool} : ∀ (p q : Pat) (w : List Component),
    (p.append q).Lang search w ↔ ∃ u v, w = u ++ v ∧ p.Lang search u ∧ q.Lang search v
  | .nil, q, w => by
    constructor
    · intro h; exact ⟨[], w, rfl, rfl, h⟩
    · rintro ⟨u, v, rfl, hu, hv⟩
      have : u = [] := hu
      subst this
      exact hv
  | .comp x r next, q, w => by
    constructor
    · rintro ⟨u, v, rfl, h1, h2, h3, h4⟩
      obtain ⟨a, b, rfl, h5, h6⟩ := (append_lang next q v).1 h4
      exact ⟨u ++ a, b, by simp, ⟨u, a, rfl, h1, h2, h3, h5⟩, h6⟩
    · rintro ⟨a, b, rfl, ⟨u, v, rfl, h1, h2, h3, h4⟩, h5⟩
      exact ⟨u, v ++ b, by simp, h1, h2, h3, (append_lang next q _).2 ⟨v, b, rfl, h4, h5⟩⟩
  | .set i xs r next, q, w => by
    constructor
    · rintro ⟨u, v, rfl, h1, h2, h3, h4⟩
      obtain ⟨a, b, rfl, h5, h6⟩ := (append_lang next q v).1 h4
      exact ⟨u ++ a, b, by simp, ⟨u, a, rfl, h1, h2, h3, h5⟩, h6⟩
    · rintro ⟨a, b, rfl, ⟨u, v, rfl, h1, h2, h3, h4⟩, h5⟩
      exact ⟨u, v ++ b, by simp, h1, h2, h3, (append_lang next q _).2 ⟨v, b, rfl, h4, h5⟩⟩
  | .group bd r next, q, w => by
    constructor
    · rintro ⟨u, v, n, rfl, h1, h2, h3, h4⟩
      obtain ⟨a, b, rfl, h5, h6⟩ := (append_lang next q v).1 h4
      exact ⟨u ++ a, b, by simp, ⟨u, a, n, rfl, h1, h2, h3, h5⟩, h6⟩
    · rintro ⟨a, b, rfl, ⟨u, v, n, rfl, h1, h2, h3, h4⟩, h5⟩
      exact ⟨u, v ++ b, n, by simp, h1, h2, h3, (append_lang next q _).2 ⟨v, b, rfl, h4, h5⟩⟩

theorem append_single : ∀ (p q : Pat), p.Single → q.Single → (p.append q).Single
  | .nil, q, _, h => h
  | .comp x r next, q, h3, h => append_single next q h3 h
  | .set i xs r next, q, h3, h => append_single next q h3 h
  | .group b r next, q, ⟨h1, h2, h3⟩, h => ⟨h1, h2, append_single next q h3 h⟩

theorem append_count : ∀ (p q : Pat), (p.append q).count = p.count + q.count
  | .nil, q => by simp [Pat.append, Pat.count]
  | .comp x r next, q => append_count next q
  | .set i xs r next, q => append_count next q
  | .group b r next, q => by simp only [Pat.append, Pat.count, append_count next q]; omega

theorem append_split {search : List Char → List Char → Bool} {cap : Nat → List Component} :
    ∀ (p q : Pat) (k : Nat) (w : List Component),
    (p.append q).Split search k w cap →
      ∃ u v, w = u ++ v ∧ p.Split search k u cap ∧ q.Split search (k + p.count) v cap
  | .nil, q, k, w, h => ⟨[], w, rfl, rfl, h⟩
  | .comp x r next, q, k, w, h => by
    obtain ⟨u, v, rfl, h1, h2, h3, h4⟩ := h
    obtain ⟨a, b, rfl, h5, h6⟩ := append_split next q k v h4
    exact ⟨u ++ a, b, by simp, ⟨u, a, rfl, h1, h2, h3, h5⟩, h6⟩
  | .set i xs r next, q, k, w, h => by
    obtain ⟨u, v, rfl, h1, h2, h3, h4⟩ := h
    obtain ⟨a, b, rfl, h5, h6⟩ := append_split next q k v h4
    exact ⟨u ++ a, b, by simp, ⟨u, a, rfl, h1, h2, h3, h5⟩, h6⟩
  | .group bd r next, q, k, w, h => by
    obtain ⟨v, rfl, h1, h2⟩ := h
    obtain ⟨a, b, rfl, h5, h6⟩ := append_split next q _ v h2
    refine ⟨cap k ++ a, b, by simp, ⟨a, rfl, h1, h5⟩, ?_⟩
    have : k + (Pat.group bd r next).count = k + 1 + bd.count + next.count := by
      simp [Pat.count]; omega
    rw [this]
    exact h6

/-- `<.*>*`. -/
def anyPat (next : Pat) : Pat := .comp ".*".toList .star next

theorem anyPat_text (next : Pat) : (anyPat next).text = "<.*>*".toList ++ next.text := by
  simp [anyPat, Pat.text, Rep.text]

theorem anyPat_ok {next : Pat} (h : next.Ok) : (anyPat next).Ok := by
  refine ⟨?_, by simp [Rep.Ok, Rep.bounds], h⟩
  intro c hc
  have : c = '.' ∨ c = '*' := by simpa using hc
  rcases this with rfl | rfl <;> decide

theorem rep_last (r : Rep) : ∀ l : List Char, l.getLast? ≠ some '$' → (l ++ r.text).getLast? ≠ some '$' := by
  intro l hl
  cases r with
  | one => simpa [Rep.text] using hl
  | times n =>
    have : l ++ (Rep.times n).text = (l ++ '{' :: strDec n) ++ ['}'] := by
      simp [Rep.text]
    rw [this, List.getLast?_concat]; simp
  | between a b =>
    have : l ++ (Rep.between a b).text = (l ++ '{' :: (strDec a ++ ',' :: strDec b)) ++ ['}'] := by
      simp [Rep.text]
    rw [this, List.getLast?_concat]; simp
  | upTo b =>
    have : l ++ (Rep.upTo b).text = (l ++ '{' :: ',' :: strDec b) ++ ['}'] := by
      simp [Rep.text]
    rw [this, List.getLast?_concat]; simp
  | atLeast a =>
    have : l ++ (Rep.atLeast a).text = (l ++ '{' :: (strDec a ++ [','])) ++ ['}'] := by
      simp [Rep.text]
    rw [this, List.getLast?_concat]; simp
  | _ => simp [Rep.text]

theorem pat_last : ∀ (p : Pat) (l : List Char), l.getLast? ≠ some '$' → (l ++ p.text).getLast? ≠ some '$'
  | .nil, l, hl => by simpa [Pat.text] using hl
  | .comp x r next, l, hl => by
    have : l ++ (Pat.comp x r next).text = ((l ++ '<' :: x ++ ['>']) ++ r.text) ++ next.text := by
      simp [Pat.text]
    rw [this]
    exact pat_last next _ (rep_last r _ (by rw [List.getLast?_concat]; simp))
  | .set i xs r next, l, hl => by
    have : l ++ (Pat.set i xs r next).text = ((l ++ '[' :: ((if i then [] else ['^']) ++
        (xs.flatMap fun x => '<' :: (x ++ ['>']))) ++ [']']) ++ r.text) ++ next.text := by
      simp [Pat.text]
    rw [this]
    exact pat_last next _ (rep_last r _ (by rw [List.getLast?_concat]; simp))
  | .group b r next, l, hl => by
    have : l ++ (Pat.group b r next).text = ((l ++ '(' :: b.text ++ [')']) ++ r.text) ++ next.text := by
      simp [Pat.text]
    rw [this]
    exact pat_last next _ (rep_last r _ (by rw [List.getLast?_concat]; simp))

theorem pat_head (p : Pat) (h : p ≠ .nil) : ∃ c cs, p.text = c :: cs ∧ c ≠ '^' := by
  cases p with
  | nil => exact absurd rfl h
  | comp => exact ⟨_, _, rfl, by decide⟩
  | set => exact ⟨_, _, rfl, by decide⟩
  | group => exact ⟨_, _, rfl, by decide⟩

/-- The patterns tried first, and those tried then. -/
def patOf (stop : Bool) (p : Pat) : Pat := if stop then p else p.append (anyPat .nil)

theorem compile_text (search : List Char → List Char → Bool) (start stop : Bool) (p : Pat) (hp : p.Ok)
    (hne : start = true ∨ p ≠ .nil) :
    compile search (exprText start stop p) = .ok
      ⟨(toRx search (patOf stop p) 0).1, (toRx search (patOf stop p) 0).2,
        if start then none else some (toRx search (anyPat (patOf stop p)) 0)⟩ := by
  have hok : (patOf stop p).Ok := by
    unfold patOf
    split
    · exact hp
    · exact append_ok p _ hp (anyPat_ok trivial)
  have hnil : p ≠ .nil → patOf stop p ≠ .nil := by
    intro h
    unfold patOf
    split
    · exact h
    · cases p <;> simp [Pat.append, anyPat] at h ⊢
  have h1 := compileList_text search (patOf stop p) hok 0
  have h2 := compileList_text search (anyPat (patOf stop p)) (anyPat_ok hok) 0
  rw [anyPat_text] at h2
  -- the text with `$` or `<.*>*` taken care of
  have hcore : ∀ e : List Char, e = (if start then ['^'] else []) ++ (patOf stop p).text →
      (match e with
      | [] => (.error .index : Except Err Top)
      | c :: cs =>
        if c ≠ '^' then do
          let (s, n) ← compileList search ("<.*>*".toList ++ (c :: cs)) 0
          let (p, m) ← compileList search (c :: cs) 0
          return ⟨p, m, some (s, n)⟩
        else do
          let (p, m) ← compileList search cs 0
          return ⟨p, m, none⟩) = .ok
      ⟨(toRx search (patOf stop p) 0).1, (toRx search (patOf stop p) 0).2,
        if start then none else some (toRx search (anyPat (patOf stop p)) 0)⟩ := by
    intro e he
    subst he
    cases start with
    | true =>
      simp [h1, bind, Except.bind, pure, Except.pure]
    | false =>
      obtain ⟨c, cs, hc, hc'⟩ := pat_head _ (hnil (hne.resolve_left (by simp)))
      rw [hc] at h1 h2
      simp [hc, hc', bind, Except.bind, pure, Except.pure]
      simp at h2
      rw [h2, h1]
  unfold compile
  cases stop with
  | true =>
    have hl : (exprText start true p).getLast? = some '$' := by
      simp [exprText]
    rw [hl]
    dsimp only
    rw [if_neg (by simp)]
    refine hcore _ ?_
    unfold exprText patOf
    simp only [if_true]
    rw [List.dropLast_concat]
  | false =>
    have hl : (exprText start false p).getLast? ≠ some '$' := by
      unfold exprText
      simp only [Bool.false_eq_true, if_false, List.append_nil]
      exact pat_last p _ (by cases start <;> simp)
    have hne' : exprText start false p ≠ [] := by
      unfold exprText
      rcases hne with rfl | h
      · simp
      · obtain ⟨c, cs, hc, _⟩ := pat_head p h
        simp [hc]
    cases hg : (exprText start false p).getLast? with
    | none => exact absurd (List.getLast?_eq_none_iff.1 hg) hne'
    | some l =>
      dsimp only
      rw [if_pos (by rintro rfl; exact hl hg)]
      refine hcore _ ?_
      unfold exprText patOf
      simp [append_text, anyPat_text, Pat.text]

end PyNDN.Regex
