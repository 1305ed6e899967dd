import Verif.Spec.ExcludeRange
import Verif.Props.Match
/-
C75: ranges of an Exclude.
-/
namespace PyNDN.ExcludeRange
open Spec (compLt Excluded EndsInAnyAny lastListed firstListed)
open Spec.ExcludeRange (Plain Ordered le)

/-! ### Order -/

theorem lt_irrefl (a : Component) : ¬ compLt a a := keyLt_irrefl _
theorem lt_trans {a b c : Component} (h : compLt a b) (k : compLt b c) : compLt a c := keyLt_trans h k
theorem lt_asymm {a b : Component} (h : compLt a b) : ¬ compLt b a := keyLt_asymm h

theorem lt_total {a b : Component} (ha : a.type = .generic) (hb : b.type = .generic) : compLt a b ∨ a = b ∨ compLt b a := by
  rcases C10_total a b with h | h | h
  · exact .inl ((C10_compare_lt a b).mp h)
  · refine .inr (.inl ?_)
    have := ((C10_compare_zero a b).mp h).2
    cases a; cases b
    simp_all
  · exact .inr (.inr ((C10_compare_gt a b).mp h))

theorem empty_lt {c : Component} (h : Plain c) : compLt emptyComponent c := by
  cases c with
  | mk t v =>
    obtain ⟨h1, h2⟩ := h
    cases h1
    refine .inr ⟨rfl, .inl ?_⟩
    cases v with
    | nil => exact absurd rfl h2
    | cons a l => exact Nat.succ_pos _

theorem compare_le_iff {a b : Component} (ha : a.type = .generic) (hb : b.type = .generic) : a.compare b ≤ 0 ↔ le a b := by
  rcases lt_total ha hb with h | h | h
  · rw [(C10_compare_lt a b).mpr h]
    exact ⟨fun _ => .inr h, fun _ => by decide⟩
  · rw [h, (C10_compare_zero b b).mpr ⟨rfl, rfl⟩]
    exact ⟨fun _ => .inl rfl, fun _ => by decide⟩
  · rw [(C10_compare_gt a b).mpr h]
    refine ⟨fun h => absurd h (by decide), ?_⟩
    rintro (rfl | h')
    · exact absurd h (lt_irrefl _)
    · exact absurd h (lt_asymm h')

theorem le_lt {a b c : Component} (h : le a b) (k : compLt b c) : compLt a c := by
  rcases h with rfl | h
  · exact k
  · exact lt_trans h k
theorem lt_le {a b c : Component} (h : compLt a b) (k : le b c) : compLt a c := by
  rcases k with rfl | k
  · exact h
  · exact lt_trans h k
theorem not_le {a b : Component} (h : compLt a b) : ¬ le b a := fun k => lt_irrefl _ (lt_le h k)

/-! ### Entries -/

/-- What entries exclude; `p` if what is before them is excluded. -/
def ex (p : Prop) : List Entry → Component → Prop
  | [], _ => p
  | e :: r, c => (compLt c e.component ∧ p) ∨ c = e.component ∨ (compLt e.component c ∧ ex (e.anyFollows = true) r c)

structure Good (es : List Entry) : Prop where
  plain : ∀ e ∈ es, Plain e.component ∨ (e.component = emptyComponent ∧ e.anyFollows = true)
  sorted : (es.map (·.component)).Pairwise compLt

def lastAny (p : Prop) (es : List Entry) : Prop := match es.getLast? with
  | none => p
  | some l => l.anyFollows = true

theorem lastAny_snoc (p : Prop) (es : List Entry) (l : Entry) : lastAny p (es ++ [l]) = (l.anyFollows = true) := by
  unfold lastAny; rw [List.getLast?_append]; rfl

theorem lastAny_cons (p : Prop) (e : Entry) (es : List Entry) : lastAny p (e :: es) = lastAny (e.anyFollows = true) es := by
  unfold lastAny
  rw [List.getLast?_cons]
  cases es.getLast? <;> rfl

/-- Entries after the component do not matter. -/
theorem ex_before {p : Prop} {c : Component} (A B : List Entry) (h : ∀ e ∈ B, compLt c e.component) : ex p (A ++ B) c ↔ ex p A c := by
  induction A generalizing p with
  | nil =>
    cases B with
    | nil => exact Iff.rfl
    | cons b B =>
      have hb := h b (List.mem_cons_self ..)
      show ((compLt c b.component ∧ p) ∨ c = b.component ∨ _) ↔ p
      refine ⟨?_, fun hp => .inl ⟨hb, hp⟩⟩
      rintro (h | h | h)
      · exact h.2
      · rw [h] at hb; exact absurd hb (lt_irrefl _)
      · exact absurd hb (lt_asymm h.1)
  | cons a A ih =>
    show (_ ∨ _ ∨ (_ ∧ ex _ (A ++ B) c)) ↔ (_ ∨ _ ∨ (_ ∧ ex _ A c))
    rw [ih]

/-- Entries before the component. -/
theorem ex_after {p : Prop} {c : Component} (A B : List Entry) (h : ∀ e ∈ A, compLt e.component c) : ex p (A ++ B) c ↔ ex (lastAny p A) B c := by
  induction A generalizing p with
  | nil => exact Iff.rfl
  | cons a A ih =>
    have ha := h a (List.mem_cons_self ..)
    rw [lastAny_cons]
    show (_ ∨ _ ∨ (_ ∧ ex _ (A ++ B) c)) ↔ _
    rw [ih fun e he => h e (List.mem_cons_of_mem _ he)]
    refine ⟨?_, fun h => .inr (.inr ⟨ha, h⟩)⟩
    rintro (h | h | h)
    · exact absurd ha (lt_asymm h.1)
    · rw [h] at ha; exact absurd ha (lt_irrefl _)
    · exact h.2

theorem ex_last {p : Prop} {c : Component} {A : List Entry} (h : ∀ e ∈ A, le e.component c) (hl : lastAny p A) : ex p A c := by
  induction A generalizing p with
  | nil => exact hl
  | cons a A ih =>
    rcases h a (List.mem_cons_self ..) with e | e
    · exact .inr (.inl e.symm)
    · exact .inr (.inr ⟨e, ih (fun e he => h e (List.mem_cons_of_mem _ he)) (by rw [lastAny_cons] at hl; exact hl)⟩)

/-- A listed component. -/
theorem ex_mem {p : Prop} {c : Component} {A : List Entry} {e : Entry} (he : e ∈ A) (hc : c = e.component) (h : ∀ e ∈ A, le e.component c) : ex p A c := by
  induction A generalizing p with
  | nil => nomatch he
  | cons a A ih =>
    rcases h a (List.mem_cons_self ..) with k | k
    · exact .inr (.inl k.symm)
    · refine .inr (.inr ⟨k, ih ?_ fun e he => h e (List.mem_cons_of_mem _ he)⟩)
      rcases List.mem_cons.mp he with rfl | he
      · rw [← hc] at k; exact absurd k (lt_irrefl _)
      · exact he

/-! ### getExcludeEntries -/

/-- The entries from one that is not complete. -/
def run (e : Entry) : Exclude → List Entry
  | [] => [e]
  | none :: xs => run { e with anyFollows := true } xs
  | some c :: xs => e :: run ⟨c, false⟩ xs

theorem foldl_run (acc : List Entry) (e : Entry) (xs : Exclude) : xs.foldl addEntry (acc ++ [e]) = acc ++ run e xs := by
  induction xs generalizing acc e with
  | nil => rfl
  | cons x xs ih =>
    cases x with
    | none =>
      have : addEntry (acc ++ [e]) none = acc ++ [{ e with anyFollows := true }] := by
        unfold addEntry
        rw [List.getLast?_append, List.dropLast_concat]
        rfl
      rw [List.foldl_cons, this, ih]
      rfl
    | some c =>
      rw [List.foldl_cons]
      show xs.foldl addEntry ((acc ++ [e]) ++ [⟨c, false⟩]) = _
      rw [ih, List.append_assoc]
      rfl

theorem getEntries_any (xs : Exclude) : getEntries (none :: xs) = run ⟨emptyComponent, true⟩ xs := foldl_run [] _ xs
theorem getEntries_listed (c : Component) (xs : Exclude) : getEntries (some c :: xs) = run ⟨c, false⟩ xs := foldl_run [] _ xs

/-- The components that `run` gives. -/
theorem run_components (e : Entry) (xs : Exclude) : (run e xs).map (·.component) = e.component :: xs.filterMap id := by
  induction xs generalizing e with
  | nil => rfl
  | cons x xs ih =>
    cases x with
    | none => exact ih _
    | some c => show e.component :: (run ⟨c, false⟩ xs).map _ = _; rw [ih]; rfl

theorem run_plain {e : Entry} {xs : Exclude} (h : ∀ c, some c ∈ xs → Plain c)
    (he : Plain e.component ∨ (e.component = emptyComponent ∧ e.anyFollows = true)) :
    ∀ f ∈ run e xs, Plain f.component ∨ (f.component = emptyComponent ∧ f.anyFollows = true) := by
  induction xs generalizing e with
  | nil => intro f hf; cases List.mem_singleton.mp hf; exact he
  | cons x xs ih =>
    cases x with
    | none =>
      refine ih (fun c hc => h c (List.mem_cons_of_mem _ hc)) ?_
      rcases he with he | he
      · exact .inl he
      · exact .inr ⟨he.1, rfl⟩
    | some c =>
      intro f hf
      rcases List.mem_cons.mp hf with rfl | hf
      · exact he
      · exact ih (fun c hc => h c (List.mem_cons_of_mem _ hc)) (.inl (h c (List.mem_cons_self ..))) f hf

theorem mem_listed {c : Component} {xs : Exclude} : c ∈ xs.filterMap id ↔ some c ∈ xs := by
  rw [List.mem_filterMap]
  exact ⟨fun ⟨a, h1, h2⟩ => by cases h2; exact h1, fun h => ⟨_, h, rfl⟩⟩

theorem good_entries {x : Exclude} (h : Ordered x) : Good (getEntries x) := by
  cases x with
  | nil => exact ⟨(fun _ h => nomatch h), List.Pairwise.nil⟩
  | cons a xs =>
    cases a with
    | none =>
      rw [getEntries_any]
      refine ⟨run_plain (fun c hc => h.1 c (List.mem_cons_of_mem _ hc)) (.inr ⟨rfl, rfl⟩), ?_⟩
      rw [run_components]
      refine List.pairwise_cons.mpr ⟨fun c hc => ?_, h.2⟩
      exact empty_lt (h.1 c (List.mem_cons_of_mem _ (mem_listed.mp hc)))
    | some c =>
      rw [getEntries_listed]
      refine ⟨run_plain (fun d hd => h.1 d (List.mem_cons_of_mem _ hd)) (.inl (h.1 c (List.mem_cons_self ..))), ?_⟩
      rw [run_components]
      exact h.2

theorem excludedFrom_gt {c d : Component} {xs : Exclude} (hs : (d :: xs.filterMap id).Pairwise compLt) (h : ExcludedFrom c (some d) xs) : compLt d c := by
  have hd := (List.pairwise_cons.mp hs).1
  rcases h with h | ⟨l, r, rfl, h, _⟩
  · exact hd c (mem_listed.mpr h)
  · cases hl : lastListed l with
    | none => exact h d (by rw [hl]; rfl)
    | some lo =>
      refine lt_trans (hd lo ?_) (h lo (by rw [hl]; rfl))
      rw [List.filterMap_append]
      exact List.mem_append_left _ (List.mem_of_getLast? hl)

theorem ex_run {c : Component} (hc : Plain c) {e : Entry} {xs : Exclude} (hp : ∀ c, some c ∈ xs → Plain c)
    (hs : (e.component :: xs.filterMap id).Pairwise compLt) (he : compLt e.component c) (p : Prop) :
    ex p (run e xs) c ↔ ExcludedFrom c (some e.component) ((if e.anyFollows then [none] else []) ++ xs) := by
  induction xs generalizing e p with
  | nil =>
    show ((_ ∧ _) ∨ _ ∨ (_ ∧ e.anyFollows = true)) ↔ _
    have h1 : ¬ compLt c e.component := lt_asymm he
    have h2 : c ≠ e.component := fun h => by rw [h] at he; exact lt_irrefl _ he
    cases ha : e.anyFollows with
    | true =>
      refine ⟨fun _ => ?_, fun _ => .inr (.inr ⟨he, rfl⟩)⟩
      exact (excludedFrom_end c (some e.component) 0).mpr fun lo hlo => by cases hlo; exact he
    | false =>
      refine ⟨?_, ?_⟩
      · rintro (h | h | h)
        · exact absurd h.1 h1
        · exact absurd h h2
        · nomatch h.2
      · rintro (h | ⟨l, r, h, _⟩)
        · nomatch h
        · cases l <;> nomatch h
  | cons x xs ih =>
    have hp' : ∀ c, some c ∈ xs → Plain c := fun c hc => hp c (List.mem_cons_of_mem _ hc)
    cases x with
    | none =>
      refine (ih (e := { e with anyFollows := true }) hp' hs he p).trans ?_
      show ExcludedFrom c (some e.component) (none :: xs) ↔ ExcludedFrom c (some e.component) ((if e.anyFollows then [none] else []) ++ none :: xs)
      cases e.anyFollows with
      | false => exact Iff.rfl
      | true =>
        show _ ↔ ExcludedFrom c (some e.component) (none :: none :: xs)
        rw [excludedFrom_any c _ (none :: xs)]
        refine ⟨.inr, ?_⟩
        rintro (h | h)
        · rw [excludedFrom_any]; exact .inl h
        · exact h
    | some d =>
      have hs' : (d :: xs.filterMap id).Pairwise compLt := (List.pairwise_cons.mp hs).2
      have key : ExcludedFrom c (some e.component) ((if e.anyFollows then [none] else []) ++ some d :: xs) ↔
          (e.anyFollows = true ∧ compLt c d) ∨ c = d ∨ ExcludedFrom c (some d) xs := by
        cases e.anyFollows with
        | false =>
          refine (excludedFrom_listed c d _ xs).trans ⟨.inr, ?_⟩
          rintro (h | h)
          · nomatch h.1
          · exact h
        | true =>
          refine (excludedFrom_range c d _ xs 0).trans ⟨?_, ?_⟩
          · rintro (h | h)
            · exact .inl ⟨rfl, h.2⟩
            · exact .inr h
          · rintro (h | h)
            · exact .inl ⟨fun lo hlo => by cases hlo; exact he, h.2⟩
            · exact .inr h
      rw [key]
      have hhead : ∃ a r, run ⟨d, false⟩ xs = a :: r ∧ a.component = d := by
        have := run_components ⟨d, false⟩ xs
        cases hr : run ⟨d, false⟩ xs with
        | nil => rw [hr] at this; nomatch this
        | cons a r => rw [hr] at this; injection this with h1 _; exact ⟨a, r, rfl, h1⟩
      have hstep : ex (e.anyFollows = true) (run ⟨d, false⟩ xs) c ↔ (e.anyFollows = true ∧ compLt c d) ∨ c = d ∨ ExcludedFrom c (some d) xs := by
        rcases lt_total hc.1 (hp d (List.mem_cons_self ..)).1 with h | h | h
        · obtain ⟨a, r, hr, had⟩ := hhead
          rw [hr]
          show ((_ ∧ _) ∨ _ ∨ (_ ∧ _)) ↔ _
          rw [had]
          refine ⟨?_, ?_⟩
          · rintro (k | k | k)
            · exact .inl ⟨k.2, k.1⟩
            · exact .inr (.inl k)
            · exact absurd h (lt_asymm k.1)
          · rintro (k | k | k)
            · exact .inl ⟨k.2, k.1⟩
            · exact .inr (.inl k)
            · exact absurd h (lt_asymm (excludedFrom_gt hs' k))
        · obtain ⟨a, r, hr, had⟩ := hhead
          rw [hr]
          exact ⟨fun _ => .inr (.inl h), fun _ => .inr (.inl (by rw [had]; exact h))⟩
        · have hcd : c ≠ d := fun k => by rw [k] at h; exact lt_irrefl _ h
          rw [ih (e := ⟨d, false⟩) hp' hs' h]
          show ExcludedFrom c (some d) xs ↔ _
          refine ⟨fun k => .inr (.inr k), ?_⟩
          rintro (k | k | k)
          · exact absurd h (lt_asymm k.2)
          · exact absurd k hcd
          · exact k
      rw [← hstep]
      show ((_ ∧ _) ∨ _ ∨ (_ ∧ _)) ↔ _
      refine ⟨?_, fun k => .inr (.inr ⟨he, k⟩)⟩
      rintro (k | k | k)
      · exact absurd he (lt_asymm k.1)
      · rw [k] at he; exact absurd he (lt_irrefl _)
      · exact k.2

/-- What the entries exclude is what the Exclude excludes. -/
theorem ex_entries {x : Exclude} (h : Ordered x) {c : Component} (hc : Plain c) : ex False (getEntries x) c ↔ Excluded x c := by
  rw [← excludedFrom_none]
  cases x with
  | nil =>
    refine ⟨(fun h => nomatch (show False from h)), ?_⟩
    rintro (h | ⟨l, r, h, _⟩)
    · nomatch h
    · cases l <;> nomatch h
  | cons a xs =>
    have hp : ∀ c, some c ∈ xs → Plain c := fun c hc => h.1 c (List.mem_cons_of_mem _ hc)
    cases a with
    | none =>
      rw [getEntries_any]
      have hs : (emptyComponent :: xs.filterMap id).Pairwise compLt :=
        List.pairwise_cons.mpr ⟨fun c hc => empty_lt (hp c (mem_listed.mp hc)), h.2⟩
      rw [ex_run hc hp hs (empty_lt hc)]
      show ExcludedFrom c (some emptyComponent) (none :: xs) ↔ ExcludedFrom c none (none :: xs)
      have hl : ∀ l : Exclude, (∀ lo, (lastListed l <|> some emptyComponent) = some lo → compLt lo c) ↔ (∀ lo, (lastListed l <|> none) = some lo → compLt lo c) := by
        intro l
        cases lastListed l with
        | none => exact ⟨fun _ lo h => (nomatch h), fun _ lo h => by cases h; exact empty_lt hc⟩
        | some lo => exact Iff.rfl
      unfold ExcludedFrom
      simp only [hl]
    | some d =>
      rw [getEntries_listed, excludedFrom_listed]
      rcases lt_total hc.1 (h.1 d (List.mem_cons_self ..)).1 with k | k | k
      · have hh := run_components ⟨d, false⟩ xs
        cases hr : run ⟨d, false⟩ xs with
        | nil => rw [hr] at hh; nomatch hh
        | cons a r =>
          rw [hr] at hh
          injection hh with had _
          dsimp only at had
          show ((_ ∧ False) ∨ _ ∨ (_ ∧ _)) ↔ _
          rw [had]
          refine ⟨?_, ?_⟩
          · rintro (q | q | q)
            · exact q.2.elim
            · exact .inl q
            · exact absurd k (lt_asymm q.1)
          · rintro (q | q)
            · exact .inr (.inl q)
            · exact absurd k (lt_asymm (excludedFrom_gt h.2 q))
      · have hh := run_components ⟨d, false⟩ xs
        cases hr : run ⟨d, false⟩ xs with
        | nil => rw [hr] at hh; nomatch hh
        | cons a r =>
          rw [hr] at hh
          injection hh with had _
          dsimp only at had
          exact ⟨fun _ => .inl k, fun _ => .inr (.inl (by rw [had]; exact k))⟩
      · rw [ex_run (e := ⟨d, false⟩) hc hp h.2 k]
        refine ⟨.inr, ?_⟩
        rintro (q | q)
        · rw [q] at k; exact absurd k (lt_irrefl _)
        · exact q

/-! ### setExcludeEntries -/

theorem run_items (e f : Entry) (es : List Entry) :
    (entryItems f ++ es.flatMap entryItems).foldl addEntry [e] = e :: (es.flatMap entryItems).foldl addEntry [f] := by
  have h1 : (entryItems f).foldl addEntry [e] = [e] ++ [f] := by
    unfold entryItems
    cases f with
    | mk c a => cases a <;> rfl
  rw [List.foldl_append, h1, foldl_run]
  exact congrArg (e :: ·) (foldl_run [] f _).symm

theorem items_back (e : Entry) (es : List Entry) : (es.flatMap entryItems).foldl addEntry [e] = e :: es := by
  induction es generalizing e with
  | nil => rfl
  | cons f es ih =>
    rw [List.flatMap_cons, run_items, ih]

theorem entries_set {es : List Entry} : getEntries (setEntries es) = es ∨ ∃ e r, es = e :: r ∧ e.component.value = [] ∧ e.anyFollows = true ∧
    getEntries (setEntries es) = ⟨emptyComponent, true⟩ :: r := by
  cases es with
  | nil => exact .inl rfl
  | cons e es =>
    show (setEntries (e :: es)).foldl addEntry [] = _ ∨ ∃ e' r, _ ∧ _ ∧ _ ∧ (setEntries (e :: es)).foldl addEntry [] = _
    simp only [setEntries]
    split
    · rename_i h
      refine .inr ⟨e, es, rfl, List.length_eq_zero_iff.mp h.1, h.2, ?_⟩
      rw [List.foldl_append]
      exact items_back _ es
    · refine .inl ?_
      have h1 : (entryItems e).foldl addEntry [] = [e] := by
        unfold entryItems
        cases e with
        | mk c a => cases a <;> rfl
      rw [List.foldl_append, h1]
      exact items_back _ es

theorem good_back {es : List Entry} (h : Good es) : getEntries (setEntries es) = es := by
  rcases entries_set (es := es) with k | ⟨e, r, rfl, h1, h2, k⟩
  · exact k
  · rw [k]
    rcases h.plain e (List.mem_cons_self ..) with q | q
    · exact absurd h1 q.2
    · rw [← q.1, ← q.2]

theorem listed_items (es : List Entry) : (es.flatMap entryItems).filterMap id = es.map (·.component) := by
  induction es with
  | nil => rfl
  | cons e es ih =>
    rw [List.flatMap_cons, List.filterMap_append, ih]
    cases e with
    | mk c a => cases a <;> rfl

theorem ordered_set {es : List Entry} (h : Good es) : Ordered (setEntries es) := by
  cases es with
  | nil => exact ⟨(fun c h => nomatch h), List.Pairwise.nil⟩
  | cons e es =>
    have hr : ∀ c ∈ es.map (·.component), Plain c := by
      intro c hc
      obtain ⟨f, hf, rfl⟩ := List.mem_map.mp hc
      rcases h.plain f (List.mem_cons_of_mem _ hf) with q | q
      · exact q
      · exfalso
        have := (List.pairwise_cons.mp h.sorted).1 _ hc
        rw [q.1] at this
        rcases h.plain e (List.mem_cons_self ..) with k | k
        · exact lt_asymm this (empty_lt k)
        · dsimp only at this; rw [k.1] at this; exact lt_irrefl _ this
    have hl : (setEntries (e :: es)).filterMap id = (if e.component.value.length = 0 ∧ e.anyFollows then [] else [e.component]) ++ es.map (·.component) := by
      unfold setEntries
      rw [List.filterMap_append, listed_items]
      congr 1
      split
      · rfl
      · cases e with
        | mk c a => cases a <;> rfl
    refine ⟨fun c hc => ?_, ?_⟩
    · have := mem_listed.mpr hc
      rw [hl] at this
      rcases List.mem_append.mp this with k | k
      · split at k
        · nomatch k
        · rename_i hn
          cases List.mem_singleton.mp k
          rcases h.plain e (List.mem_cons_self ..) with q | q
          · exact q
          · exact absurd ⟨by rw [q.1]; rfl, q.2⟩ hn
      · exact hr c k
    · rw [hl]
      split
      · exact (List.pairwise_cons.mp h.sorted).2
      · exact h.sorted

theorem excluded_set {es : List Entry} (h : Good es) {c : Component} (hc : Plain c) : Excluded (setEntries es) c ↔ ex False es c := by
  rw [← ex_entries (ordered_set h) hc, good_back h]

theorem insert_at {A B : List Entry} (e : Entry) : (A ++ B).insertIdx A.length e = A ++ (e :: B) := by
  induction A with
  | nil => rfl
  | cons a A ih => show a :: (A ++ B).insertIdx A.length e = _; rw [ih]; rfl

/-! ### findEntryBeforeOrAt and the beginning of a range -/

/-- A component that entries may have. -/
def Ok (c : Component) : Prop := Plain c ∨ c = emptyComponent

theorem Ok.generic {c : Component} (h : Ok c) : c.type = .generic := by
  rcases h with h | rfl
  · exact h.1
  · rfl

theorem Good.ok {es : List Entry} (h : Good es) {e : Entry} (he : e ∈ es) : Ok e.component := (h.plain e he).imp id And.left

/-- The entries up to a component, and those after it. -/
theorem split_at {es : List Entry} (h : Good es) {f : Component} (hf : Ok f) :
    ∃ A B, es = A ++ B ∧ (∀ e ∈ A, le e.component f) ∧ ∀ e ∈ B, compLt f e.component := by
  induction es with
  | nil => exact ⟨[], [], rfl, (fun _ h => nomatch h), fun _ h => nomatch h⟩
  | cons e es ih =>
    have hs := List.pairwise_cons.mp h.sorted
    have hg : Good es := ⟨fun e he => h.plain e (List.mem_cons_of_mem _ he), hs.2⟩
    have hlt : ∀ x ∈ es, compLt e.component x.component := fun x hx => hs.1 _ (List.mem_map_of_mem hx)
    rcases lt_total (h.ok (List.mem_cons_self ..)).generic hf.generic with k | k | k
    · obtain ⟨A, B, rfl, h1, h2⟩ := ih hg
      refine ⟨e :: A, B, rfl, fun x hx => ?_, h2⟩
      rcases List.mem_cons.mp hx with rfl | hx
      · exact .inr k
      · exact h1 x hx
    · refine ⟨[e], es, rfl, fun x hx => ?_, fun x hx => ?_⟩
      · cases List.mem_singleton.mp hx
        exact .inl k
      · rw [← k]; exact hlt x hx
    · refine ⟨[], e :: es, rfl, (fun _ h => nomatch h), fun x hx => ?_⟩
      rcases List.mem_cons.mp hx with rfl | hx
      · exact k
      · exact lt_trans k (hlt x hx)

theorem find_eq {A B : List Entry} {f : Component} (hA : ∀ e ∈ A, le e.component f) (hB : ∀ e ∈ B, compLt f e.component)
    (hg : ∀ e ∈ A ++ B, e.component.type = .generic) (hf : f.type = .generic) : findBeforeOrAt (A ++ B) f = (A.length : Int) - 1 := by
  have h0 : ∀ k, k ≤ B.length → findFrom (A ++ B) f (A.length + k) = (A.length : Int) - 1 := by
    intro k
    induction k with
    | zero =>
      intro _
      rcases List.eq_nil_or_concat A with rfl | ⟨A0, l, rfl⟩
      · rfl
      · rw [List.concat_eq_append] at *
        have hl : (A0 ++ [l]).length + 0 = A0.length + 1 := by simp
        rw [hl]
        unfold findFrom
        have hi : (A0 ++ [l] ++ B)[A0.length]? = some l := by simp
        rw [hi]
        dsimp only
        rw [if_pos]
        · simp
        · exact (compare_le_iff (hg l (by simp)) hf).mpr (hA l (by simp))
    | succ k ih =>
      intro hk
      show findFrom (A ++ B) f ((A.length + k) + 1) = _
      unfold findFrom
      have hlt : k < B.length := hk
      have hi : (A ++ B)[A.length + k]? = some B[k] := by
        rw [List.getElem?_append_right (Nat.le_add_right ..), Nat.add_sub_cancel_left, List.getElem?_eq_getElem hlt]
      rw [hi]
      dsimp only
      have hm : B[k] ∈ B := List.getElem_mem hlt
      rw [if_neg]
      · exact ih (by omega)
      · rw [compare_le_iff (hg _ (List.mem_append_right _ hm)) hf]
        exact not_le (hB _ hm)
  have := h0 B.length (Nat.le_refl _)
  unfold findBeforeOrAt
  rw [List.length_append]
  exact this

theorem good_sub {es fs : List Entry} (h : Good es) (hs : List.Sublist fs es) : Good fs :=
  ⟨fun e he => h.plain e (hs.subset he), h.sorted.sublist (hs.map _)⟩

/-- The entries with a range that begins at `f` and goes on to the next entry: `A'` instead of `A`. -/
theorem open_spec {A B : List Entry} {f : Component} (h : Good (A ++ B)) (hf : Ok f) (hA : ∀ e ∈ A, le e.component f)
    (hB : ∀ e ∈ B, compLt f e.component) :
    ∃ A0 l, openRange (A ++ B) f = ((A0 ++ [l]) ++ B, A0.length) ∧ l.anyFollows = true ∧ Good ((A0 ++ [l]) ++ B) ∧
      (∀ e ∈ A0 ++ [l], le e.component f) ∧ (∀ c, compLt c f → (ex False (A0 ++ [l]) c ↔ ex False A c)) ∧
      (¬ lastAny False A ∨ A0 ++ [l] = A) := by
  have hfind := find_eq hA hB (fun e he => (h.ok he).generic) hf.generic
  unfold openRange
  dsimp only
  rw [hfind]
  rcases List.eq_nil_or_concat A with rfl | ⟨A0, l, rfl⟩
  · refine ⟨[], ⟨f, true⟩, by rw [if_pos (by decide)]; rfl, rfl, ⟨fun e he => ?_, ?_⟩, ?_, ?_, .inl fun h => h⟩
    · rcases List.mem_cons.mp he with rfl | he
      · exact hf.imp id fun h => ⟨h, rfl⟩
      · exact h.plain e he
    · exact List.pairwise_cons.mpr ⟨fun c hc => by obtain ⟨e, he, rfl⟩ := List.mem_map.mp hc; exact hB e he, h.sorted⟩
    · intro e he
      cases List.mem_singleton.mp he
      exact .inl rfl
    · intro c hc
      show ((_ ∧ False) ∨ _ ∨ (_ ∧ _)) ↔ False
      refine ⟨?_, False.elim⟩
      rintro (k | k | k)
      · exact k.2
      · rw [k] at hc; exact lt_irrefl _ hc
      · exact lt_asymm hc k.1
  · rw [List.concat_eq_append] at *
    have hn : ¬ ((A0 ++ [l]).length : Int) - 1 < 0 := by simp
    have ht : (((A0 ++ [l]).length : Int) - 1).toNat = A0.length := by simp
    have hi : (A0 ++ [l] ++ B)[A0.length]? = some l := by simp
    rw [if_neg hn, ht, hi]
    dsimp only
    cases hl : l.anyFollows with
    | true => exact ⟨A0, l, rfl, hl, h, hA, fun _ _ => Iff.rfl, .inr rfl⟩
    | false =>
      have hlast : ¬ lastAny False (A0 ++ [l]) := by rw [lastAny_snoc, hl]; exact fun h => nomatch h
      have hlp : Plain l.component := by
        rcases h.plain l (by simp) with k | k
        · exact k
        · rw [k.2] at hl; nomatch hl
      have hA0 : ∀ e ∈ A0, compLt e.component l.component := by
        intro e he
        have := h.sorted
        rw [List.append_assoc, List.map_append, List.pairwise_append] at this
        exact this.2.2 _ (List.mem_map_of_mem he) _ (by simp)
      rw [show (!false) = true from rfl, if_pos rfl]
      split
      · rename_i heq
        have hlf : l.component = f := (C10_equals_iff _ _).mp heq
        refine ⟨A0, ⟨l.component, true⟩, ?_, rfl, ⟨fun e he => ?_, ?_⟩, ?_, ?_, .inl hlast⟩
        · congr 1
          rw [List.append_assoc, List.set_append_right _ _ (Nat.le_refl _)]
          simp
        · simp only [List.append_assoc, List.mem_append, List.mem_cons, List.not_mem_nil, or_false] at he
          rcases he with he | rfl | he
          · exact h.plain e (by simp [he])
          · exact .inl hlp
          · exact h.plain e (by simp [he])
        · have := h.sorted
          simpa using this
        · intro e he
          rcases List.mem_append.mp he with he | he
          · exact hA e (List.mem_append_left _ he)
          · cases List.mem_singleton.mp he
            exact .inl hlf
        · intro c hc
          rw [ex_before A0 [⟨l.component, true⟩] (fun e he => by cases List.mem_singleton.mp he; rw [hlf]; exact hc),
            ex_before A0 [l] (fun e he => by cases List.mem_singleton.mp he; rw [hlf]; exact hc)]
      · rename_i hne
        have hlf : compLt l.component f := by
          rcases hA l (by simp) with k | k
          · exact absurd ((C10_equals_iff _ _).mpr k) hne
          · exact k
        refine ⟨A0 ++ [l], ⟨f, true⟩, ?_, rfl, ⟨fun e he => ?_, ?_⟩, ?_, ?_, .inl hlast⟩
        · refine Prod.ext ?_ (by simp)
          show (A0 ++ [l] ++ B).insertIdx (A0.length + 1) ⟨f, true⟩ = _
          have : A0.length + 1 = (A0 ++ [l]).length := by simp
          rw [this, insert_at]
          simp
        · simp only [List.append_assoc, List.mem_append, List.mem_cons, List.not_mem_nil, or_false] at he
          rcases he with he | rfl | rfl | he
          · exact h.plain e (by simp [he])
          · exact h.plain e (by simp)
          · exact hf.imp id fun h => ⟨h, rfl⟩
          · exact h.plain e (by simp [he])
        · have hs := h.sorted
          rw [List.map_append, List.pairwise_append] at hs
          rw [List.map_append, List.pairwise_append]
          refine ⟨?_, hs.2.1, ?_⟩
          · rw [List.map_append, List.pairwise_append]
            refine ⟨hs.1, List.pairwise_singleton _ _, fun a ha b hb => ?_⟩
            cases List.mem_singleton.mp hb
            obtain ⟨e, he, rfl⟩ := List.mem_map.mp ha
            rcases List.mem_append.mp he with he | he
            · exact lt_trans (hA0 e he) hlf
            · cases List.mem_singleton.mp he
              exact hlf
          · intro a ha b hb
            rw [List.map_append] at ha
            rcases List.mem_append.mp ha with ha | ha
            · exact hs.2.2 a ha b hb
            · cases List.mem_singleton.mp ha
              obtain ⟨e, he, rfl⟩ := List.mem_map.mp hb
              exact hB e he
        · intro e he
          rcases List.mem_append.mp he with he | he
          · exact hA e he
          · cases List.mem_singleton.mp he
            exact .inl rfl
        · intro c hc
          exact ex_before (A0 ++ [l]) [⟨f, true⟩] (fun e he => by cases List.mem_singleton.mp he; exact hc)

/-! ### The theorems -/

/-- C75: after `excludeAfter` exactly those components are excluded that were before, the component itself, and those after it. -/
theorem C75_after {x : Exclude} (hx : Ordered x) {f : Component} (hf : Plain f) :
    Ordered (excludeAfter x f) ∧ ∀ c, Plain c → (Excluded (excludeAfter x f) c ↔ Excluded x c ∨ le f c) := by
  have hg := good_entries hx
  obtain ⟨A, B, he, hA, hB⟩ := split_at hg (.inl hf)
  rw [he] at hg
  obtain ⟨A0, l, ho, hl, hg', hA', hbefore, _⟩ := open_spec hg (.inl hf) hA hB
  have hr : excludeAfter x f = setEntries (A0 ++ [l]) := by
    unfold excludeAfter
    rw [he, ho]
    dsimp only
    congr 1
    have : A0.length + 1 = (A0 ++ [l]).length := by simp
    rw [this, List.take_left']
    rfl
  have hgood : Good (A0 ++ [l]) := good_sub hg' (List.sublist_append_left ..)
  rw [hr]
  refine ⟨ordered_set hgood, fun c hc => ?_⟩
  rw [excluded_set hgood hc, ← ex_entries hx hc, he]
  rcases lt_total hc.1 hf.1 with k | k | k
  · rw [hbefore c k, ex_before A B fun e he => lt_trans k (hB e he)]
    refine ⟨.inl, ?_⟩
    rintro (h | h)
    · exact h
    · exact absurd h (not_le k)
  all_goals
    have hle : le f c := by first | exact .inl k.symm | exact .inr k
    refine ⟨fun _ => .inr hle, fun _ => ex_last (fun e he => ?_) (by rw [lastAny_snoc]; exact hl)⟩
    rcases hA' e he with q | q
    · rw [q]; exact hle
    · exact .inr (lt_le q hle)

/-- The result of `excludeRange`, by the entries up to the beginning, those in the range, and those after it. -/
theorem range_entries {x : Exclude} (hx : Ordered x) {f t : Component} (hf : Ok f) (ht : Plain t) (hlt : compLt f t) :
    ∃ A M C A' T, getEntries x = A ++ (M ++ C) ∧ excludeRange x f t = .ok (setEntries (A' ++ (T ++ C))) ∧ Good (A' ++ (T ++ C)) ∧
      (∀ e ∈ A, le e.component f) ∧ (∀ e ∈ M, compLt f e.component ∧ le e.component t) ∧ (∀ e ∈ C, compLt t e.component) ∧
      (∀ e ∈ A', le e.component f) ∧ (∀ c, compLt c f → (ex False A' c ↔ ex False A c)) ∧ lastAny False A' ∧
      (¬ lastAny False A ∨ A' = A) ∧ ((T = [⟨t, false⟩] ∧ ¬ lastAny False M) ∨ (T = [] ∧ lastAny False M)) := by
  have hg := good_entries hx
  obtain ⟨A, B, he, hA, hB⟩ := split_at hg hf
  rw [he] at hg
  obtain ⟨A0, l, ho, hl, hg', hA', hbefore, hsame⟩ := open_spec hg hf hA hB
  obtain ⟨M, C, rfl, hM, hC⟩ := split_at (good_sub hg' (List.sublist_append_right ..)) (.inl ht)
  refine ⟨A, M, C, A0 ++ [l], ?_⟩
  have hrun : excludeRange x f t =
      (if (findBeforeOrAt ((A0 ++ [l]) ++ (M ++ C)) t).toNat = A0.length then
        .ok (setEntries (((A0 ++ [l]) ++ (M ++ C)).insertIdx (A0.length + 1) ⟨t, false⟩))
      else
        match ((A0 ++ [l]) ++ (M ++ C))[(findBeforeOrAt ((A0 ++ [l]) ++ (M ++ C)) t).toNat]? with
        | none => .error .index
        | some foundTo =>
          if !foundTo.anyFollows then
            if foundTo.component.equals t then
              .ok (setEntries (removeSlice ((A0 ++ [l]) ++ (M ++ C)) (A0.length + 1) (findBeforeOrAt ((A0 ++ [l]) ++ (M ++ C)) t).toNat))
            else .ok (setEntries (removeSlice (((A0 ++ [l]) ++ (M ++ C)).insertIdx ((findBeforeOrAt ((A0 ++ [l]) ++ (M ++ C)) t).toNat + 1) ⟨t, false⟩)
              (A0.length + 1) ((findBeforeOrAt ((A0 ++ [l]) ++ (M ++ C)) t).toNat + 1)))
          else .ok (setEntries (removeSlice ((A0 ++ [l]) ++ (M ++ C)) (A0.length + 1) ((findBeforeOrAt ((A0 ++ [l]) ++ (M ++ C)) t).toNat + 1)))) := by
    unfold excludeRange
    rw [if_neg (by rw [(C10_compare_lt f t).mpr hlt]; decide), he, ho]
    rfl
  have hfind : (findBeforeOrAt ((A0 ++ [l]) ++ (M ++ C)) t).toNat = A0.length + M.length := by
    rw [← List.append_assoc, find_eq (A := A0 ++ [l] ++ M) (B := C) ?_ hC ?_ ht.1]
    · simp only [List.length_append, List.length_singleton]
      omega
    · intro e he
      rcases List.mem_append.mp he with he | he
      · rcases hA' e he with q | q
        · rw [q]; exact .inr hlt
        · exact .inr (lt_trans q hlt)
      · exact hM e he
    · intro e he
      rw [List.append_assoc] at he
      exact (hg'.ok he).generic
  rw [hfind] at hrun
  have hMlt : ∀ e ∈ M, compLt f e.component ∧ le e.component t := fun e he => ⟨hB e (List.mem_append_left _ he), hM e he⟩
  have hs := hg'.sorted
  rw [List.map_append, List.pairwise_append] at hs
  have hgoodT : Good ((A0 ++ [l]) ++ ([⟨t, false⟩] ++ C)) := by
    refine ⟨fun e he => ?_, ?_⟩
    · rcases List.mem_append.mp he with he | he
      · exact hg'.plain e (List.mem_append_left _ he)
      · rcases List.mem_cons.mp he with rfl | he
        · exact .inl ht
        · exact hg'.plain e (List.mem_append_right _ (List.mem_append_right _ he))
    · rw [List.map_append, List.pairwise_append]
      refine ⟨hs.1, List.pairwise_cons.mpr ⟨fun c hc => ?_, ?_⟩, fun a ha b hb => ?_⟩
      · obtain ⟨e, he, rfl⟩ := List.mem_map.mp hc
        exact hC e he
      · exact hs.2.1.sublist ((List.sublist_append_right M C).map _)
      · obtain ⟨e, he, rfl⟩ := List.mem_map.mp ha
        have hef := le_lt (hA' e he) hlt
        rcases List.mem_cons.mp hb with rfl | hb
        · exact hef
        · obtain ⟨e', he', rfl⟩ := List.mem_map.mp hb
          exact lt_trans hef (hC e' he')
  have hgoodN : Good ((A0 ++ [l]) ++ ([] ++ C)) := good_sub hg' ((List.Sublist.refl _).append (List.sublist_append_right M C))
  have hlast : lastAny False (A0 ++ [l]) := by rw [lastAny_snoc]; exact hl
  have hlen : A0.length + 1 = (A0 ++ [l]).length := by simp
  rcases List.eq_nil_or_concat M with rfl | ⟨M0, m, rfl⟩
  · refine ⟨[⟨t, false⟩], he, ?_, hgoodT, hA, hMlt, hC, hA', hbefore, hlast, hsame, .inl ⟨rfl, fun h => h⟩⟩
    rw [hrun, if_pos (by simp)]
    congr 2
    rw [hlen, insert_at]
    rfl
  · rw [List.concat_eq_append] at *
    have hne : ¬ A0.length + (M0 ++ [m]).length = A0.length := by simp
    have hidx : ((A0 ++ [l]) ++ ((M0 ++ [m]) ++ C))[A0.length + (M0 ++ [m]).length]? = some m := by
      have : A0.length + (M0 ++ [m]).length = (A0 ++ [l] ++ M0).length := by simp only [List.length_append, List.length_singleton]; omega
      rw [this]
      simp
    rw [if_neg hne, hidx] at hrun
    dsimp only at hrun
    have hremove : ∀ (T : List Entry) (n : Nat), n = A0.length + (M0 ++ [m]).length + 1 →
        removeSlice ((A0 ++ [l]) ++ ((M0 ++ [m]) ++ C)) (A0.length + 1) n = (A0 ++ [l]) ++ C := by
      intro T n hn
      unfold removeSlice
      have h1 : ((A0 ++ [l]) ++ ((M0 ++ [m]) ++ C)).take (A0.length + 1) = A0 ++ [l] := by rw [hlen]; exact List.take_left
      have h2 : max (A0.length + 1) n = ((A0 ++ [l]) ++ (M0 ++ [m])).length := by simp only [List.length_append, List.length_singleton] at *; omega
      have h3 : (A0 ++ [l]) ++ ((M0 ++ [m]) ++ C) = ((A0 ++ [l]) ++ (M0 ++ [m])) ++ C := by simp
      rw [h1, h2, h3, List.drop_left]
    cases hma : m.anyFollows with
    | true =>
      refine ⟨[], he, ?_, hgoodN, hA, hMlt, hC, hA', hbefore, hlast, hsame, .inr ⟨rfl, by rw [lastAny_snoc]; exact hma⟩⟩
      rw [hrun, hma]
      simp only [Bool.not_true, Bool.false_eq_true, if_false]
      rw [hremove [] _ rfl]
      rfl
    | false =>
      refine ⟨[⟨t, false⟩], he, ?_, hgoodT, hA, hMlt, hC, hA', hbefore, hlast, hsame, .inl ⟨rfl, by rw [lastAny_snoc, hma]; exact fun h => nomatch h⟩⟩
      rw [hrun, hma]
      simp only [Bool.not_false, if_true]
      split
      · rename_i heq
        have hmt : m = ⟨t, false⟩ := by
          have := (C10_equals_iff _ _).mp heq
          cases m
          simp_all
        congr 2
        unfold removeSlice
        have h1 : ((A0 ++ [l]) ++ ((M0 ++ [m]) ++ C)).take (A0.length + 1) = A0 ++ [l] := by rw [hlen]; exact List.take_left
        have h2 : max (A0.length + 1) (A0.length + (M0 ++ [m]).length) = ((A0 ++ [l]) ++ M0).length := by simp only [List.length_append, List.length_singleton]; omega
        have h3 : (A0 ++ [l]) ++ ((M0 ++ [m]) ++ C) = ((A0 ++ [l]) ++ M0) ++ ([m] ++ C) := by simp
        rw [h1, h2, h3, List.drop_left, hmt]
      · congr 2
        unfold removeSlice
        have hins : ((A0 ++ [l]) ++ ((M0 ++ [m]) ++ C)).insertIdx (A0.length + (M0 ++ [m]).length + 1) ⟨t, false⟩ =
            ((A0 ++ [l]) ++ (M0 ++ [m])) ++ ([⟨t, false⟩] ++ C) := by
          have : A0.length + (M0 ++ [m]).length + 1 = ((A0 ++ [l]) ++ (M0 ++ [m])).length := by simp only [List.length_append, List.length_singleton]; omega
          rw [this, ← List.append_assoc, insert_at]
          rfl
        have h1 : (((A0 ++ [l]) ++ (M0 ++ [m])) ++ (([⟨t, false⟩] : List Entry) ++ C)).take (A0.length + 1) = A0 ++ [l] := by
          rw [List.append_assoc, hlen]; exact List.take_left
        have h2 : max (A0.length + 1) (A0.length + (M0 ++ [m]).length + 1) = ((A0 ++ [l]) ++ (M0 ++ [m])).length := by simp only [List.length_append, List.length_singleton]; omega
        rw [hins, h1, h2, List.drop_left]

theorem range_spec {x : Exclude} (hx : Ordered x) {f t : Component} (hf : Ok f) (ht : Plain t) (hlt : compLt f t)
    (hnew : ∃ c, Plain c ∧ le f c ∧ le c t ∧ ¬ Excluded x c) :
    ∃ y, excludeRange x f t = .ok y ∧ Ordered y ∧ ∀ c, Plain c → (Excluded y c ↔ Excluded x c ∨ (le f c ∧ le c t)) := by
  obtain ⟨A, M, C, A', T, he, hr, hg, hA, hM, hC, hA', hbefore, hlast, hsame, hT⟩ := range_entries hx hf ht hlt
  refine ⟨_, hr, ordered_set hg, fun c hc => ?_⟩
  rw [excluded_set hg hc, ← ex_entries hx hc, he]
  rcases lt_total hc.1 hf.generic with k | k
  · rw [ex_before A' (T ++ C) ?_, hbefore c k, ex_before A (M ++ C) ?_]
    · refine ⟨.inl, ?_⟩
      rintro (h | h)
      · exact h
      · exact absurd h.1 (not_le k)
    · intro e he
      rcases List.mem_append.mp he with he | he
      · exact lt_trans k (hM e he).1
      · exact lt_trans k (lt_trans hlt (hC e he))
    · intro e he
      rcases List.mem_append.mp he with he | he
      · rcases hT with ⟨rfl, _⟩ | ⟨rfl, _⟩
        · cases List.mem_singleton.mp he
          exact lt_trans k hlt
        · nomatch he
      · exact lt_trans k (lt_trans hlt (hC e he))
  · have hfc : le f c := k.elim (fun h => .inl h.symm) .inr
    rcases lt_total ht.1 hc.1 with q | q
    · -- after the range
      have hAc : ∀ e ∈ A, compLt e.component c := fun e he => lt_trans (le_lt (hA e he) hlt) q
      have hA'c : ∀ e ∈ A', compLt e.component c := fun e he => lt_trans (le_lt (hA' e he) hlt) q
      have hMc : ∀ e ∈ M, compLt e.component c := fun e he => le_lt (hM e he).2 q
      have hTc : ∀ e ∈ T, compLt e.component c := by
        intro e he
        rcases hT with ⟨rfl, _⟩ | ⟨rfl, _⟩
        · cases List.mem_singleton.mp he
          exact q
        · nomatch he
      rw [ex_after A' (T ++ C) hA'c, ex_after T C hTc, ex_after A (M ++ C) hAc, ex_after M C hMc]
      have hsamep : lastAny (lastAny False A') T ↔ lastAny (lastAny False A) M := by
        rcases List.eq_nil_or_concat M with rfl | ⟨M0, m, rfl⟩
        · rcases hT with ⟨rfl, _⟩ | ⟨rfl, h⟩
          · show (false = true) ↔ lastAny False A
            refine ⟨(fun h => nomatch h), fun h => ?_⟩
            exfalso
            rcases hsame with hs | hs
            · exact hs h
            · obtain ⟨d, hd, hfd, hdt, hn⟩ := hnew
              refine hn ((ex_entries hx hd).mp ?_)
              rw [he, List.nil_append, ex_before A C fun e he => le_lt hdt (hC e he)]
              exact ex_last (fun e he => by
                rcases hA e he with w | w
                · rw [w]; exact hfd
                · exact .inr (lt_le w hfd)) h
          · exact h.elim
        · rw [List.concat_eq_append] at *
          rw [lastAny_snoc] at *
          rcases hT with ⟨rfl, h⟩ | ⟨rfl, h⟩
          · exact ⟨fun h => (nomatch (show false = true from h)), fun h' => absurd h' h⟩
          · exact ⟨fun _ => h, fun _ => hlast⟩
      rw [propext hsamep]
      refine ⟨.inl, ?_⟩
      rintro (h | h)
      · exact h
      · exact absurd h.2 (not_le q)
    · have hct : le c t := q.elim (fun h => .inl h.symm) .inr
      refine ⟨fun _ => .inr ⟨hfc, hct⟩, fun _ => ?_⟩
      rw [← List.append_assoc, ex_before (A' ++ T) C fun e he => le_lt hct (hC e he)]
      have hA'c : ∀ e ∈ A', le e.component c := by
        intro e he
        rcases hA' e he with w | w
        · rw [w]; exact hfc
        · exact .inr (lt_le w hfc)
      rcases hT with ⟨rfl, _⟩ | ⟨rfl, _⟩
      · rcases q with q | q
        · exact ex_mem (List.mem_append_right _ (List.mem_singleton.mpr rfl)) q.symm (fun e he => by
            rcases List.mem_append.mp he with he | he
            · exact hA'c e he
            · cases List.mem_singleton.mp he
              exact .inl q)
        · exact (ex_before A' [⟨t, false⟩] fun e he => by cases List.mem_singleton.mp he; exact q).mpr (ex_last hA'c hlast)
      · rw [List.append_nil]
        exact ex_last hA'c hlast

/-- C75: after `excludeRange` exactly those components are excluded that were before, the two ends, and those between; if not the whole range was
excluded before. -/
theorem C75_range_partial {x : Exclude} (hx : Ordered x) {f t : Component} (hf : Plain f) (ht : Plain t) (hlt : compLt f t)
    (hnew : ∃ c, Plain c ∧ le f c ∧ le c t ∧ ¬ Excluded x c) :
    ∃ y, excludeRange x f t = .ok y ∧ Ordered y ∧ ∀ c, Plain c → (Excluded y c ↔ Excluded x c ∨ (le f c ∧ le c t)) :=
  range_spec hx (.inl hf) ht hlt hnew

/-- C75: a range that is empty or has one component raises RuntimeError. -/
theorem C75_error (x : Exclude) {f t : Component} (hf : Plain f) (ht : Plain t) (h : ¬ compLt f t) : excludeRange x f t = .error .runtime := by
  unfold excludeRange
  rw [if_pos]
  rcases lt_total hf.1 ht.1 with k | k | k
  · exact absurd k h
  · rw [k, (C10_compare_zero t t).mpr ⟨rfl, rfl⟩]; decide
  · rw [(C10_compare_gt f t).mpr k]; decide

/-- C75: after `excludeBefore` exactly those components are excluded that were before, the component itself, and those before it; if not all of these
were excluded before. -/
theorem C75_before_partial {x : Exclude} (hx : Ordered x) {t : Component} (ht : Plain t) (hnew : ∃ c, Plain c ∧ le c t ∧ ¬ Excluded x c) :
    ∃ y, excludeBefore x t = .ok y ∧ Ordered y ∧ ∀ c, Plain c → (Excluded y c ↔ Excluded x c ∨ le c t) := by
  obtain ⟨d, hd, hdt, hn⟩ := hnew
  obtain ⟨y, h1, h2, h3⟩ := range_spec hx (.inr rfl) ht (empty_lt ht) ⟨d, hd, .inr (empty_lt hd), hdt, hn⟩
  refine ⟨y, h1, h2, fun c hc => ?_⟩
  rw [h3 c hc]
  exact ⟨fun h => h.imp id And.right, fun h => h.imp id fun h => ⟨.inr (empty_lt hc), h⟩⟩

/-! ### Examples -/

def exC (n : UInt8) : Component := .generic [n]

/-- [B, ANY, D, F], and the range from C to E. -/
example : Ordered [some (exC 2), none, some (exC 4), some (exC 6)] := by
  refine ⟨fun c hc => ?_, ?_⟩
  · simp only [List.mem_cons, List.not_mem_nil, or_false, Option.some.injEq, reduceCtorEq, false_or] at hc
    rcases hc with rfl | rfl | rfl <;> exact ⟨rfl, fun h => nomatch h⟩
  · simp only [List.filterMap_cons, id, List.filterMap_nil, List.pairwise_cons, List.mem_cons, List.not_mem_nil, or_false]
    refine ⟨?_, ?_, ?_⟩
    · rintro a (rfl | rfl) <;> exact (C10_compare_lt _ _).mp (by decide)
    · rintro a rfl
      exact (C10_compare_lt _ _).mp (by decide)
    · exact ⟨(fun _ h => nomatch h), List.Pairwise.nil⟩

example : excludeRange [some (exC 2), none, some (exC 4), some (exC 6)] (exC 3) (exC 5) = .ok [some (exC 2), none, some (exC 5), some (exC 6)] ∧
    excludeAfter [some (exC 2), none, some (exC 4), some (exC 6)] (exC 5) = [some (exC 2), none, some (exC 4), some (exC 5), none] ∧
    excludeBefore [some (exC 2), none, some (exC 4), some (exC 6)] (exC 3) = .ok [none, some (exC 4), some (exC 6)] := by decide +kernel

/-- Something in the range is not excluded before. -/
example : ¬ Excluded [some (exC 2), none, some (exC 4), some (exC 6)] (exC 5) := by
  intro h
  have := (C18_matches _ _).1.mpr h
  exact absurd this (by decide +kernel)

/-- Where the code departs, and why two theorems are partial: to exclude a range again that is inside of an excluded range makes the excluded range
shorter.  Here B to F are excluded, then C to D: E is not excluded any more.  The same with excludeBefore. -/
theorem C75_shrinks :
    excludeRange [some (exC 2), none, some (exC 6)] (exC 3) (exC 4) = .ok [some (exC 2), none, some (exC 4), some (exC 6)] ∧
    Exclude.matches [some (exC 2), none, some (exC 6)] (exC 5) = .ok true ∧
    Exclude.matches [some (exC 2), none, some (exC 4), some (exC 6)] (exC 5) = .ok false ∧
    excludeBefore [none, some (exC 6)] (exC 4) = .ok [none, some (exC 4), some (exC 6)] := by decide +kernel

end PyNDN.ExcludeRange
