import Verif.Lemmas.BoostInfo
/-
C82: a configuration file in the Boost INFO format gives the entries that are written in it.
-/
namespace PyNDN.Props
open PyNDN PyNDN.BoostInfo PyNDN.Spec.BoostInfo

/-- C82 (reading): any text of a list of entries - with any indentation, gaps, blank lines, comments, quotes, line ends, with the
opening brace on its own line or not, to any depth - is accepted, and the tree has exactly these entries: for each key, in the order
of first appearance, the entries in the order of the text. -/
theorem C82_read_partial (files : Files) (depth : Nat) {items : List Item} {ls : List Str} {text : Str} (hl : Lines items ls)
    (ht : Text ls text) : ∃ root, read files (depth + 1) text (Tree.empty none) = .ok root ∧ view root = documentView items := by
  obtain ⟨t, h1, h2⟩ := read_lines (files := files) hl ht depth (Tree.empty none)
  refine ⟨t, h1, ?_⟩
  rw [h2]
  have hg := addItems_group [] items
  rw [show group (itemsView []) = ([] : List (Str × List View)) by simp [itemsView, group, firsts]] at hg
  simp [Tree.empty, Tree.value, Tree.subtrees, viewDict, hg, documentView]

/-- C82 (several files): reading several texts one after the other with one parser gives what reading all the entries in that order
gives. -/
theorem C82_several_partial (files : Files) (depth : Nat) (docs : List (List Item × List Str × Str))
    (h : ∀ d ∈ docs, Lines d.1 d.2.1 ∧ Text d.2.1 d.2.2) :
    ∃ root, docs.foldlM (fun t d => read files (depth + 1) d.2.2 t) (Tree.empty none) = .ok root ∧
      view root = documentView (docs.flatMap fun d => d.1) := by
  suffices H : ∀ (pre : List Item) (t : Tree), view t = documentView pre →
      ∃ root, docs.foldlM (fun t d => read files (depth + 1) d.2.2 t) t = .ok root ∧
        view root = documentView (pre ++ docs.flatMap fun d => d.1) by
    have := H [] (Tree.empty none) (by simp [Tree.empty, view, viewDict, documentView, itemsView, group, firsts])
    simpa using this
  induction docs with
  | nil => exact fun pre t ht => ⟨t, rfl, by simpa using ht⟩
  | cons d docs ih =>
    intro pre t ht
    obtain ⟨u, h1, h2⟩ := read_lines (files := files) (h d (by simp)).1 (h d (by simp)).2 depth t
    rw [view_eq] at ht
    injection ht with ht1 ht2
    rw [ht1, ht2, addItems_group] at h2
    obtain ⟨root, h3, h4⟩ := ih (fun e he => h e (List.mem_cons_of_mem _ he)) (pre ++ d.1) u h2
    refine ⟨root, ?_, ?_⟩
    · rw [List.foldlM_cons, h1]
      exact h3
    · rw [h4]
      simp

/-- C82 (looking up): in the tree of a configuration, a path of keys - with any number of slashes before it - gives exactly the entries
that it leads to, in the order of the text. -/
theorem C82_get (t : Tree) (v : Option Str) (items : List Item) (h : view t = .node v (group (itemsView items))) (ks : List Str)
    (hne : ks ≠ []) (hks : ∀ k ∈ ks, k ≠ [] ∧ '/' ∉ k) (slashes : Str) (hs : ∀ c ∈ slashes, c = '/') :
    (t.get (slashes ++ List.intercalate ['/'] ks)).map view = (select ks items).map itemView := by
  rw [← joinPath_intercalate]
  refine get_select ks hne hks slashes hs _ ?_ t v items h
  have := length_joinPath ks fun k hk => (hks k hk).1
  simp
  omega

/-- C82 (first value): `getFirstValue` is the value of the first entry that the path leads to, or None. -/
theorem C82_first (t : Tree) (v : Option Str) (items : List Item) (h : view t = .node v (group (itemsView items))) (ks : List Str)
    (hne : ks ≠ []) (hks : ∀ k ∈ ks, k ≠ [] ∧ '/' ∉ k) :
    t.getFirstValue (List.intercalate ['/'] ks) = (select ks items).head?.bind Item.value := by
  have hg := C82_get t v items h ks hne hks [] (by simp)
  rw [List.nil_append] at hg
  unfold Tree.getFirstValue
  cases hx : t.get (List.intercalate ['/'] ks) with
  | nil =>
    rw [hx] at hg
    cases hy : select ks items with
    | nil => rfl
    | cons i is => rw [hy] at hg; cases hg
  | cons u us =>
    rw [hx] at hg
    cases hy : select ks items with
    | nil => rw [hy] at hg; cases hg
    | cons i is =>
      rw [hy] at hg
      simp only [List.map_cons, List.cons.injEq] at hg
      obtain ⟨a, b, d⟩ := i
      have := hg.1
      rw [view_eq, itemView] at this
      injection this with h1 _

/-- C82 (the file as written): looking up a path after reading a text gives the entries of the text. -/
theorem C82_lookup_partial (files : Files) (depth : Nat) {items : List Item} {ls : List Str} {text : Str} (hl : Lines items ls)
    (ht : Text ls text) : ∃ root, read files (depth + 1) text (Tree.empty none) = .ok root ∧
      ∀ ks : List Str, ks ≠ [] → (∀ k ∈ ks, k ≠ [] ∧ '/' ∉ k) →
        (root.get (List.intercalate ['/'] ks)).map view = (select ks items).map itemView ∧
        root.getFirstValue (List.intercalate ['/'] ks) = (select ks items).head?.bind Item.value := by
  obtain ⟨root, h1, h2⟩ := C82_read_partial files depth hl ht
  refine ⟨root, h1, fun ks hne hks => ⟨?_, C82_first root none items h2 ks hne hks⟩⟩
  have := C82_get root none items h2 ks hne hks [] (by simp)
  simpa using this

/-- C82 (inclusion): a line `#include file` reads the file at this place. -/
theorem C82_include (files : Files) (depth : Nat) {items pre post : List Item} {ls lpre lpost : List Str} {text inc name : Str}
    (hpre : Lines pre lpre) (hpost : Lines post lpost) (hl : Lines items ls) (ht : Text ls text) (hf : files name = some text)
    {w : Str} (hw : WordText name w) (hn : name ≠ ['{'] ∧ name ≠ ['}']) {line : Str} (hline : LineOf ("#include ".toList ++ w) line)
    (hinc : Text (lpre ++ line :: lpost) inc) :
    ∃ root, read files (depth + 2) inc (Tree.empty none) = .ok root ∧ view root = documentView (pre ++ items ++ post) := by
  obtain ⟨t1, h1, v1⟩ := readLines_items (files := files) (readFile := readInput files (depth + 1)) hpre (Tree.empty none) []
  obtain ⟨t2, h2, v2⟩ := readLines_items (files := files) (readFile := readInput files depth) hl t1 []
  obtain ⟨t3, h3, v3⟩ := readLines_items (files := files) (readFile := readInput files (depth + 1)) hpost t2 []
  obtain ⟨_, ⟨b, s, hb1, hb2⟩, hno⟩ := wordText_ends hw
  have htrim : Trim ("#include ".toList ++ w) := by
    refine trim_of (a := '#') (r := "include ".toList ++ w) (b := b) (s := s ++ "#include ".toList.reverse) rfl (by decide) ?_ hb2
    rw [List.reverse_append, hb1, List.cons_append]
  have hsemi : ';' ∉ "#include ".toList ++ w := by
    intro hm
    rcases List.mem_append.mp hm with hm | hm
    · exact absurd hm (by decide)
    · exact hno hm
  refine ⟨t3, ?_, ?_⟩
  · unfold BoostInfo.read
    rw [readInput, splitLines_text hinc, readLines_append, h1]
    show (readLines files (readInput files (depth + 1)) (line :: lpost) (.node t1 [])).map Ctx.root = _
    rw [readLines, parse_include hw hn hf (cut_line hline htrim hsemi) 1, readInput, splitLines_text ht, h2]
    show (readLines files (readInput files (depth + 1)) lpost (.node t2 [])).map Ctx.root = _
    rw [h3]
    rfl
  · have e0 : viewDict (Tree.empty none).subtrees = group (itemsView []) := by
      simp [Tree.empty, Tree.subtrees, viewDict, itemsView, group, firsts]
    rw [e0, addItems_group, view_eq] at v1
    injection v1 with v1a v1b
    rw [v1a, v1b, addItems_group, view_eq] at v2
    injection v2 with v2a v2b
    rw [v2a, v2b, addItems_group] at v3
    rw [v3]
    simp [documentView, Tree.empty, Tree.value]

/-! ### A case -/

/-- A text of a configuration. -/
def c82Text : Str := ("validator\r\n{ ; a comment\n\n  rule {\n\tid \"a \\\"rule\\\"\"\n    for data ; ignored }\n  } ;x\n" ++
  "  rule \"two\"\n  ; before the brace\n  {\n  }\n  trust-anchor\n}\nother 1").toList

/-- Its entries. -/
def c82Items : List Item :=
  [.mk "validator".toList none
    [.mk "rule".toList none [.mk "id".toList (some "a \"rule\"".toList) [], .mk "for".toList (some "data".toList) []],
     .mk "rule".toList (some "two".toList) [], .mk "trust-anchor".toList none []],
   .mk "other".toList (some "1".toList) []]

/-- Its lines. -/
def c82Lines : List Str := ["validator".toList, "{ ; a comment".toList, [], "  rule {".toList, "\tid \"a \\\"rule\\\"\"".toList,
  "    for data ; ignored }".toList, "  } ;x".toList, "  rule \"two\"".toList, "  ; before the brace".toList, "  {".toList, "  }".toList,
  "  trust-anchor".toList, "}".toList, "other 1".toList]

theorem c82_plain (w : Str) (h : (w ≠ [] ∧ ∀ c ∈ w, isPySpace c = false ∧ c ≠ '"' ∧ c ≠ '\\' ∧ c ≠ ';') := by decide) :
    WordText w w := .inl ⟨rfl, h⟩

theorem c82_lineEnd (sp cm : Str) (h : Spaces sp := by unfold Spaces; decide) : LineEnd (sp ++ ';' :: cm) :=
  ⟨sp, ';' :: cm, h, .inr ⟨cm, rfl⟩, rfl⟩

theorem c82_end : LineEnd [] := ⟨[], [], (fun c hc => by cases hc), .inl rfl, rfl⟩

set_option maxRecDepth 20000 in
example : Lines c82Items c82Lines ∧ Text c82Lines c82Text := by
  have hsp : ∀ s : Str, (∀ c ∈ s, c = ' ' ∨ c = '\t') → Spaces s := fun s h => h
  have hent : ∀ (key v gap : Str) (vt : Str), WordsOk key (some v) → WordText key key → WordText v vt → Spaces gap → gap ≠ [] →
      EntryText key (some v) (key ++ gap ++ vt) := fun key v gap vt h1 h2 h3 h4 h5 => ⟨h1, key, gap, vt, h2, h4, h5, h3, rfl⟩
  constructor
  · refine .section (text := "validator".toList) (blanks := []) (o := "{ ; a comment".toList)
      (body := [[], "  rule {".toList, "\tid \"a \\\"rule\\\"\"".toList, "    for data ; ignored }".toList, "  } ;x".toList,
        "  rule \"two\"".toList, "  ; before the brace".toList, "  {".toList, "  }".toList, "  trust-anchor".toList])
      (c := "}".toList) (ls := ["other 1".toList]) ⟨by unfold WordsOk; decide, c82_plain _⟩
      ⟨[], [], hsp _ (by decide), c82_end, rfl⟩ (by simp) ⟨[], " ; a comment".toList, hsp _ (by decide), c82_lineEnd " ".toList _, rfl⟩ ?_
      ⟨[], [], hsp _ (by decide), c82_end, rfl⟩ ?_
    · refine .blank c82_end (.sectionSame (text := "rule".toList) (gap := " ".toList)
        (body := ["\tid \"a \\\"rule\\\"\"".toList, "    for data ; ignored }".toList]) (c := "  } ;x".toList)
        ⟨by unfold WordsOk; decide, c82_plain _⟩ (by decide) (hsp _ (by decide)) (by decide)
        ⟨"  ".toList, [], hsp _ (by decide), c82_end, rfl⟩ ?_
        ⟨"  ".toList, " ;x".toList, hsp _ (by decide), c82_lineEnd " ".toList _, rfl⟩ ?_)
      · refine .entry (hent "id".toList "a \"rule\"".toList " ".toList _ (by unfold WordsOk; decide) (c82_plain _)
          (.inr ⟨rfl, by decide⟩) (hsp _ (by decide)) (by decide)) ⟨"\t".toList, [], hsp _ (by decide), c82_end, rfl⟩ ?_
        exact .entry (hent "for".toList "data".toList " ".toList _ (by unfold WordsOk; decide) (c82_plain _)
          (c82_plain _) (hsp _ (by decide)) (by decide)) ⟨"    ".toList, " ; ignored }".toList, hsp _ (by decide),
            c82_lineEnd " ".toList _, rfl⟩ .nil
      · refine .section (blanks := ["  ; before the brace".toList]) (o := "  {".toList) (body := []) (c := "  }".toList)
          (hent "rule".toList "two".toList " ".toList _ (by unfold WordsOk; decide) (c82_plain _)
          (.inr ⟨rfl, by decide⟩) (hsp _ (by decide)) (by decide)) ⟨"  ".toList, [], hsp _ (by decide), c82_end, rfl⟩ ?_
          ⟨"  ".toList, [], hsp _ (by decide), c82_end, rfl⟩ .nil ⟨"  ".toList, [], hsp _ (by decide), c82_end, rfl⟩ ?_
        · intro b hb
          rw [List.mem_singleton.mp hb]
          exact c82_lineEnd "  ".toList _
        · exact .entry ⟨by unfold WordsOk; decide, c82_plain _⟩ ⟨"  ".toList, [], hsp _ (by decide), c82_end, rfl⟩ .nil
    · exact .entry (hent "other".toList "1".toList " ".toList _ (by unfold WordsOk; decide) (c82_plain _)
          (c82_plain _) (hsp _ (by decide)) (by decide)) ⟨[], [], hsp _ (by decide), c82_end, rfl⟩ .nil
  · refine .cons (nl := ['\r', '\n']) (by decide) (.inr rfl) ?_
    iterate 12 refine .cons (nl := ['\n']) (by decide) (.inl rfl) ?_
    exact .last (by decide) (by decide)

example : (read (fun _ => none) 1 c82Text (Tree.empty none)).toOption.map (fun t =>
    (t.getFirstValue "validator/rule/id".toList, (t.get "/validator/rule".toList).length, t.getFirstValue "other".toList)) =
      some (some "a \"rule\"".toList, 2, some "1".toList) := by decide +kernel

/-! ### Where the parser departs -/

/-- C82 (departure): a semicolon starts a comment even inside quotes. -/
theorem C82_semicolon : (read (fun _ => none) 1 "key \"a;b\"".toList (Tree.empty none)).toOption.map
    (fun t => t.getFirstValue "key".toList) = some (some "a".toList) := by decide +kernel

/-- C82 (departure): in a section on one line, the entries and the closing brace are ignored, so what follows the section is taken
into it. -/
theorem C82_one_line : (read (fun _ => none) 1 "a { b 1 }\nc 2".toList (Tree.empty none)).toOption.map
    (fun t => (t.getFirstValue "a/b".toList, t.getFirstValue "c".toList, t.getFirstValue "a/c".toList)) =
      some (none, none, some "2".toList) := by decide +kernel

/-- C82 (departure): a brace in quotes opens a section. -/
theorem C82_quoted_brace : (read (fun _ => none) 1 "a \"{\"\nb 1".toList (Tree.empty none)).toOption.map
    (fun t => (t.getFirstValue "a".toList, t.getFirstValue "a/b".toList)) = some (some [], some "1".toList) := by decide +kernel

/-- C82 (departure): a brace directly after the key is part of the key, and the section's closing brace then closes the section around
it. -/
theorem C82_no_gap : (read (fun _ => none) 1 "v\n{\na{\nb 1\n}\nc 2\n}".toList (Tree.empty none)).toOption.map
    (fun t => (t.getFirstValue "v/a/b".toList, t.getFirstValue "v/b".toList, t.getFirstValue "c".toList)) =
      some (none, some "1".toList, some "2".toList) := by decide +kernel

/-- C82 (departure): a closing brace too many at the end, and a missing closing brace, are accepted. -/
theorem C82_unbalanced : ∀ text ∈ ["a 1\n}".toList, "a 1\n{\nb 2".toList],
    (read (fun _ => none) 1 text (Tree.empty none)).toOption.map (fun t => t.getFirstValue "a".toList) = some (some "1".toList) := by
  decide +kernel

/-- C82 (departure): words after the value are ignored. -/
theorem C82_more_words : (read (fun _ => none) 1 "a 1 2 3".toList (Tree.empty none)).toOption.map
    (fun t => t.getFirstValue "a".toList) = some (some "1".toList) := by decide +kernel

end PyNDN.Props
