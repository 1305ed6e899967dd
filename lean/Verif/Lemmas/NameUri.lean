import Verif.Model.NameUri
import Verif.Spec.Name
/-
Lemmas for the URI form of names.
-/
namespace PyNDN

/-- A character that can appear in an escaped component value. -/
def plain (c : Char) : Bool := !isPySpace c && c != '/' && c != ':' && c != '='

theorem byte_cases {p : UInt8 → Prop} (h : ∀ n : Fin 256, p (UInt8.ofNat n.val)) (x : UInt8) : p x := by
  have := h ⟨x.toNat, x.toNat_lt⟩
  simpa using this

def escByte (x : UInt8) : List Char :=
  if isUnreserved x then [Char.ofNat x.toNat] else '%' :: hex2 true x

set_option maxRecDepth 100000 in
theorem escByte_plain (x : UInt8) : (escByte x).all plain = true := by
  revert x; exact byte_cases (by decide +kernel)

set_option maxRecDepth 100000 in
theorem hex2_plain (x : UInt8) : (hex2 false x).all plain = true := by
  revert x; exact byte_cases (by decide +kernel)

set_option maxRecDepth 100000 in
theorem escByte_cases (x : UInt8) :
    (isUnreserved x = true ∧ Char.ofNat x.toNat ≠ '%' ∧ ordByte (Char.ofNat x.toNat) = .ok x) ∨
    (isUnreserved x = false ∧
      parseHex2 (hexDigit true (x.toNat / 16)) (hexDigit true (x.toNat % 16)) = some x.toNat) := by
  revert x; exact byte_cases (by decide +kernel)

set_option maxRecDepth 100000 in
theorem hex2_val (x : UInt8) :
    hexVal (hexDigit false (x.toNat / 16)) = some (x.toNat / 16) ∧
    hexVal (hexDigit false (x.toNat % 16)) = some (x.toNat % 16) ∧
    isPySpace (hexDigit false (x.toNat / 16)) = false := by
  revert x; exact byte_cases (by decide +kernel)

theorem strip_id {s : List Char} (h : ∀ c ∈ s, isPySpace c = false) : strip s = s := by
  have key : ∀ l : List Char, (∀ c ∈ l, isPySpace c = false) → l.dropWhile isPySpace = l := by
    intro l hl
    cases l with
    | nil => rfl
    | cons a l => simp [List.dropWhile, hl a (by simp)]
  unfold strip
  rw [key s h, key s.reverse (by simpa using h), List.reverse_reverse]

theorem unescape_cons_ne {c : Char} (hc : c ≠ '%') (rest : List Char) :
    unescape (c :: rest) = (do let x ← ordByte c; return x :: (← unescape rest)) := by
  rw [unescape]
  intros; simp_all

theorem unescape_escByte (x : UInt8) (rest : List Char) (r : Bytes) (h : unescape rest = .ok r) :
    unescape (escByte x ++ rest) = .ok (x :: r) := by
  rcases escByte_cases x with ⟨h1, h2, h3⟩ | ⟨h1, h2⟩
  · simp only [escByte, h1, if_true, List.cons_append, List.nil_append]
    rw [unescape_cons_ne h2, h3, h]; rfl
  · simp only [escByte, h1, hex2, List.cons_append, List.nil_append]
    simp only [Bool.false_eq_true, if_false, List.cons_append, List.nil_append]
    rw [unescape, h2, h]
    simp [bind, Except.bind, pure, Except.pure]

theorem unescape_esc (v : Bytes) : unescape (v.flatMap escByte) = .ok v := by
  induction v with
  | nil => rfl
  | cons x v ih => rw [List.flatMap_cons]; exact unescape_escByte x _ _ ih

theorem unescape_dots (n : Nat) : unescape (List.replicate n '.') = .ok (List.replicate n 0x2e) := by
  induction n with
  | zero => rfl
  | succ n ih =>
    rw [List.replicate_succ, unescape_cons_ne (by decide), ih]
    rfl

theorem escapeValue_eq (v : Bytes) : escapeValue v =
    if v.all (fun x => x == 0x2e) then List.replicate (v.length + 3) '.' else v.flatMap escByte := rfl

theorem escapeValue_plain (v : Bytes) : ∀ c ∈ escapeValue v, plain c = true := by
  intro c hc
  rw [escapeValue_eq] at hc
  split at hc
  · rw [List.mem_replicate] at hc; rw [hc.2]; decide
  · rw [List.mem_flatMap] at hc
    obtain ⟨x, -, hx⟩ := hc
    exact List.all_eq_true.mp (escByte_plain x) c hx

theorem escapeValue_ne_nil (v : Bytes) : escapeValue v ≠ [] := by
  rw [escapeValue_eq]
  split
  · simp [List.replicate_succ]
  · rename_i h
    cases v with
    | nil => simp at h
    | cons x v =>
      simp only [List.flatMap_cons, ne_eq, List.append_eq_nil_iff, not_and]
      intro h; exfalso; revert h
      unfold escByte; split <;> simp

theorem plain_iff (c : Char) : plain c = true ↔
    isPySpace c = false ∧ c ≠ '/' ∧ c ≠ ':' ∧ c ≠ '=' := by
  simp [plain, and_assoc]

theorem fromEscapedString_escapeValue (v : Bytes) :
    fromEscapedString (escapeValue v) = .ok (some v) := by
  have hs : strip (escapeValue v) = escapeValue v :=
    strip_id fun c hc => ((plain_iff c).mp (escapeValue_plain v c hc)).1
  unfold fromEscapedString
  rw [hs, escapeValue_eq]
  split
  · rename_i h
    rw [unescape_dots]
    have hv : v = List.replicate v.length 0x2e := by
      rw [List.eq_replicate_iff]
      refine ⟨rfl, fun b hb => ?_⟩
      simpa using List.all_eq_true.mp h b hb
    simp only [bind, Except.bind, List.all_replicate, List.length_replicate, List.drop_replicate]
    simp
    exact congrArg (fun z => (Except.ok (some z) : Except Err (Option Bytes))) hv.symm
  · rename_i h
    rw [unescape_esc]
    simp only [bind, Except.bind]
    rw [if_neg h]; rfl

theorem fromHex_toHex_append (v : Bytes) (rest : List Char) :
    fromHex (toHex v ++ rest) = (do let r ← fromHex rest; return v ++ r) := by
  induction v with
  | nil => simp [toHex, bind, Except.bind, pure, Except.pure]; cases fromHex rest <;> rfl
  | cons x v ih =>
    obtain ⟨h1, h2, h3⟩ := hex2_val x
    simp only [toHex, List.flatMap_cons, hex2, List.cons_append, List.nil_append] at ih ⊢
    rw [fromHex]
    simp only [h3, h1, h2, Bool.and_false, Bool.false_and, Bool.false_eq_true, if_false]
    rw [ih]
    cases fromHex rest with
    | error e => rfl
    | ok r =>
      simp only [bind, Except.bind, pure, Except.pure]
      congr 2
      have : 16 * (x.toNat / 16) + x.toNat % 16 = x.toNat := by omega
      simp [this]

theorem fromHex_toHex (v : Bytes) : fromHex (toHex v) = .ok v := by
  have := fromHex_toHex_append v []
  simpa [fromHex, bind, Except.bind, pure, Except.pure] using this

theorem toHex_plain (v : Bytes) : ∀ c ∈ toHex v, plain c = true := by
  intro c hc
  obtain ⟨x, -, hx⟩ := List.mem_flatMap.mp hc
  exact List.all_eq_true.mp (hex2_plain x) c hx

/-! ### Decimal numbers -/

def isDigit (c : Char) : Prop := 48 ≤ c.toNat ∧ c.toNat ≤ 57

theorem digit_char (k : Nat) (hk : k < 10) : (Char.ofNat (48 + k)).toNat = 48 + k := by
  have : ∀ k : Fin 10, (Char.ofNat (48 + k.val)).toNat = 48 + k.val := by decide
  exact this ⟨k, hk⟩

theorem strDec_digits (n : Nat) : ∀ c ∈ strDec n, isDigit c := by
  induction n using Nat.strongRecOn with
  | _ n ih =>
    intro c hc
    rw [strDec] at hc
    split at hc
    · rename_i h
      rw [List.mem_singleton] at hc
      subst hc
      rw [isDigit, digit_char n h]; omega
    · rename_i h
      rw [List.mem_append] at hc
      rcases hc with hc | hc
      · exact ih (n / 10) (by omega) c hc
      · rw [List.mem_singleton] at hc
        subst hc
        rw [isDigit, digit_char _ (Nat.mod_lt n (by omega))]; omega

theorem strDec_ne_nil (n : Nat) : strDec n ≠ [] := by
  rw [strDec]; split <;> simp

theorem parseDigits_append (s t : List Char) (acc : Nat) (b : Bool) (hs : ∀ c ∈ s, isDigit c)
    (hne : s ≠ []) :
    parseDigits acc b (s ++ t) =
      parseDigits (s.foldl (fun a c => a * 10 + (c.toNat - 48)) acc) false t := by
  induction s generalizing acc b with
  | nil => contradiction
  | cons c s ih =>
    have hc := hs c (by simp)
    rw [List.cons_append, parseDigits]
    unfold isDigit at hc
    rw [if_pos hc]
    cases s with
    | nil => simp
    | cons d s => rw [ih _ _ (fun c hc => hs c (by simp [hc])) (by simp)]; rfl

theorem foldl_strDec (n acc : Nat) : ∃ k, 
    (strDec n).foldl (fun a c => a * 10 + (c.toNat - 48)) acc = acc * k + n := by
  induction n using Nat.strongRecOn generalizing acc with
  | _ n ih =>
    rw [strDec]
    split
    · rename_i h
      refine ⟨10, ?_⟩
      simp only [List.foldl_cons, List.foldl_nil]
      rw [digit_char n h]; omega
    · rename_i h
      obtain ⟨k, hk⟩ := ih (n / 10) (by omega) acc
      refine ⟨k * 10, ?_⟩
      rw [List.foldl_append, hk]
      simp only [List.foldl_cons, List.foldl_nil]
      rw [digit_char _ (Nat.mod_lt n (by omega)), Nat.add_mul, Nat.mul_assoc]; omega

theorem isDigit_not_space {c : Char} (h : isDigit c) : isPySpace c = false := by
  obtain ⟨h1, h2⟩ := h
  unfold isPySpace
  simp only [Bool.or_eq_false_iff, Bool.and_eq_false_iff, decide_eq_false_iff_not,
    beq_eq_false_iff_ne]
  omega

theorem isDigit_plain {c : Char} (h : isDigit c) : plain c = true := by
  rw [plain_iff]
  refine ⟨isDigit_not_space h, ?_, ?_, ?_⟩ <;> (intro e; subst e; revert h; unfold isDigit; decide)

theorem parseInt_strDec (n : Nat) : parseInt (strDec n) = some (n : Int) := by
  have hd := strDec_digits n
  have hs : strip (strDec n) = strDec n := strip_id fun c hc => isDigit_not_space (hd c hc)
  have hp : parseDigits 0 true (strDec n) = some n := by
    have := parseDigits_append (strDec n) [] 0 true hd (strDec_ne_nil n)
    rw [List.append_nil] at this
    rw [this]
    obtain ⟨k, hk⟩ := foldl_strDec n 0
    rw [hk]; simp [parseDigits]
  unfold parseInt
  rw [hs]
  cases hc : strDec n with
  | nil => exact absurd hc (strDec_ne_nil n)
  | cons c cs =>
    have hcd : isDigit c := hd c (by simp [hc])
    rw [hc] at hp
    split
    · rename_i ds e
      rw [List.cons.injEq] at e
      rw [e.1] at hcd; exact absurd hcd (by unfold isDigit; decide)
    · rename_i ds e
      rw [List.cons.injEq] at e
      rw [e.1] at hcd; exact absurd hcd (by unfold isDigit; decide)
    · rw [hp]; rfl

/-! ### One component -/

theorem idxOf_append_not_mem (s t : List Char) (c : Char) (h : c ∉ s) :
    (s ++ t).idxOf c = s.length + t.idxOf c := by
  rw [List.idxOf_append, if_neg h]; omega

theorem sha_head : ∃ t, sha256Prefix = 's' :: t := ⟨"ha256digest=".toList, by decide⟩

theorem params_head : ∃ t, paramsPrefix = 'p' :: t := ⟨"arams-sha256=".toList, by decide⟩

theorem params_ne_sha (t : List Char) :
    (paramsPrefix ++ t).take sha256Prefix.length ≠ sha256Prefix := by
  obtain ⟨a, ha⟩ := sha_head
  obtain ⟨b, hb⟩ := params_head
  rw [ha, hb]; simp

/-- What can follow a component: nothing, or a slash and more. -/
def Tail (t : List Char) : Prop := t = [] ∨ ∃ u, t = '/' :: u

theorem Tail.idx {t : List Char} (h : Tail t) : t.idxOf '/' = 0 := by
  rcases h with rfl | ⟨u, rfl⟩ <;> simp

theorem take_ne_prefix (text t : List Char) (p : List Char) (ht : Tail t)
    (htext : '=' ∉ text) (hp : '=' ∈ p) (hp' : '/' ∉ p) :
    (text ++ t).take p.length ≠ p := by
  intro h
  rw [List.take_append] at h
  have hmem : '=' ∈ t.take (p.length - text.length) := by
    have : '=' ∈ List.take p.length text ++ List.take (p.length - text.length) t := by rw [h]; exact hp
    rcases List.mem_append.mp this with h1 | h1
    · exact absurd (List.mem_of_mem_take h1) htext
    · exact h1
  rcases ht with rfl | ⟨u, rfl⟩
  · simp at hmem
  · apply hp'
    rw [← h]
    apply List.mem_append_right
    cases hk : p.length - text.length with
    | zero => rw [hk] at hmem; simp at hmem
    | succ k => simp

/-- The digest types. -/
def Component.isDigest (c : Component) : Bool := c.type == .implicit || c.type == .params

theorem parseComponent_text (c : Component) (hc : Spec.Canonical c) (hd : c.isDigest = false)
    (t : List Char) (ht : Tail t) :
    parseComponent (c.toEscapedString ++ t) = .ok (some c) := by
  obtain ⟨ty, v⟩ := c
  have hv := escapeValue_plain v
  have hslash : '/' ∉ escapeValue v := fun h => ((plain_iff _).mp (hv _ h)).2.1 rfl
  have heq : '=' ∉ escapeValue v := fun h => ((plain_iff _).mp (hv _ h)).2.2.2 rfl
  cases ty with
  | implicit => exact absurd hd (by simp [Component.isDigest])
  | params => exact absurd hd (by simp [Component.isDigest])
  | generic =>
    simp only [Component.toEscapedString]
    unfold parseComponent
    rw [if_neg (take_ne_prefix _ _ _ ht heq (by decide) (by decide)),
      if_neg (take_ne_prefix _ _ _ ht heq (by decide) (by decide))]
    rw [idxOf_append_not_mem _ _ _ hslash, idxOf_append_not_mem _ _ _ heq, ht.idx]
    simp only [Nat.add_zero]
    rw [if_neg (by omega), List.take_left, fromEscapedString_escapeValue]
    rfl
  | other k =>
    obtain ⟨k1, k2, k8, -⟩ := hc
    have hdig := strDec_digits k
    have hne := strDec_ne_nil k
    have hdslash : '/' ∉ strDec k := fun h => ((plain_iff _).mp (isDigit_plain (hdig _ h))).2.1 rfl
    have hdeq : '=' ∉ strDec k := fun h => ((plain_iff _).mp (isDigit_plain (hdig _ h))).2.2.2 rfl
    simp only [Component.toEscapedString]
    have hhead : ∀ p : List Char, (∀ d ∈ p.head?, ¬ isDigit d) → p ≠ [] →
        ((strDec k ++ '=' :: escapeValue v) ++ t).take p.length ≠ p := by
      intro p hp1 hp2 h
      cases p with
      | nil => contradiction
      | cons d p =>
        cases hk : strDec k with
        | nil => contradiction
        | cons e s =>
          rw [hk] at h
          simp only [List.cons_append, List.length_cons, List.take_succ_cons, List.cons.injEq] at h
          have := hp1 d (by simp)
          rw [← h.1] at this
          exact this (hdig e (by simp [hk]))
    unfold parseComponent
    rw [if_neg (hhead _ (by unfold isDigit; decide) (by decide)),
      if_neg (hhead _ (by unfold isDigit; decide) (by decide))]
    have hi : ((strDec k ++ '=' :: escapeValue v) ++ t).idxOf '=' = (strDec k).length := by
      rw [List.append_assoc, idxOf_append_not_mem _ _ _ hdeq]; simp
    have hj : ((strDec k ++ '=' :: escapeValue v) ++ t).idxOf '/' =
        (strDec k ++ '=' :: escapeValue v).length := by
      rw [idxOf_append_not_mem _ _ _ (by simp [hdslash, hslash]), ht.idx]; simp
    simp only [hi, hj]
    rw [if_pos (by simp), List.take_left, List.append_assoc, List.take_left, parseInt_strDec]
    simp only [bind, Except.bind]
    have hdrop : List.drop ((strDec k).length + 1) (strDec k ++ '=' :: escapeValue v) = escapeValue v := by
      rw [List.drop_append]; simp
    rw [hdrop, fromEscapedString_escapeValue]
    have hcode : typeOfCode (k : Int) = .ok (.other k) := by
      unfold typeOfCode
      rw [if_neg (by omega), if_neg (by omega), if_neg (by omega), if_neg (by omega)]
      simp
    simp only [hcode]; rfl

theorem parseComponent_digest (c : Component) (hc : Spec.Canonical c) (hd : c.isDigest = true) :
    parseComponent c.toEscapedString = .ok (some c) := by
  obtain ⟨ty, v⟩ := c
  have hs : strip (toHex v) = toHex v := strip_id fun c hc => ((plain_iff c).mp (toHex_plain v c hc)).1
  cases ty with
  | generic => simp [Component.isDigest] at hd
  | other k => simp [Component.isDigest] at hd
  | implicit =>
    simp only [Component.toEscapedString]
    unfold parseComponent
    rw [if_pos (by rw [List.take_left]), List.drop_left, hs, fromHex_toHex]
    simp only [Spec.Canonical] at hc
    simp [bind, Except.bind, Component.fromImplicitSha256Digest, hc]; rfl
  | params =>
    simp only [Component.toEscapedString]
    unfold parseComponent
    rw [if_neg (params_ne_sha _), if_pos (by rw [List.take_left]), List.drop_left, hs,
      fromHex_toHex]
    simp only [Spec.Canonical] at hc
    simp [bind, Except.bind, Component.fromParametersSha256Digest, hc]; rfl

theorem parseComponent_digest_slash (c : Component) (hd : c.isDigest = true) (u : List Char)
    (hu : ∀ d ∈ u, isPySpace d = false) :
    parseComponent (c.toEscapedString ++ '/' :: u) = .error .value := by
  obtain ⟨ty, v⟩ := c
  have hs : strip (toHex v ++ '/' :: u) = toHex v ++ '/' :: u := strip_id fun c hc => by
    rcases List.mem_append.mp hc with h | h
    · exact ((plain_iff c).mp (toHex_plain v c h)).1
    · rcases List.mem_cons.mp h with rfl | h
      · decide
      · exact hu c h
  have hx : fromHex ('/' :: u) = .error .value := by
    rw [fromHex.eq_def]
    simp only
    split
    · rename_i h; exact absurd h (by decide)
    · cases u with
      | nil => rfl
      | cons d u => simp [hexVal]
  cases ty with
  | generic => simp [Component.isDigest] at hd
  | other k => simp [Component.isDigest] at hd
  | implicit =>
    simp only [Component.toEscapedString, List.append_assoc]
    unfold parseComponent
    rw [if_pos (by rw [List.take_left]), List.drop_left, hs, fromHex_toHex_append, hx]
    rfl
  | params =>
    simp only [Component.toEscapedString, List.append_assoc]
    unfold parseComponent
    rw [if_neg (params_ne_sha _), if_pos (by rw [List.take_left]), List.drop_left, hs,
      fromHex_toHex_append, hx]
    rfl

/-! ### The whole name -/

theorem text_chars (c : Component) : ∀ d ∈ c.toEscapedString,
    isPySpace d = false ∧ d ≠ '/' ∧ d ≠ ':' := by
  intro d hd
  have hp : ∀ {l : List Char}, (∀ d ∈ l, plain d = true) → d ∈ l →
      isPySpace d = false ∧ d ≠ '/' ∧ d ≠ ':' := fun h hm =>
    ⟨((plain_iff d).mp (h d hm)).1, ((plain_iff d).mp (h d hm)).2.1, ((plain_iff d).mp (h d hm)).2.2.1⟩
  have hdec : ∀ l : List Char, d ∈ l →
      l.all (fun d => !isPySpace d && d != '/' && d != ':') = true →
      isPySpace d = false ∧ d ≠ '/' ∧ d ≠ ':' := by
    intro l hm hl
    have := List.all_eq_true.mp hl d hm
    simpa [and_assoc] using this
  unfold Component.toEscapedString at hd
  split at hd
  · rcases List.mem_append.mp hd with h | h
    · exact hdec _ h (by decide)
    · exact hp (toHex_plain _) h
  · rcases List.mem_append.mp hd with h | h
    · exact hdec _ h (by decide)
    · exact hp (toHex_plain _) h
  · exact hp (escapeValue_plain _) hd
  · rcases List.mem_append.mp hd with h | h
    · exact hp (fun d hd => isDigit_plain (strDec_digits _ d hd)) h
    · rcases List.mem_cons.mp h with rfl | h
      · decide
      · exact hp (escapeValue_plain _) h

theorem text_ne_nil (c : Component) : c.toEscapedString ≠ [] := by
  unfold Component.toEscapedString
  split
  · obtain ⟨a, ha⟩ := sha_head; simp [ha]
  · obtain ⟨a, ha⟩ := params_head; simp [ha]
  · exact escapeValue_ne_nil _
  · simp

/-- The part of the URI after the components before. -/
def restUri (cs : Name) : List Char := cs.flatMap fun c => '/' :: c.toEscapedString

theorem restUri_tail (cs : Name) : Tail (restUri cs) := by
  cases cs with
  | nil => exact .inl rfl
  | cons c cs => exact .inr ⟨c.toEscapedString ++ restUri cs, by simp [restUri]⟩

theorem restUri_chars (cs : Name) : ∀ d ∈ restUri cs, isPySpace d = false ∧ d ≠ ':' := by
  intro d hd
  obtain ⟨c, -, hc⟩ := List.mem_flatMap.mp hd
  rcases List.mem_cons.mp hc with rfl | hc
  · decide
  · have := text_chars c d hc
    exact ⟨this.1, this.2.2⟩

theorem text_idx (c : Component) (cs : Name) :
    (c.toEscapedString ++ restUri cs).idxOf '/' = c.toEscapedString.length := by
  rw [idxOf_append_not_mem _ _ _ (fun h => (text_chars c _ h).2.1 rfl), (restUri_tail cs).idx]; simp

theorem parseComponents_unfold (c : Component) (cs : Name) :
    parseComponents (c.toEscapedString ++ restUri cs) = (do
      let x ← parseComponent (c.toEscapedString ++ restUri cs)
      let xs ← parseComponents ((restUri cs).drop 1)
      return x.toList ++ xs) := by
  rw [parseComponents]
  rw [dif_neg (by have := text_ne_nil c; simp [this])]
  rw [text_idx]
  congr 1
  funext x
  rw [List.drop_append, List.drop_eq_nil_of_le (by omega)]
  simp

theorem parseComponents_text (c : Component) (cs : Name) (hc : ∀ d ∈ c :: cs, Spec.Canonical d)
    (hd : ∀ d ∈ (c :: cs).dropLast, d.isDigest = false) :
    parseComponents (c.toEscapedString ++ restUri cs) = .ok (c :: cs) := by
  induction cs generalizing c with
  | nil =>
    rw [parseComponents_unfold]
    have h1 : parseComponent (c.toEscapedString ++ restUri []) = .ok (some c) := by
      by_cases h : c.isDigest = true
      · simpa [restUri] using parseComponent_digest c (hc c (by simp)) h
      · exact parseComponent_text c (hc c (by simp)) (by simpa using h) _ (.inl rfl)
    rw [h1]
    simp [restUri, bind, Except.bind, pure, Except.pure, parseComponents]
  | cons d cs ih =>
    rw [parseComponents_unfold]
    rw [parseComponent_text c (hc c (by simp)) (hd c (by simp [List.dropLast])) _ (restUri_tail _)]
    have h2 : (restUri (d :: cs)).drop 1 = d.toEscapedString ++ restUri cs := by
      simp [restUri]
    rw [h2, ih d (fun x hx => hc x (List.mem_cons_of_mem _ hx))
      (fun x hx => hd x (by simp [List.dropLast, hx]))]
    rfl

theorem parseComponents_digest (pre : Name) (c d : Component) (post : Name)
    (hpre : ∀ x ∈ pre, Spec.Canonical x ∧ x.isDigest = false) (hc : c.isDigest = true) :
    parseComponents ((restUri (pre ++ c :: d :: post)).drop 1) = .error .value := by
  induction pre with
  | nil =>
    have h2 : (restUri (c :: d :: post)).drop 1 = c.toEscapedString ++ restUri (d :: post) := by
      simp [restUri]
    rw [List.nil_append, h2, parseComponents_unfold]
    have h3 : restUri (d :: post) = '/' :: (d.toEscapedString ++ restUri post) := by simp [restUri]
    rw [h3, parseComponent_digest_slash c hc]
    · rfl
    · intro x hx
      rcases List.mem_append.mp hx with h | h
      · exact (text_chars d x h).1
      · exact (restUri_chars post x h).1
  | cons p pre ih =>
    have h2 : (restUri (p :: pre ++ c :: d :: post)).drop 1 =
        p.toEscapedString ++ restUri (pre ++ c :: d :: post) := by
      simp [restUri]
    rw [h2, parseComponents_unfold,
      parseComponent_text p (hpre p (by simp)).1 (hpre p (by simp)).2 _ (restUri_tail _),
      ih (fun x hx => hpre x (List.mem_cons_of_mem _ hx))]
    rfl

theorem parseUri_toUri (c : Component) (cs : Name) (scheme : Bool) :
    parseUri (Name.toUri (c :: cs) scheme) = parseComponents ((restUri (c :: cs)).drop 1) := by
  have hr : restUri (c :: cs) = '/' :: (c.toEscapedString ++ restUri cs) := by simp [restUri]
  obtain ⟨e, s, hs⟩ : ∃ e s, c.toEscapedString = e :: s := by
    cases h : c.toEscapedString with
    | nil => exact absurd h (text_ne_nil c)
    | cons e s => exact ⟨e, s, rfl⟩
  have he : e ≠ '/' := (text_chars c e (by simp [hs])).2.1
  have hchars := restUri_chars (c :: cs)
  have hstrip : strip (restUri (c :: cs)) = restUri (c :: cs) := strip_id fun d hd => (hchars d hd).1
  have hstrip1 : strip ((restUri (c :: cs)).drop 1) = (restUri (c :: cs)).drop 1 :=
    strip_id fun d hd => (hchars d (List.mem_of_mem_drop hd)).1
  have hcol : ':' ∉ restUri (c :: cs) := fun h => (hchars _ h).2 rfl
  -- the part after removal of the scheme
  have hmain : ∀ uri, uri = restUri (c :: cs) →
      (match uri with
      | [] => (.error .index : Except Err Name)
      | c :: _ =>
        if c = '/' then
          if uri.length ≥ 2 ∧ uri[1]? = some '/' then
            let afterAuthority := (uri.drop 2).idxOf '/'
            if ¬ afterAuthority < (uri.drop 2).length then .ok []
            else parseComponents (strip (uri.drop (2 + afterAuthority + 1)))
          else parseComponents (strip (uri.drop 1))
        else parseComponents uri) = parseComponents ((restUri (c :: cs)).drop 1) := by
    intro uri hu
    have hu' : uri = '/' :: e :: (s ++ restUri cs) := by rw [hu, hr, hs]; rfl
    rw [hu']
    simp only [if_true]
    rw [if_neg (by simp [he])]
    rw [← hu', hu, hstrip1]
  cases scheme with
  | false =>
    have h0 : Name.toUri (c :: cs) false = restUri (c :: cs) := by
      simp [Name.toUri, restUri]
    unfold parseUri
    rw [h0, hstrip]
    rw [if_neg (by rw [hr]; simp)]
    have hi : ¬ (restUri (c :: cs)).idxOf ':' < (restUri (c :: cs)).length := by
      rw [List.idxOf_lt_length_iff]; exact hcol
    simp only [if_neg hi]
    exact hmain _ rfl
  | true =>
    have h0 : Name.toUri (c :: cs) true = "ndn:".toList ++ restUri (c :: cs) := by
      simp [Name.toUri, restUri]
    have hstrip0 : strip ("ndn:".toList ++ restUri (c :: cs)) = "ndn:".toList ++ restUri (c :: cs) :=
      strip_id fun d hd => by
        rcases List.mem_append.mp hd with h | h
        · have : ∀ d ∈ "ndn:".toList, isPySpace d = false := by decide
          exact this d h
        · exact (hchars d h).1
    unfold parseUri
    rw [h0, hstrip0]
    rw [if_neg (by simp)]
    have hi : ("ndn:".toList ++ restUri (c :: cs)).idxOf ':' = 3 := by
      rw [List.idxOf_append, if_pos (by decide)]; decide
    have hj : ("ndn:".toList ++ restUri (c :: cs)).idxOf '/' = 4 := by
      rw [idxOf_append_not_mem _ _ _ (by decide), (restUri_tail _).idx]; rfl
    simp only [hi, hj]
    rw [if_pos (by simp), if_pos (by right; omega)]
    have hdrop : List.drop (3 + 1) ("ndn:".toList ++ restUri (c :: cs)) = restUri (c :: cs) := by
      rw [List.drop_append]; simp
    rw [hdrop, hstrip]
    exact hmain _ rfl

end PyNDN
