import Verif.Model.SigningInfo
import Verif.Spec.SigningInfo
import Verif.Props.NameUri
/-
C80: SigningInfo.
-/
namespace PyNDN.Signing
open PyNDN.KeyChain (SigningInfo Signer digestIdentity)
open PyNDN.Spec PyNDN.Spec.Signing

theorem chosen_reset (t : Int) (ht : validType t = false) : chosen (.reset t) = none := by
  simp only [validType, Bool.or_eq_false_iff, beq_eq_false_iff_ne, ne_eq] at ht
  unfold chosen
  split <;> simp_all

/-- One call: what `KeyChain.sign` reads afterwards. -/
theorem call_info (o : Obj) (c : Call) :
    ((o.call c).toOption.getD o).info =
      { signer := (chosen c).getD o.info.signer
        sha256Algorithm := algorithmAfter o.sha256Algorithm [c]
        validity := validityAfter o.validity [c] } := by
  cases c with
  | reset t =>
    by_cases ht : validType t = true
    · have hb := ht
      simp only [validType, Bool.or_eq_true, beq_iff_eq] at ht
      rcases ht with (((rfl | rfl) | rfl) | rfl) | rfl <;> rfl
    · simp only [Bool.not_eq_true] at ht
      have hc := chosen_reset t ht
      simp [Obj.call, Obj.reset, ht, hc, Except.toOption, algorithmAfter, validityAfter, Obj.info]
  | pibIdentity i => rcases i with _ | ⟨h, n⟩ <;> rfl
  | pibKey i => rcases i with _ | ⟨h, n⟩ <;> rfl
  | _ => rfl

theorem run_append (o : Obj) (a b : List Call) : o.run (a ++ b) = (o.run a).run b := by
  induction a generalizing o with
  | nil => rfl
  | cons c a ih => exact ih _

theorem info_algorithm (o : Obj) : o.info.sha256Algorithm = o.sha256Algorithm := rfl
theorem info_validity (o : Obj) : o.info.validity = o.validity := rfl

/-- After any history of calls on any SigningInfo, what `KeyChain.sign` reads is: the signer chosen last, with the PIB object and
the name of that call only; the validity period given since that choice, if any; and the digest algorithm given last. -/
theorem C80_last (o : Obj) (calls : List Call) :
    (o.run calls).info =
      { signer := signerAfter o.info.signer calls.reverse
        sha256Algorithm := algorithmAfter o.sha256Algorithm calls.reverse
        validity := validityAfter o.validity calls.reverse } := by
  generalize hr : calls.reverse = r
  obtain rfl : calls = r.reverse := by rw [← hr, List.reverse_reverse]
  clear hr
  induction r with
  | nil => rfl
  | cons c r ih =>
    rw [List.reverse_cons, run_append]
    show (((o.run r.reverse).call c).toOption.getD (o.run r.reverse)).info = _
    rw [call_info]
    have h2 : (o.run r.reverse).sha256Algorithm = algorithmAfter o.sha256Algorithm r := by rw [← info_algorithm, ih]
    have h3 : (o.run r.reverse).validity = validityAfter o.validity r := by rw [← info_validity, ih]
    rw [h2, h3, ih]
    congr 1
    · cases c <;> rfl
    · cases c <;> rfl

/-- The only exception of a setter is for a signer type outside 0..4, and then the object is as before. -/
theorem C80_raises (o : Obj) (c : Call) (e : Err) (h : o.call c = .error e) :
    (∃ t, c = .reset t ∧ (t < 0 ∨ 4 < t)) ∧ e = .value ∧ o.run [c] = o := by
  cases c with
  | reset t =>
    by_cases ht : validType t = true
    · simp [Obj.call, Obj.reset, ht] at h
    · simp only [Bool.not_eq_true] at ht
      have h' := h
      simp [Obj.call, Obj.reset, ht] at h'
      refine ⟨⟨t, rfl, ?_⟩, h'.symm, by simp [Obj.run, h, Except.toOption]⟩
      simp only [validType, Bool.or_eq_false_iff, beq_eq_false_iff_ne, ne_eq] at ht
      omega
  | pibIdentity i => cases i <;> cases h
  | pibKey i => cases i <;> cases h
  | _ => cases h

theorem idxOf_colon (s : List Char) (rest : List Char) (h : ':' ∉ s) : (s ++ ':' :: rest).idxOf ':' = s.length := by
  induction s with
  | nil => simp
  | cons c s ih =>
    have : c ≠ ':' := fun e => h (by simp [e])
    have ih := ih (fun hm => h (List.mem_cons_of_mem _ hm))
    have hb : (c == ':') = false := beq_eq_false_iff_ne.mpr this
    rw [List.cons_append, List.idxOf_cons, hb, ih]
    rfl

/-- The parser on a string with a scheme. -/
theorem parse_scheme (s rest : List Char) (h : ':' ∉ s) :
    parse (s ++ ':' :: rest) =
      if s = "id".toList then
        if rest = Name.toUri digestIdentity then .ok { type := 4 }
        else (parseUri rest).map fun n => { type := 1, name := n }
      else if s = "key".toList then (parseUri rest).map fun n => { type := 2, name := n }
      else if s = "cert".toList then (parseUri rest).map fun n => { type := 3, name := n }
      else .error .value := by
  have h1 : (s ++ ':' :: rest) ≠ [] := by simp
  unfold parse
  rw [idxOf_colon s rest h]
  simp only [Obj.reset, validType, beq_self_eq_true, Bool.true_or, if_true, bind, Except.bind, h1, if_false]
  have h2 : (s ++ ':' :: rest).take s.length = s := by simp
  have h3 : (s ++ ':' :: rest).drop (s.length + 1) = rest := by
    rw [List.drop_append]; simp
  have h4 : s.length < (s ++ ':' :: rest).length := by simp
  simp only [h2, h3, h4, not_true, if_false]
  split
  · split
    · rfl
    · cases parseUri rest <;> rfl
  · split
    · cases parseUri rest <;> rfl
    · split
      · cases parseUri rest <;> rfl
      · rfl

/-- The string of a SigningInfo is the text of its signer. -/
theorem C80_text (o : Obj) (ht : validType o.type = true) : o.str = .ok (text o.info.signer).toList := by
  obtain ⟨t, n, i, k, a, v⟩ := o
  simp only [validType, Bool.or_eq_true, beq_iff_eq] at ht
  rcases ht with (((rfl | rfl) | rfl) | rfl) | rfl <;>
    simp [Obj.str, Obj.info, text] <;> decide +kernel

/-- A name that its URI gives back: canonical, with no digest component before the last component (C13). -/
def UriName (n : Name) : Prop := CanonicalName n ∧ ∀ c ∈ n.dropLast, c.type ≠ .implicit ∧ c.type ≠ .params

/-- The string of a SigningInfo gives back its signer: a SigningInfo made from it makes `KeyChain.sign` choose the signer by the same
rule and the same name.  Excepted: an identity signer named /localhost/identity/digest-sha256 (see `C80_digest_identity`), and names
that the URI does not give back.  The PIB object, the digest algorithm and the validity period are not in the string: they come back
as the defaults. -/
theorem C80_string_partial (o : Obj) (ht : validType o.type = true) (hn : UriName (nameOf o.info.signer))
    (hd : ∀ h, o.info.signer ≠ .id digestIdentity h) :
    ∃ s o', o.str = .ok s ∧ parse s = .ok o' ∧
      o'.info = { signer := byName o.info.signer, sha256Algorithm := true, validity := none } ∧ o'.str = .ok s := by
  have hs := C80_text o ht
  obtain ⟨t, n, i, k, a, v⟩ := o
  simp only [validType, Bool.or_eq_true, beq_iff_eq] at ht
  have hu : ∀ m : Name, UriName m → parseUri (Name.toUri m) = .ok m := fun m hm => C13_uri_roundtrip_partial m false hm.1 hm.2
  rcases ht with (((rfl | rfl) | rfl) | rfl) | rfl
  · exact ⟨[], {}, rfl, by decide +kernel, rfl, rfl⟩
  · have hn' : UriName n := hn
    have hne : n ≠ digestIdentity := fun e => hd i (by rw [e]; rfl)
    have hdig : UriName digestIdentity := by
      constructor
      · intro c hc
        revert c
        decide +kernel
      · decide +kernel
    have hne' : Name.toUri n ≠ Name.toUri digestIdentity := fun e =>
      hne (C13_uri_injective_partial n digestIdentity false hn'.1 hdig.1 hn'.2 hdig.2 e)
    refine ⟨_, { type := 1, name := n }, rfl, ?_, rfl, rfl⟩
    have := parse_scheme "id".toList (Name.toUri n) (by decide)
    simp only [if_true, hne', if_false] at this
    rw [hu n hn'] at this
    exact this
  · have hn' : UriName n := hn
    refine ⟨_, { type := 2, name := n }, rfl, ?_, rfl, rfl⟩
    have := parse_scheme "key".toList (Name.toUri n) (by decide)
    rw [hu n hn'] at this
    exact this
  · have hn' : UriName n := hn
    refine ⟨_, { type := 3, name := n }, rfl, ?_, rfl, rfl⟩
    have := parse_scheme "cert".toList (Name.toUri n) (by decide)
    rw [hu n hn'] at this
    exact this
  · refine ⟨_, { type := 4 }, rfl, ?_, rfl, rfl⟩
    have := parse_scheme "id".toList (Name.toUri digestIdentity) (by decide)
    simp only [if_true] at this
    exact this

/-- So `KeyChain.sign` does the same with the SigningInfo and with the one made from its string, if the options are the defaults and
no PIB object was given: the same Data packet, the same exceptions, the same changes of the key chain. -/
theorem C80_sign_partial (o : Obj) (ht : validType o.type = true) (hn : UriName (nameOf o.info.signer))
    (hd : ∀ h, o.info.signer ≠ .id digestIdentity h) (hi : o.identity = none) (hk : o.key = none)
    (ha : o.sha256Algorithm = true) (hv : o.validity = none) :
    ∃ s o', o.str = .ok s ∧ parse s = .ok o' ∧ ∀ (P : KeyChain.Params) (d : Data) (random : Nat),
      KeyChain.signData P d o'.info random = KeyChain.signData P d o.info random := by
  obtain ⟨s, o', h1, h2, h3, _⟩ := C80_string_partial o ht hn hd
  refine ⟨s, o', h1, h2, fun P d random => ?_⟩
  have : o'.info = o.info := by
    rw [h3]
    obtain ⟨t, n, i, k, a, v⟩ := o
    simp only at hi hk ha hv
    subst hi hk ha hv
    simp only [Obj.info]
    congr 1
    split
    · rfl
    · split
      · rfl
      · split
        · rfl
        · split <;> rfl
  rw [this]

/-- Departure: the string of a SigningInfo for the identity /localhost/identity/digest-sha256 is read as a request for a SHA-256
digest. -/
theorem C80_digest_identity (h : Option Nat) (k : Option Nat) (a : Bool) (v : ValidityPeriod) :
    ∃ s o', Obj.str { type := 1, name := digestIdentity, identity := h, key := k, sha256Algorithm := a, validity := v } = .ok s ∧
      parse s = .ok o' ∧ o'.info.signer = .sha256 :=
  ⟨"id:/localhost/identity/digest-sha256".toList, { type := 4 },
    show Except.ok ("id:".toList ++ Name.toUri digestIdentity) = _ by decide +kernel, by decide +kernel, rfl⟩

/-- A string is accepted only if it is empty, or is `id:`, `key:` or `cert:` followed by the URI of a name; the signer is then of the
kind that the scheme says and has the name of the URI; every other string raises. -/
theorem C80_accepted (s : List Char) (o : Obj) (h : parse s = .ok o) :
    o.sha256Algorithm = true ∧ o.validity = none ∧
    ((s = [] ∧ o.info.signer = .null) ∨
     (s = "id:/localhost/identity/digest-sha256".toList ∧ o.info.signer = .sha256) ∨
     ∃ rest n, parseUri rest = .ok n ∧
       ((s = "id:".toList ++ rest ∧ o.info.signer = .id n none) ∨
        (s = "key:".toList ++ rest ∧ o.info.signer = .key n none) ∨
        (s = "cert:".toList ++ rest ∧ o.info.signer = .cert n))) := by
  by_cases he : s = []
  · subst he
    have : parse [] = .ok ({} : Obj) := by decide +kernel
    rw [this] at h
    cases h
    exact ⟨rfl, rfl, .inl ⟨rfl, rfl⟩⟩
  · by_cases hc : ':' ∈ s
    · obtain ⟨a, b, hs, ha⟩ : ∃ a b, s = a ++ ':' :: b ∧ ':' ∉ a := by
        obtain ⟨a, b, hs, ha⟩ := List.append_of_mem hc |>.elim fun a ⟨b, hb⟩ => List.mem_iff_append.mp hc |>.elim fun _ _ =>
          (List.eq_append_cons_of_mem hc)
        exact ⟨a, b, hs, ha⟩
      subst hs
      rw [parse_scheme a b ha] at h
      split at h
      · next h1 =>
        subst h1
        split at h
        · next h2 =>
          cases h
          subst h2
          exact ⟨rfl, rfl, .inr (.inl ⟨by decide +kernel, rfl⟩)⟩
        · cases hp : parseUri b with
          | error e => rw [hp] at h; cases h
          | ok n =>
            rw [hp] at h
            cases h
            exact ⟨rfl, rfl, .inr (.inr ⟨b, n, hp, .inl ⟨rfl, rfl⟩⟩)⟩
      · split at h
        · next h1 =>
          subst h1
          cases hp : parseUri b with
          | error e => rw [hp] at h; cases h
          | ok n =>
            rw [hp] at h
            cases h
            exact ⟨rfl, rfl, .inr (.inr ⟨b, n, hp, .inr (.inl ⟨rfl, rfl⟩)⟩)⟩
        · split at h
          · next h1 =>
            subst h1
            cases hp : parseUri b with
            | error e => rw [hp] at h; cases h
            | ok n =>
              rw [hp] at h
              cases h
              exact ⟨rfl, rfl, .inr (.inr ⟨b, n, hp, .inr (.inr ⟨rfl, rfl⟩)⟩)⟩
          · cases h
    · have hi : ¬ s.idxOf ':' < s.length := by
        rw [List.idxOf_lt_length_iff]; exact hc
      unfold parse at h
      simp only [Obj.reset, validType, beq_self_eq_true, Bool.true_or, if_true, bind, Except.bind, he, if_false, hi,
        not_false_eq_true] at h
      cases h

/-- The constructors: the signer given, with default options; a signer type outside 0..4 is refused; the copy is equal. -/
theorem C80_constructors :
    (∃ o, new = .ok o ∧ o.info = {}) ∧
    (∀ h n, ∃ o, ofIdentity h n = .ok o ∧ o.info = { signer := .id n (some h) }) ∧
    (∀ h n, ∃ o, ofKey h n = .ok o ∧ o.info = { signer := .key n (some h) }) ∧
    (∀ n, ∃ o, ofType 1 (some n) = .ok o ∧ o.info = { signer := .id n none }) ∧
    (∀ n, ∃ o, ofType 2 (some n) = .ok o ∧ o.info = { signer := .key n none }) ∧
    (∀ n, ∃ o, ofType 3 (some n) = .ok o ∧ o.info = { signer := .cert n }) ∧
    (∀ n, ∃ o, ofType 4 n = .ok o ∧ o.info = { signer := .sha256 }) ∧
    (∀ t n, t < 0 ∨ 4 < t → ofType t n = .error .value) ∧
    (∀ o, copy o = o) := by
  refine ⟨⟨_, rfl, rfl⟩, fun h n => ⟨_, rfl, rfl⟩, fun h n => ⟨_, rfl, rfl⟩, fun n => ⟨_, rfl, rfl⟩, fun n => ⟨_, rfl, rfl⟩,
    fun n => ⟨_, rfl, rfl⟩, fun n => ?_, fun t n ht => ?_, fun o => rfl⟩
  · cases n <;> exact ⟨_, rfl, rfl⟩
  · have : validType t = false := by
      simp only [validType, Bool.or_eq_false_iff, beq_eq_false_iff_ne, ne_eq]
      omega
    simp [ofType, Obj.reset, this]
    rfl

/-- The PIB object is given only to who asks for the kind of the signer chosen last. -/
theorem C80_getters (o : Obj) :
    (∀ n h, o.info.signer = .id n h → o.getPibIdentity = .ok h ∧ o.getPibKey = .error .value) ∧
    (∀ n h, o.info.signer = .key n h → o.getPibKey = .ok h ∧ o.getPibIdentity = .error .value) ∧
    ((∀ n h, o.info.signer ≠ .id n h) → o.getPibIdentity = .error .value) ∧
    ((∀ n h, o.info.signer ≠ .key n h) → o.getPibKey = .error .value) := by
  obtain ⟨t, n, i, k, a, v⟩ := o
  by_cases h1 : t = 1
  · subst h1
    exact ⟨fun m h e => by cases e; exact ⟨rfl, rfl⟩, fun m h e => (by cases e), fun h => absurd rfl (h n i), fun h => rfl⟩
  · by_cases h2 : t = 2
    · subst h2
      exact ⟨fun m h e => (by cases e), fun m h e => (by cases e; exact ⟨rfl, rfl⟩), fun h => rfl, fun h => absurd rfl (h n k)⟩
    · refine ⟨fun m h e => ?_, fun m h e => ?_, fun h => by simp [Obj.getPibIdentity, h1], fun h => by simp [Obj.getPibKey, h2]⟩
      all_goals
        exfalso
        simp only [Obj.info, h1, h2, if_false] at e
        split at e
        · cases e
        · split at e <;> cases e

-- Non-vacuity.
def exId : Name := [Component.generic [0x61, 0x3a], Component.generic []]

example : UriName exId := by
  constructor
  · intro c hc
    revert c
    decide +kernel
  · decide +kernel

example : (Obj.run {} [.identity exId, .validity (some (1, 2)), .digestAlgorithm false]).info =
    { signer := .id exId none, sha256Algorithm := false, validity := some (1, 2) } := by decide +kernel

example : (Obj.run {} [.pibKey (some (7, exId)), .validity (some (1, 2)), .digestAlgorithm false, .reset 9, .certificateName exId]).info =
    { signer := .cert exId, sha256Algorithm := false, validity := none } := by decide +kernel

example : Obj.str { type := 3, name := exId } = .ok "cert:/a%3A/...".toList ∧
    (parse "cert:/a%3A/...".toList).map Obj.info = .ok { signer := .cert exId } := by decide +kernel

example : parse "pin:/a".toList = .error .value ∧ parse "/a".toList = .error .value := by decide +kernel

end PyNDN.Signing
