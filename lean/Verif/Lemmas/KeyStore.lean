import Verif.Spec.KeyChain
import Verif.Lemmas.PSync
import Verif.Lemmas.Name
/-
Lemmas about the model of the key chain: methods, dictionaries, names, and the stored PIB.
-/
namespace PyNDN
namespace KeyChain
open PSync (dictGet dictSet dictDel dictGet_none dictGet_some)
open Spec.KeyChain

/-! ### Methods -/

section
variable {σ α β : Type}

theorem bind_run (m : M σ α) (f : α → M σ β) (s : σ) : (m >>= f) s = match m s with
    | (.ok a, s') => f a s'
    | (.error e, s') => (.error e, s') := rfl
theorem bind_ok {m : M σ α} {f : α → M σ β} {s s' : σ} {a : α} (h : m s = (.ok a, s')) : (m >>= f) s = f a s' := by rw [bind_run, h]
theorem bind_err {m : M σ α} {f : α → M σ β} {s s' : σ} {e : KErr} (h : m s = (.error e, s')) : (m >>= f) s = (.error e, s') := by rw [bind_run, h]
theorem pure_run (a : α) (s : σ) : (pure a : M σ α) s = (.ok a, s) := rfl
theorem get_bind (f : σ → M σ β) (s : σ) : (get >>= f) s = f s s := rfl
theorem modify_bind (g : σ → σ) (f : Unit → M σ β) (s : σ) : (modify g >>= f) s = f () (g s) := rfl
theorem check_true (e : KErr) {c : Bool} (h : c = true) (f : Unit → M σ β) (s : σ) : (check c e >>= f) s = f () s := by
  subst h; rfl
theorem check_false (e : KErr) {c : Bool} (h : c = false) (f : Unit → M σ β) (s : σ) : (check c e >>= f) s = (.error e, s) := by
  subst h; rfl
theorem orRaise_some (e : KErr) {o : Option α} {a : α} (h : o = some a) (f : α → M σ β) (s : σ) : (orRaise o e >>= f) s = f a s := by
  subst h; rfl
theorem orRaise_none (e : KErr) {o : Option α} (h : o = none) (f : α → M σ β) (s : σ) : (orRaise o e >>= f) s = (.error e, s) := by
  subst h; rfl

/-- What holds after a method, whether it returns or raises. -/
def After (m : M σ α) (s : σ) (Q : Except KErr α → σ → Prop) : Prop := Q (m s).1 (m s).2

theorem After.bind {m : M σ α} {f : α → M σ β} {s : σ} {Q : Except KErr β → σ → Prop}
    (h : After m s fun r s' => match r with | .ok a => After (f a) s' Q | .error e => Q (.error e) s') : After (m >>= f) s Q := by
  unfold After at *
  rw [bind_run]
  cases hm : m s with
  | mk r s' => rw [hm] at h; cases r <;> exact h

theorem After.mono {m : M σ α} {s : σ} {Q R : Except KErr α → σ → Prop} (h : After m s Q) (hq : ∀ r s', Q r s' → R r s') : After m s R :=
  hq _ _ h

theorem After.of_eq {m : M σ α} {s s' : σ} {r : Except KErr α} {Q : Except KErr α → σ → Prop} (h : m s = (r, s')) (hq : Q r s') : After m s Q := by
  unfold After; rw [h]; exact hq

theorem After.pure {a : α} {s : σ} {Q : Except KErr α → σ → Prop} (h : Q (.ok a) s) : After (Pure.pure a : M σ α) s Q := h

theorem After.exceptPib {m h : M σ α} {s : σ} {Q : Except KErr α → σ → Prop}
    (H : After m s fun r s' => match r with | .error .pib => After h s' Q | r => Q r s') : After (m.exceptPib h) s Q := by
  unfold After at *
  unfold M.exceptPib M.except
  dsimp only
  cases hm : m s with
  | mk r s' =>
    rw [hm] at H
    cases r with
    | ok a => exact H
    | error e =>
      dsimp only
      by_cases he : e = .pib
      · subst he; rw [if_pos rfl]; exact H
      · rw [if_neg he]
        dsimp only at H ⊢
        cases e <;> first | exact absurd rfl he | exact H

theorem After.exceptAny {m h : M σ α} {s : σ} {Q : Except KErr α → σ → Prop}
    (H : After m s fun r s' => match r with | .error _ => After h s' Q | .ok a => Q (.ok a) s') : After (m.exceptAny h) s Q := by
  unfold After at *
  unfold M.exceptAny M.except
  dsimp only
  cases hm : m s with
  | mk r s' => rw [hm] at H; cases r <;> exact H
end

/-! ### Dictionaries -/

section
variable {κ ν : Type} [DecidableEq κ]

theorem get_set (key k : κ) (v : ν) : ∀ d : List (κ × ν), dictGet k (dictSet key v d) = if k = key then some v else dictGet k d
  | [] => by
    unfold dictSet dictGet
    by_cases h : key = k
    · rw [if_pos h, if_pos h.symm]
    · rw [if_neg h, if_neg (Ne.symm h)]; rfl
  | (k', v') :: d => by
    unfold dictSet
    by_cases h : k' = key
    · subst h
      rw [if_pos rfl]
      unfold dictGet
      by_cases h2 : k' = k
      · rw [if_pos h2, if_pos h2.symm]
      · rw [if_neg h2, if_neg (Ne.symm h2), if_neg h2]
    · rw [if_neg h]
      unfold dictGet
      by_cases h2 : k' = k
      · subst h2; rw [if_pos rfl, if_neg h, if_pos rfl]
      · rw [if_neg h2, if_neg h2, get_set key k v d]

theorem get_filter (p : κ → Bool) (k : κ) : ∀ d : List (κ × ν), dictGet k (d.filter fun x => p x.1) = if p k then dictGet k d else none
  | [] => by simp [dictGet]
  | (k', v') :: d => by
    rw [List.filter_cons]
    by_cases h : p k'
    · rw [if_pos h]
      unfold dictGet
      by_cases h2 : k' = k
      · subst h2; rw [if_pos rfl, if_pos rfl, if_pos h]
      · rw [if_neg h2, if_neg h2, get_filter p k d]
    · rw [if_neg h, get_filter p k d]
      conv => rhs; unfold dictGet
      by_cases h2 : k' = k
      · subst h2; rw [if_neg h, if_neg h]
      · rw [if_neg h2]

theorem get_del (key k : κ) (d : List (κ × ν)) : dictGet k (dictDel key d) = if k = key then none else dictGet k d := by
  unfold dictDel
  rw [get_filter (fun x => decide (x ≠ key)) k d]
  by_cases h : k = key
  · rw [if_pos h, if_neg (by simp [h])]
  · rw [if_neg h, if_pos (by simp [h])]

theorem mem_dict {k : κ} {d : List (κ × ν)} : k ∈ d.map (·.1) ↔ ∃ v, dictGet k d = some v := by
  cases h : dictGet k d with
  | none => rw [dictGet_none] at h; simp_all
  | some v => exact ⟨fun _ => ⟨v, rfl⟩, fun _ => List.mem_map.2 ⟨_, dictGet_some h, rfl⟩⟩
end

/-! ### Names -/

theorem equals_iff {a b : Name} : a.equals b = true ↔ a = b := name_equals_iff a b

theorem identityOfKey_construct (n : Name) (c : Component) : identityOfKey (constructKeyName n c) = n := by
  unfold identityOfKey constructKeyName
  simp

theorem keyOfCert_append (k : Name) (a b : Component) : keyOfCert (k ++ [a, b]) = k := by
  unfold keyOfCert; simp

theorem identityOfCert_eq (c : Name) : identityOfCert c = identityOfKey (keyOfCert c) := by
  unfold identityOfCert identityOfKey keyOfCert
  rw [List.take_take, List.length_take]
  congr 1
  omega

theorem isCertName_of_key {c k : Name} (hk : isValidKeyName k = true) (h : keyOfCert c = k) : isCertName c = true := by
  subst h
  unfold isValidKeyName keyOfCert at hk
  unfold isCertName
  rw [Bool.and_eq_true] at hk ⊢
  obtain ⟨h1, h2⟩ := hk
  rw [List.length_take] at h1 h2
  have h3 : c.length > 4 := by have := of_decide_eq_true h1; omega
  refine ⟨by simp; omega, ?_⟩
  rw [List.getElem?_take] at h2
  have e : min (c.length - 2) c.length - 2 = c.length - 4 := by omega
  rw [e, if_pos (by omega)] at h2
  exact h2

theorem validKey_construct (n : Name) (c : Component) : isValidKeyName (constructKeyName n c) = true ↔ n ≠ [] := by
  unfold isValidKeyName constructKeyName
  have : (n ++ [Validator.keyComponent, c]).length - 2 = n.length := by simp
  rw [this, List.getElem?_append_right (by omega)]
  simp only [Nat.sub_self, List.getElem?_cons_zero, Option.any_some, List.length_append, List.length_cons, List.length_nil]
  have he : Validator.keyComponent.equals Validator.keyComponent = true := (component_equals_iff _ _).2 rfl
  rw [he, Bool.and_true, decide_eq_true_iff, ← List.length_pos_iff]
  omega

/-! ### The stored PIB -/

namespace Store

theorem keysOfLoop_eq (n : Name) (s : Store) : ∀ ks : List Name, (∀ k ∈ ks, isValidKeyName k = true) →
    keysOfLoop n ks s = (.ok (ks.filter fun k => decide (identityOfKey k = n)), s)
  | [], _ => rfl
  | k :: ks, h => by
    have ih := keysOfLoop_eq n s ks fun x hx => h x (List.mem_cons_of_mem _ hx)
    unfold keysOfLoop
    rw [check_true _ (h k List.mem_cons_self), bind_ok ih, pure_run, List.filter_cons]
    by_cases hk : identityOfKey k = n
    · rw [if_pos (equals_iff.2 hk.symm), if_pos (decide_eq_true hk)]
    · rw [if_neg (fun hh => hk (equals_iff.1 hh).symm), if_neg (by simpa using hk)]

theorem certsOfLoop_eq (k : Name) (s : Store) : ∀ cs : List Name, (∀ c ∈ cs, isCertName c = true) →
    certsOfLoop k cs s = (.ok (cs.filter fun c => decide (keyOfCert c = k)), s)
  | [], _ => rfl
  | c :: cs, h => by
    have ih := certsOfLoop_eq k s cs fun x hx => h x (List.mem_cons_of_mem _ hx)
    unfold certsOfLoop
    rw [check_true _ (h c List.mem_cons_self), bind_ok ih, pure_run, List.filter_cons]
    by_cases hk : keyOfCert c = k
    · rw [if_pos (equals_iff.2 hk), if_pos (decide_eq_true hk)]
    · rw [if_neg (fun hh => hk (equals_iff.1 hh)), if_neg (by simpa using hk)]

/-- The names of the certificates are certificate names, and so on: what the loops need. -/
structure Named (s : Store) : Prop where
  key : ∀ k bits, dictGet k s.keys = some bits → isValidKeyName k = true
  cert : ∀ c d, dictGet c s.certs = some d → isCertName c = true
  defaultCert : ∀ k c, dictGet k s.defaultCerts = some c → (∃ d, dictGet c s.certs = some d) ∧ keyOfCert c = k

theorem named {s : Store} (h : Consistent s) : Named s :=
  ⟨fun k b hb => (h.key k b hb).1, fun c d hd => (h.cert c d hd).1, h.defaultCert⟩

theorem getKeysOfIdentity_eq {s : Store} (h : Named s) (n : Name) :
    getKeysOfIdentity n s = (.ok ((s.keys.map (·.1)).filter fun k => decide (identityOfKey k = n)), s) := by
  unfold getKeysOfIdentity
  rw [get_bind, keysOfLoop_eq n s]
  intro k hk
  obtain ⟨b, hb⟩ := mem_dict.1 hk
  exact h.key k b hb

theorem getCertificatesOfKey_eq {s : Store} (h : Named s) (k : Name) :
    getCertificatesOfKey k s = (.ok ((s.certs.map (·.1)).filter fun c => decide (keyOfCert c = k)), s) := by
  unfold getCertificatesOfKey
  rw [get_bind, certsOfLoop_eq k s]
  intro c hc
  obtain ⟨d, hd⟩ := mem_dict.1 hc
  exact h.cert c d hd

theorem removeCertificate_eq (s : Store) {c : Name} (hc : isCertName c = true) :
    removeCertificate c s = (.ok (), { s with
      certs := dictDel c s.certs
      defaultCerts := if dictGet (keyOfCert c) s.defaultCerts = some c then dictDel (keyOfCert c) s.defaultCerts else s.defaultCerts }) := by
  unfold removeCertificate
  rw [modify_bind, check_true _ hc]
  unfold modify
  dsimp only
  split <;> rfl

/-- Removing some certificates of a key. -/
theorem removeCerts_spec (k : Name) : ∀ (cs : List Name) (s : Store), (∀ c ∈ cs, isCertName c = true ∧ keyOfCert c = k) →
    ∃ s', forEach removeCertificate cs s = (.ok (), s') ∧ s'.tpmLocator = s.tpmLocator ∧ s'.defaultIdentity = s.defaultIdentity ∧
      s'.identities = s.identities ∧ s'.defaultKeys = s.defaultKeys ∧ s'.keys = s.keys ∧
      (∀ c, dictGet c s'.certs = if c ∈ cs then none else dictGet c s.certs) ∧
      (∀ k', dictGet k' s'.defaultCerts = if k' = k ∧ (∃ c ∈ cs, dictGet k s.defaultCerts = some c) then none else dictGet k' s.defaultCerts)
  | [], s, _ => ⟨s, rfl, rfl, rfl, rfl, rfl, rfl, fun c => by simp, fun k' => by simp⟩
  | c :: cs, s, h => by
    obtain ⟨h1, h2⟩ := h c List.mem_cons_self
    have e := removeCertificate_eq s h1
    rw [h2] at e
    obtain ⟨s', e', g0, g1, g2, g3, g4, g5, g6⟩ := removeCerts_spec k cs { s with
      certs := dictDel c s.certs
      defaultCerts := if dictGet k s.defaultCerts = some c then dictDel k s.defaultCerts else s.defaultCerts }
      fun x hx => h x (List.mem_cons_of_mem _ hx)
    refine ⟨s', ?_, g0, g1, g2, g3, g4, ?_, ?_⟩
    · unfold forEach
      rw [bind_ok e, e']
    · intro x
      rw [g5]
      dsimp only
      rw [get_del]
      by_cases hx : x = c
      · subst hx; simp
      · simp [hx]
    · intro k'
      rw [g6]
      dsimp only
      by_cases hd : dictGet k s.defaultCerts = some c
      · rw [if_pos hd, get_del, get_del]
        by_cases hk : k' = k
        · subst hk
          simp [hd]
        · simp [hk]
      · rw [if_neg hd]
        by_cases hk : k' = k
        · subst hk
          by_cases hm : ∃ c ∈ cs, dictGet k' s.defaultCerts = some c
          · rw [if_pos ⟨rfl, hm⟩]
            obtain ⟨x, hx, hxx⟩ := hm
            rw [if_pos ⟨rfl, x, List.mem_cons_of_mem _ hx, hxx⟩]
          · rw [if_neg (fun hh => hm hh.2), if_neg]
            rintro ⟨_, x, hx, hxx⟩
            rcases List.mem_cons.1 hx with rfl | hx
            · exact hd hxx
            · exact hm ⟨x, hx, hxx⟩
        · simp [hk]

/-- `removeKey` removes the key, its certificates and its default certificate, and the default key of its identity. -/
theorem removeKey_spec {s : Store} (h : Named s) {k : Name} (hk : isValidKeyName k = true) :
    ∃ s', removeKey k s = (.ok (), s') ∧ s'.tpmLocator = s.tpmLocator ∧ s'.defaultIdentity = s.defaultIdentity ∧ s'.identities = s.identities ∧
      (∀ n, dictGet n s'.defaultKeys = if n = identityOfKey k then none else dictGet n s.defaultKeys) ∧
      (∀ k', dictGet k' s'.keys = if k' = k then none else dictGet k' s.keys) ∧
      (∀ c, dictGet c s'.certs = if keyOfCert c = k then none else dictGet c s.certs) ∧
      (∀ k', dictGet k' s'.defaultCerts = if k' = k then none else dictGet k' s.defaultCerts) := by
  let s1 : Store := { s with keys := dictDel k s.keys, defaultKeys := dictDel (identityOfKey k) s.defaultKeys }
  have hn : Named s1 := by
    refine ⟨fun k' b hb => ?_, h.cert, h.defaultCert⟩
    have : dictGet k' (dictDel k s.keys) = some b := hb
    rw [get_del] at this
    split at this
    · nomatch this
    · exact h.key k' b this
  have ec := getCertificatesOfKey_eq hn k
  obtain ⟨s', e', g0, g1, g2, g3, g4, g5, g6⟩ := removeCerts_spec k ((s1.certs.map (·.1)).filter fun c => decide (keyOfCert c = k)) s1 (by
    intro c hc
    obtain ⟨hc1, hc2⟩ := List.mem_filter.1 hc
    obtain ⟨d, hd⟩ := mem_dict.1 hc1
    exact ⟨h.cert c d hd, of_decide_eq_true hc2⟩)
  refine ⟨s', ?_, g0, g1, g2, ?_, ?_, ?_, ?_⟩
  · unfold removeKey
    rw [check_true _ hk, modify_bind]
    show (getCertificatesOfKey k >>= fun cs => forEach removeCertificate cs) s1 = _
    rw [bind_ok ec, e']
  · intro n
    rw [g3]
    exact get_del _ _ _
  · intro k'
    rw [g4]
    exact get_del _ _ _
  · intro c
    rw [g5]
    by_cases hc : keyOfCert c = k
    · rw [if_pos hc]
      split
      · rfl
      · rename_i hm
        cases hd : dictGet c s1.certs with
        | none => rfl
        | some d => exact absurd (List.mem_filter.2 ⟨mem_dict.2 ⟨d, hd⟩, decide_eq_true hc⟩) hm
    · rw [if_neg hc, if_neg]
      intro hm
      exact hc (of_decide_eq_true (List.mem_filter.1 hm).2)
  · intro k'
    rw [g6]
    by_cases hk' : k' = k
    · subst hk'
      rw [if_pos rfl]
      split
      · rfl
      · rename_i hm
        cases hd : dictGet k' s1.defaultCerts with
        | none => rfl
        | some c =>
          obtain ⟨⟨d, hc⟩, hkc⟩ := h.defaultCert k' c hd
          exact absurd ⟨rfl, c, List.mem_filter.2 ⟨mem_dict.2 ⟨d, hc⟩, decide_eq_true hkc⟩, hd⟩ hm
    · rw [if_neg (fun hh => hk' hh.1), if_neg hk']

theorem named_removed {s s' : Store} (h : Named s) {k : Name} (g4 : ∀ k', dictGet k' s'.keys = if k' = k then none else dictGet k' s.keys)
    (g5 : ∀ c, dictGet c s'.certs = if keyOfCert c = k then none else dictGet c s.certs)
    (g6 : ∀ k', dictGet k' s'.defaultCerts = if k' = k then none else dictGet k' s.defaultCerts) : Named s' := by
  refine ⟨fun k' b hb => ?_, fun c d hd => ?_, fun k' c hc => ?_⟩
  · rw [g4] at hb
    split at hb
    · nomatch hb
    · exact h.key k' b hb
  · rw [g5] at hd
    split at hd
    · nomatch hd
    · exact h.cert c d hd
  · rw [g6] at hc
    split at hc
    · nomatch hc
    · rename_i hk
      obtain ⟨⟨d, h1⟩, h2⟩ := h.defaultCert k' c hc
      refine ⟨⟨d, ?_⟩, h2⟩
      rw [g5, if_neg (by rw [h2]; exact hk)]
      exact h1

/-- Removing some keys. -/
theorem removeKeys_spec (n : Name) : ∀ (ks : List Name) (s : Store), Named s → (∀ k ∈ ks, isValidKeyName k = true ∧ identityOfKey k = n) →
    ∃ s', forEach removeKey ks s = (.ok (), s') ∧ s'.tpmLocator = s.tpmLocator ∧ s'.defaultIdentity = s.defaultIdentity ∧ s'.identities = s.identities ∧
      (∀ m, dictGet m s'.defaultKeys = if m = n ∧ ks ≠ [] then none else dictGet m s.defaultKeys) ∧
      (∀ k, dictGet k s'.keys = if k ∈ ks then none else dictGet k s.keys) ∧
      (∀ c, dictGet c s'.certs = if keyOfCert c ∈ ks then none else dictGet c s.certs) ∧
      (∀ k, dictGet k s'.defaultCerts = if k ∈ ks then none else dictGet k s.defaultCerts)
  | [], s, _, _ => ⟨s, rfl, rfl, rfl, rfl, fun c => by simp, fun k' => by simp, fun k' => by simp, fun k' => by simp⟩
  | k :: ks, s, h, hk => by
    obtain ⟨h1, h2⟩ := hk k List.mem_cons_self
    obtain ⟨s1, e1, f0, f1, f2, f3, f4, f5, f6⟩ := removeKey_spec h h1
    obtain ⟨s', e', g0, g1, g2, g3, g4, g5, g6⟩ := removeKeys_spec n ks s1 (named_removed h f4 f5 f6) fun x hx => hk x (List.mem_cons_of_mem _ hx)
    refine ⟨s', ?_, g0.trans f0, g1.trans f1, g2.trans f2, ?_, ?_, ?_, ?_⟩
    · unfold forEach
      rw [bind_ok e1, e']
    · intro m
      rw [g3, f3, h2]
      by_cases hm : m = n <;> simp [hm]
    · intro x
      rw [g4, f4]
      by_cases hx : x = k <;> simp [hx]
    · intro c
      rw [g5, f5]
      by_cases hx : keyOfCert c = k <;> simp [hx]
    · intro x
      rw [g6, f6]
      by_cases hx : x = k <;> simp [hx]

/-- `removeIdentity` removes the identity and everything that belongs to it. -/
theorem removeIdentity_spec {s : Store} (h : Consistent s) (n : Name) :
    ∃ s', removeIdentity n s = (.ok (), s') ∧ s'.tpmLocator = s.tpmLocator ∧
      s'.defaultIdentity = (if s.defaultIdentity = some n then none else s.defaultIdentity) ∧
      s'.identities = s.identities.filter (· ≠ n) ∧
      (∀ m, dictGet m s'.defaultKeys = if m = n then none else dictGet m s.defaultKeys) ∧
      (∀ k, dictGet k s'.keys = if identityOfKey k = n then none else dictGet k s.keys) ∧
      (∀ c, dictGet c s'.certs = if identityOfKey (keyOfCert c) = n then none else dictGet c s.certs) ∧
      (∀ k, dictGet k s'.defaultCerts = if identityOfKey k = n then none else dictGet k s.defaultCerts) := by
  let s1 : Store := { s with identities := s.identities.filter (· ≠ n), defaultIdentity := if s.defaultIdentity = some n then none else s.defaultIdentity }
  have hn : Named s1 := ⟨(named h).key, (named h).cert, (named h).defaultCert⟩
  have ek := getKeysOfIdentity_eq hn n
  have hmem : ∀ k, k ∈ (s1.keys.map (·.1)).filter (fun k => decide (identityOfKey k = n)) ↔ (∃ b, dictGet k s.keys = some b) ∧ identityOfKey k = n := by
    intro k
    rw [List.mem_filter, mem_dict, decide_eq_true_iff]
  obtain ⟨s', e', g0, g1, g2, g3, g4, g5, g6⟩ := removeKeys_spec n _ s1 hn (fun k hk => by
    obtain ⟨⟨b, hb⟩, h2⟩ := (hmem k).1 hk
    exact ⟨(h.key k b hb).1, h2⟩)
  refine ⟨s', ?_, g0, g1, g2, ?_, ?_, ?_, ?_⟩
  · unfold removeIdentity
    rw [modify_bind]
    show (getKeysOfIdentity n >>= fun ks => forEach removeKey ks) s1 = _
    rw [bind_ok ek, e']
  · intro m
    rw [g3]
    by_cases hm : m = n
    · subst hm
      rw [if_pos rfl]
      split
      · rfl
      · rename_i hks
        cases hd : dictGet m s1.defaultKeys with
        | none => rfl
        | some k =>
          obtain ⟨⟨b, hb⟩, hi⟩ := h.defaultKey m k hd
          exact absurd ⟨rfl, List.ne_nil_of_mem ((hmem k).2 ⟨⟨b, hb⟩, hi⟩)⟩ hks
    · rw [if_neg (fun hh => hm hh.1), if_neg hm]
  · intro k
    rw [g4]
    by_cases hk : identityOfKey k = n
    · rw [if_pos hk]
      split
      · rfl
      · rename_i hm
        cases hd : dictGet k s1.keys with
        | none => rfl
        | some b => exact absurd ((hmem k).2 ⟨⟨b, hd⟩, hk⟩) hm
    · rw [if_neg hk, if_neg (fun hh => hk ((hmem k).1 hh).2)]
  · intro c
    rw [g5]
    by_cases hk : identityOfKey (keyOfCert c) = n
    · rw [if_pos hk]
      split
      · rfl
      · rename_i hm
        cases hd : dictGet c s1.certs with
        | none => rfl
        | some d =>
          obtain ⟨_, ⟨b, hb⟩, _⟩ := h.cert c d hd
          exact absurd ((hmem _).2 ⟨⟨b, hb⟩, hk⟩) hm
    · rw [if_neg hk, if_neg (fun hh => hk ((hmem _).1 hh).2)]
  · intro k
    rw [g6]
    by_cases hk : identityOfKey k = n
    · rw [if_pos hk]
      split
      · rfl
      · rename_i hm
        cases hd : dictGet k s1.defaultCerts with
        | none => rfl
        | some c =>
          obtain ⟨⟨d, hc⟩, hkc⟩ := h.defaultCert k c hd
          obtain ⟨_, ⟨b, hb⟩, _⟩ := h.cert c d hc
          rw [hkc] at hb
          exact absurd ((hmem _).2 ⟨⟨b, hb⟩, hk⟩) hm
    · rw [if_neg hk, if_neg (fun hh => hk ((hmem _).1 hh).2)]

end Store

end KeyChain
end PyNDN
