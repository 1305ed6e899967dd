import Verif.Lemmas.ValidatorRaise
/-
When `validate` does not end silently.
-/
namespace PyNDN.Validator
open PyNDN PyNDN.Spec.Validator

/-- The policy always decides. -/
def Policy.Loud (q : Policy) : Prop := ∀ p, q.check p ≠ .ok .silent

theorem certificatePolicy_loud {V : Cfg} (hV : V.policy.Loud) {now : Int} {c : SData} {d : Decision}
    (h : certificatePolicy V now c = .ok d) : ∃ n, d = .request n := by
  unfold certificatePolicy at h
  cases hv : isValid c now with
  | error e => simp [hv, Res.lift, bind, Res.bind] at h
  | ok b =>
    cases b with
    | false => simp [hv, Res.lift, bind, Res.bind] at h
    | true =>
      simp [hv, Res.lift, bind, Res.bind] at h
      cases hp : V.policy.check (.data c) with
      | ok d =>
        rw [hp] at h
        cases d with
        | bypass => cases h
        | request n => exact ⟨n, by cases h; rfl⟩
        | silent => exact absurd hp (hV _)
      | fail e => rw [hp] at h; cases h
      | raise e => rw [hp] at h; cases h

theorem verifyAll_loud (V : Cfg) (s : Session) (t : SData) : ∀ s', verifyAll V s t ≠ .silent s' := by
  intro s'
  unfold verifyAll
  split
  · intro h; cases h
  · intro h; cases h
  · split <;> (intro h; cases h)

theorem requestCertificate_loud {V : Cfg} (hV : V.policy.Loud) (now : Int) :
    ∀ k {st : Stores} {s : Session} {n : Name}, V.maxDepth - s.chain.length ≤ k →
      ∀ s', (requestCertificate V now st s n).2 ≠ .silent s' := by
  intro k
  induction k with
  | zero =>
    intro st s n hk s'
    rw [requestCertificate]
    rw [if_pos (by omega)]
    intro h; cases h
  | succ k ih =>
    intro st s n hk s'
    rw [requestCertificate]
    split
    · intro h; cases h
    · rename_i hd
      split
      · intro h; cases h
      · dsimp only
        split
        · intro h; cases h
        · intro h; exact verifyAll_loud _ _ _ _ h
        · split
          · intro h; cases h
          · intro h; cases h
          · rename_i c _
            split
            · intro h; cases h
            · intro h; cases h
            · exact ih (by simp; omega) s'
            · rename_i d h1 h2
              obtain ⟨m, rfl⟩ := certificatePolicy_loud hV h2
              exact absurd rfl (h1 m)

theorem validateCertificate_loud {V : Cfg} (hV : V.policy.Loud) (now : Int) {st : Stores} {s : Session}
    {c : SData} : ∀ s', (validateCertificate V now st s c).2 ≠ .silent s' := by
  intro s'
  unfold validateCertificate
  split
  · intro h; cases h
  · intro h; cases h
  · exact requestCertificate_loud hV now _ (Nat.le_refl _) s'
  · rename_i d h1 h2
    obtain ⟨m, rfl⟩ := certificatePolicy_loud hV h2
    exact absurd rfl (h1 m)

theorem continueFetch_loud {V : Cfg} (hV : V.policy.Loud) (now : Int) {st : Stores} {s : Session}
    {c : SData} : ∀ s', (continueFetch V now st s c).2 ≠ .silent s' := by
  intro s'
  unfold continueFetch
  split
  · intro h; cases h
  · exact validateCertificate_loud hV now s'

theorem onCertificate_loud {V : Cfg} (hV : V.policy.Loud) (now : Int) {st : Stores} {s : Session}
    {c : SData} : ∀ s', (onCertificate V now st s c).2 ≠ .silent s' := by
  intro s'
  unfold onCertificate
  split
  · intro h; cases h
  · exact continueFetch_loud hV now s'

theorem refetch_loud {V : Cfg} (hV : V.policy.Loud) (now : Int) {st : Stores} {s : Session} {n : Name}
    {r : Int} : ∀ s', (refetch V now st s n r).2 ≠ .silent s' := by
  intro s'
  unfold refetch
  split
  · split
    · intro h; cases h
    · intro h; cases h
    · exact continueFetch_loud hV now s'
  · intro h; cases h

def LoudTrace (tr : List Ev) : Prop := ∀ id, Ev.silent id ∉ tr

theorem loud_append {tr : List Ev} (h : LoudTrace tr) {ev : Ev} (hev : ∀ i, Ev.silent i ≠ ev) :
    LoudTrace (tr ++ [ev]) := by
  intro i hi
  rcases List.mem_append.1 hi with hi | hi
  · exact h i hi
  · exact hev i (List.mem_singleton.1 hi)

theorem loud_conclude {V : Cfg} {y : Sys} (h : LoudTrace y.trace) {id : Nat} {async ok : Bool}
    {r : Int} {out : Out} (ho : ∀ s, out ≠ .silent s) :
    LoudTrace (y.conclude V id async ok r out).trace := by
  cases out with
  | success s cache => exact loud_append h (by simp)
  | fail s e cache => exact loud_append h (by simp)
  | raise s e => simp only [Sys.conclude]; split <;> exact loud_append h (by simp)
  | silent s => exact absurd rfl (ho s)
  | fetch s n => simp only [Sys.conclude]; split <;> exact loud_append h (by simp)

theorem loud_step {V : Cfg} (hV : V.policy.Loud) {y : Sys} (h : LoudTrace y.trace) (e : Event) :
    LoudTrace (step V y e).trace := by
  cases e with
  | validate p ok =>
    simp only [step]
    unfold Sys.validate
    dsimp only
    have h1 : LoudTrace (y.emit (.called y.next p)).trace := loud_append h (by simp)
    cases hco : checkOriginal V y.now y.records p with
    | mk rs r =>
      have hco' : checkOriginal V ({ y.emit (.called y.next p) with next := y.next + 1 } : Sys).now
          ({ y.emit (.called y.next p) with next := y.next + 1 } : Sys).records p = (rs, r) := hco
      rw [hco']
      dsimp only
      split
      · exact loud_conclude (by exact h1) (by simp)
      · exact loud_conclude (by exact h1) (by simp)
      · exact loud_conclude (by exact h1) (by simp)
      · exact absurd (checkOriginal_ok hco) (hV p)
      · exact loud_conclude (by exact h1) (by exact requestCertificate_loud hV _ _ (Nat.le_refl _))
  | data k d ok =>
    simp only [step]
    unfold Sys.onData
    split
    · exact h
    · split
      · exact loud_conclude (by exact h) (by exact onCertificate_loud hV _)
      · exact h
  | timeout k ok =>
    simp only [step]
    unfold Sys.onTimeout
    split
    · exact h
    · exact loud_conclude (by exact h) (by exact refetch_loud hV _)
  | resume k =>
    simp only [step]
    unfold Sys.resume
    split
    · exact h
    · rename_i f hk
      obtain ⟨rs, hrs⟩ := addRecord_eq { y with frames := y.frames.eraseIdx k } f.record
      dsimp only
      rw [hrs]
      dsimp only [Sys.fail, Sys.emit]
      split
      · split <;> exact loud_append h (by simp)
      · split
        · exact h
        · split <;> exact loud_append h (by simp)
  | loadAnchor g c => exact loud_append h (by simp)
  | removeAnchor g n => exact h
  | fileAdded c =>
    simp only [step]
    split
    · exact h
    · exact loud_append h (by simp)
  | fileRemoved n => exact h
  | resetAnchors => exact h
  | cacheVerified c =>
    simp only [step]
    split
    · exact h
    · exact loud_append h (by simp)
  | cacheUnverified c =>
    simp only [step]
    split <;> exact h
  | resetVerified => exact h
  | clock t => exact loud_append h (by simp)

theorem loud_run {V : Cfg} (hV : V.policy.Loud) (es : List Event) :
    ∀ {y : Sys}, LoudTrace y.trace → LoudTrace (run V y es).trace := by
  induction es with
  | nil => exact fun h => h
  | cons e es ih => exact fun h => ih (loud_step hV h e)

/-! ### Policies that decide -/

theorem simpleHierarchy_loud : Policy.simpleHierarchy.Loud := by
  intro p h
  unfold Policy.check at h
  dsimp only at h
  obtain ⟨kl, _, h⟩ := res_bind_ok h
  obtain ⟨pre, _, h⟩ := res_bind_ok h
  split at h <;> cases h

theorem checker_some {c : Checker} {b : Bool} {n kl : Name} {r : Option Unit}
    (hn : b = true → 2 ≤ n.length) (h : c.check b n kl = .ok r) : r = some () := by
  unfold Checker.check at h
  split at h
  · rename_i hb
    rw [if_neg (by have := hn hb; omega)] at h
    obtain ⟨_, _, h⟩ := res_bind_ok h
    obtain ⟨_, _, h⟩ := res_bind_ok h
    cases h; rfl
  · obtain ⟨_, _, h⟩ := res_bind_ok h
    cases h; rfl

theorem allCheckers_true {b : Bool} {n kl : Name} (hn : b = true → 2 ≤ n.length) :
    ∀ {cs : List Checker} {i r : Bool}, allCheckers b n kl cs i = .ok r → cs ≠ [] ∨ i = true → r = true
  | [], i, r, h, h' => by
    rcases h' with h' | h'
    · exact absurd rfl h'
    · unfold allCheckers at h; cases h; exact h'
  | c :: cs, i, r, h, _ => by
    unfold allCheckers at h
    obtain ⟨x, hx, h⟩ := res_bind_ok h
    cases checker_some hn hx
    exact allCheckers_true hn h (.inr rfl)

theorem applyRules_loud {b : Bool} {n kl : Name} (hn : b = true → 2 ≤ n.length) :
    ∀ {rs : List Rule}, (∀ r ∈ rs, r.checkers ≠ []) → applyRules b n kl rs ≠ .ok .silent
  | [], _ => by intro h; cases h
  | r :: rs, hr => by
    intro h
    unfold applyRules at h
    obtain ⟨m, _, h⟩ := res_bind_ok h
    split at h
    · obtain ⟨ok, hok, h⟩ := res_bind_ok h
      unfold Rule.check at hok
      split at hok
      · cases hok
      · cases allCheckers_true hn hok (.inl (hr r (List.mem_cons_self ..)))
        cases h
    · exact applyRules_loud hn (fun x hx => hr x (List.mem_cons_of_mem _ hx)) h

theorem config_loud {b : Bool} {dr ir : List Rule} (h : ∀ r ∈ dr ++ ir, r.checkers ≠ []) :
    (Policy.config b dr ir).Loud := by
  intro p hs
  unfold Policy.check at hs
  dsimp only at hs
  split at hs
  · cases hs
  · obtain ⟨kl, hkl, hs⟩ := res_bind_ok hs
    cases p with
    | data d =>
      exact applyRules_loud (fun hb => by cases hb) (fun r hr => h r (List.mem_append_left _ hr)) hs
    | interest i signed =>
      refine applyRules_loud (fun _ => ?_) (fun r hr => h r (List.mem_append_right _ hr)) hs
      unfold getKeyLocatorName at hkl
      dsimp only at hkl
      split at hkl
      · cases hkl
      · omega

/-! ### Configurations that do not raise -/

/-- A checker that raises for no key locator name. -/
def Checker.Safe : Checker → Prop
  | .relation _ _ => False
  | _ => True

theorem checker_total {c : Checker} (hc : c.Safe) (b : Bool) (n kl : Name) :
    ∀ e, c.check b n kl ≠ .raise e := by
  have h1 : ∀ n e, c.checkNames n kl ≠ .raise e := by
    intro n e
    cases c with
    | relation _ _ => cases hc
    | regex f => unfold Checker.checkNames; dsimp only; split <;> (intro h; cases h)
    | hyper p k r =>
      unfold Checker.checkNames
      dsimp only
      split
      · intro h; cases h
      · split
        · intro h; cases h
        · split <;> (intro h; cases h)
  intro e
  unfold Checker.check
  have h2 := getPrefix_neg n 2 (by omega)
  have h3 : getPrefix n (-2) = .ok (n.take (n.length - 2)) := by simpa using h2
  split
  · split
    · intro h; cases h
    · rw [h3]
      intro h
      simp only [Res.lift, bind, Res.bind] at h
      split at h
      · cases h
      · cases h
      · rename_i e' h'; exact h1 _ _ h'
  · intro h
    simp only [bind, Res.bind] at h
    split at h
    · cases h
    · cases h
    · rename_i e' h'; exact h1 _ _ h'

theorem allCheckers_total {b : Bool} {n kl : Name} : ∀ {cs : List Checker} {i : Bool},
    (∀ c ∈ cs, c.Safe) → ∀ e, allCheckers b n kl cs i ≠ .raise e
  | [], i, _, e => by intro h; cases h
  | c :: cs, i, hc, e => by
    intro h
    have h1 := checker_total (hc c (List.mem_cons_self ..)) b n kl
    unfold allCheckers at h
    simp only [bind, Res.bind] at h
    split at h
    · rename_i x _
      cases x with
      | none => cases h
      | some u => exact allCheckers_total (fun x hx => hc x (List.mem_cons_of_mem _ hx)) e h
    · cases h
    · rename_i e' h'; exact h1 _ h'

theorem anyFilter_total (b : Bool) (n : Name) : ∀ fs, ∃ r, anyFilter b n fs = .ok r
  | [] => ⟨_, rfl⟩
  | f :: fs => by
    have h2 := getPrefix_neg n 2 (by omega)
    have h3 : getPrefix n (-2) = .ok (n.take (n.length - 2)) := by simpa using h2
    have : ∃ r, f.matchPacket b n = .ok r := by
      unfold Filter.matchPacket
      split
      · split
        · exact ⟨_, rfl⟩
        · rw [h3]; exact ⟨_, rfl⟩
      · exact ⟨_, rfl⟩
    obtain ⟨r, hr⟩ := this
    unfold anyFilter
    rw [hr]
    cases r with
    | true => exact ⟨_, rfl⟩
    | false => exact anyFilter_total b n fs

theorem applyRules_total {b : Bool} {n kl : Name} : ∀ {rs : List Rule},
    (∀ r ∈ rs, r.isForInterest = b ∧ ∀ c ∈ r.checkers, c.Safe) → ∀ e, applyRules b n kl rs ≠ .raise e
  | [], _, e => by intro h; cases h
  | r :: rs, hr, e => by
    intro h
    obtain ⟨hb, hc⟩ := hr r (List.mem_cons_self ..)
    have hm : ∃ m, r.matchPacket b n = .ok m := by
      unfold Rule.matchPacket
      rw [if_neg (by simp [hb])]
      split
      · exact ⟨_, rfl⟩
      · exact anyFilter_total ..
    obtain ⟨m, hm⟩ := hm
    unfold applyRules at h
    rw [hm] at h
    simp only [Res.lift, bind, Res.bind] at h
    split at h
    · split at h
      · split at h <;> cases h
      · cases h
      · rename_i e' h'
        unfold Rule.check at h'
        rw [if_neg (by simp [hb])] at h'
        exact allCheckers_total hc _ h'
    · exact applyRules_total (fun x hx => hr x (List.mem_cons_of_mem _ hx)) e h

theorem config_total {b : Bool} {dr ir : List Rule}
    (hd : ∀ r ∈ dr, r.isForInterest = false ∧ ∀ c ∈ r.checkers, c.Safe)
    (hi : ∀ r ∈ ir, r.isForInterest = true ∧ ∀ c ∈ r.checkers, c.Safe) :
    (Policy.config b dr ir).Total := by
  intro p e hs
  unfold Policy.check at hs
  dsimp only at hs
  split at hs
  · cases hs
  · simp only [bind, Res.bind] at hs
    split at hs
    · cases p with
      | data d => exact applyRules_total hd e hs
      | interest i signed => exact applyRules_total hi e hs
    · cases hs
    · rename_i e' h'; exact getKeyLocatorName_total _ _ h'

end PyNDN.Validator
