import Verif.Lemmas.NacDecryptor
/-
The invariant of a decryptor holds after every history.
-/
namespace PyNDN
namespace Nac
namespace Decryptor
open Spec.Nac
open Fetch (Express)
open Encrypt (EncryptedContent)
open PSync (dictGet dictSet dictGet_none dictGet_some dictGet_mem)
open KeyChain (KC get_set)

variable {P : DecParams}

theorem error_eq (hr : ∀ c, P.raises c = false) (c : Nat) (code : Code) (s : Decryptor) : error P c code s = (s.emit (.error c code), false) := by
  unfold error
  rw [hr]

theorem Inv.kc {ex : Option Name} {fl : Option Nat} {s : Decryptor} (h : Inv P ex fl s) (kc : KC) : Inv P ex fl { s with kc := kc } :=
  ⟨h.keys, h.ids, h.idPos, h.nextPos, h.link,
    fun n e he => ⟨(h.entry n e he).calls, (h.entry n e he).nodup, (h.entry n e he).fetching, (h.entry n e he).tail, (h.entry n e he).ready⟩,
    h.told, h.sep, h.called, h.unique, h.once, h.early, h.rest, h.float, h.retrieved, h.right, h.known, h.listed⟩

theorem Open.kc {n : Name} {o : Nat} {s : Decryptor} (h : Open P n o s) (kc : KC) : Open P n o { s with kc := kc } := ⟨h.inv.kc kc, h.entry⟩

theorem Open.error {n : Name} {o : Nat} {s : Decryptor} (h : Open P n o s) (code : Code) : Inv P none none (s.emit (.error o code)) :=
  h.fail (s' := s.emit (.error o code)) code [] (by simp) rfl rfl rfl (Nat.le_refl _) rfl

/-- A step keeps the invariant and does not raise. -/
def Good (P : DecParams) (x : Decryptor × Bool) : Prop := Inv P none none x.1 ∧ x.2 = false

theorem good_error (hr : ∀ c, P.raises c = false) {n : Name} {o : Nat} {s : Decryptor} (h : Open P n o s) (code : Code) :
    Good P (error P o code s) := by
  rw [error_eq hr]
  exact ⟨h.error code, rfl⟩

theorem good_express (hr : ∀ c, P.raises c = false) {n : Name} {o : Nat} {s : Decryptor} (h : Open P n o s) (i : Interest) (job : Job)
    (hn : Job.ckName job = n) (ho : Job.owner job = o) (env : Env) (hu : Untabled env) : Good P (expressFor P n o i job env s) := by
  unfold expressFor
  dsimp only
  cases he : env.express with
  | ok => exact ⟨h.express i job hn ho, rfl⟩
  | raises t =>
    cases t with
    | true => exact absurd he hu
    | false =>
      dsimp only
      rw [error_eq hr]
      refine ⟨h.fail (s' := _) .general [.express s.nextId i] (by intro e he; exact ⟨_, _, List.mem_singleton.mp he⟩) rfl ?_ rfl (Nat.le_succ _) ?_, rfl⟩
      · exact List.append_nil _
      · show (s.trace ++ [_]) ++ [_] = s.trace ++ ([_] ++ [_])
        rw [List.append_assoc]

theorem doDecrypt_eq (hr : ∀ c, P.raises c = false) (c : Nat) (x : EncryptedContent) (bits : Bytes) (s : Decryptor) :
    doDecrypt P c x bits s = (s.emit (answerTo P bits (c, x)), false) := by
  unfold doDecrypt answerTo
  cases x.initialVector with
  | none => exact error_eq hr _ _ _
  | some iv =>
    dsimp only
    cases P.aes.decryptCbc bits iv x.payload with
    | none => exact error_eq hr _ _ _
    | some plain => rfl

theorem processPending_eq (hr : ∀ c, P.raises c = false) (bits : Bytes) : ∀ (l : List (Nat × EncryptedContent)) (s : Decryptor),
    processPending P bits l s = ({ s with trace := s.trace ++ l.map (answerTo P bits) }, false)
  | [], s => by rw [List.map_nil, List.append_nil]; rfl
  | (c, x) :: l, s => by
    unfold processPending
    rw [doDecrypt_eq hr]
    dsimp only
    rw [processPending_eq hr bits l]
    show (({ s with trace := (s.trace ++ [_]) ++ _ } : Decryptor), false) = _
    rw [List.append_assoc]
    rfl

theorem good_decryptCk (hr : ∀ c, P.raises c = false) {n : Name} {o : Nat} {s : Decryptor} (h : Open P n o s) (ckData : Data) (k : Name) :
    Good P (decryptCk P n ckData k o s) := by
  unfold decryptCk
  split
  · exact good_error hr h _
  · exact good_error hr h _
  · split
    · next kc _ => exact good_error hr (h.kc kc) _
    · next kc _ => exact good_error hr (h.kc kc) _
    · next p kc _ =>
      dsimp only
      split
      · exact good_error hr (h.kc kc) _
      · next bits hb =>
        obtain ⟨e, x, rest, he, h1, h2, h3, h4⟩ := h.entry
        have g1 := fun m => updateEntry_get (n := n) (f := fun e => { e with bits := some bits }) (s := { s with kc := kc }) he m
        have gn : dictGet n ((updateEntry n (fun e => { e with bits := some bits }) { s with kc := kc }).emit (.retrieved n bits)).entries =
            some { e with bits := some bits } := (g1 n).trans (if_pos rfl)
        rw [gn]
        dsimp only
        rw [processPending_eq hr]
        dsimp only
        refine ⟨(h.kc kc).done bits he ?_ ?_ rfl rfl rfl ?_, rfl⟩
        · intro m
          have g2 := updateEntry_get (n := n) (f := fun e => { e with pending := [] })
            (s := { (updateEntry n (fun e => { e with bits := some bits }) { s with kc := kc }).emit (.retrieved n bits) with
              trace := ((updateEntry n (fun e => { e with bits := some bits }) { s with kc := kc }).emit (.retrieved n bits)).trace ++
                e.pending.map (answerTo P bits) }) gn m
          refine g2.trans ?_
          split
          · rfl
          · next hm => exact (g1 m).trans (if_neg hm)
        · exact updateEntry_keys (updateEntry_keys (s := { s with kc := kc }) h.inv.keys)
        · show (s.trace ++ [_]) ++ _ = _
          rw [List.append_assoc]
          rfl

theorem good_tryDo {m k : Do} {s : Decryptor} (h : Good P (m s)) : Good P (tryDo m k s) := by
  unfold tryDo
  cases hm : m s with
  | mk s' b =>
    rw [hm] at h
    obtain ⟨h1, rfl⟩ := h
    exact ⟨h1, rfl⟩

theorem good_onCkData (hr : ∀ c, P.raises c = false) {n : Name} {o : Nat} {s : Decryptor} (h : Open P n o (setPending n 0 s)) (ckData : Data)
    (env : Env) (hu : Untabled env) : Good P (onCkData P n o ckData env s) := by
  unfold onCkData
  cases hx : extractKdkInfo ckData.name n with
  | error code =>
    refine good_tryDo ?_
    exact good_error hr h code
  | ok r =>
    obtain ⟨kdkPrefix, identity, keyName⟩ := r
    cases hk : kdkExists P identity keyName (setPending n 0 s).kc with
    | mk r kc =>
      cases r with
      | ok b =>
        refine good_tryDo ?_
        dsimp only
        rw [hk]
        cases b with
        | true => exact good_decryptCk hr (h.kc kc) ckData keyName
        | false => exact good_express hr (h.kc kc) _ _ rfl rfl env hu
      | error e =>
        unfold tryDo
        dsimp only
        rw [hk]
        dsimp only
        exact good_error hr (h.kc kc) .general

theorem good_onKdkData (hr : ∀ c, P.raises c = false) {n : Name} {o : Nat} {s : Decryptor} (h : Open P n o (setPending n 0 s)) (kdkPrefix : Name)
    (ckData kdkData : Data) (env : Env) : Good P (onKdkData P n kdkPrefix ckData o kdkData env s) := by
  unfold onKdkData
  refine good_tryDo ?_
  dsimp only
  cases hk : importKdk P kdkData env (setPending n 0 s).kc with
  | mk r kc =>
    cases r with
    | error e => exact good_error hr (h.kc kc) _
    | ok c =>
      cases c with
      | none => exact good_decryptCk hr (h.kc kc) ckData _
      | some code => exact good_tryDo (good_error hr (h.kc kc) code)

theorem good_decrypt (hr : ∀ c, P.raises c = false) {s : Decryptor} (h : Inv P none none s) (x : EncryptedContent) (env : Env) (hu : Untabled env) :
    Good P (decrypt P x env s) := by
  have hc := h.call x
  have hx : .call s.calls x ∈ ({ s with calls := s.calls + 1 }.emit (.call s.calls x)).trace := List.mem_append_right _ (List.mem_singleton.mpr rfl)
  unfold decrypt
  dsimp only
  have bad : ∀ code, ¬ WellFormed x → Good P (error P s.calls code ({ s with calls := s.calls + 1 }.emit (.call s.calls x))) := by
    intro code hw
    rw [error_eq hr]
    refine ⟨hc.answer (.error s.calls code) (fun c' => rfl) (fun _ _ hh => by cases hh) (fun y hy hwy => ?_), rfl⟩
    rw [hc.unique _ _ _ hy hx] at hwy
    exact absurd hwy hw
  split
  · next ht => exact bad _ fun hw => ht hw.1
  · next ht =>
    have ht : x.keyLocator.type = some 1 := Decidable.not_not.mp ht
    split
    · next hi => exact bad _ fun hw => hw.2 (Option.isNone_iff_eq_none.mp hi)
    · next hi =>
      have hw : WellFormed x := ⟨ht, fun hn => hi (by rw [hn]; rfl)⟩
      cases he : dictGet x.keyLocator.keyName s.entries with
      | none =>
        have he' : dictGet x.keyLocator.keyName ({ s with calls := s.calls + 1 }.emit (.call s.calls x)).entries = none := he
        rw [he']
        exact good_express hr (hc.opens hx hw he) _ _ rfl rfl env hu
      | some e =>
        have he' : dictGet x.keyLocator.keyName ({ s with calls := s.calls + 1 }.emit (.call s.calls x)).entries = some e := he
        rw [he']
        dsimp only
        cases hb : e.bits with
        | none => exact ⟨hc.enqueue hx hw he hb, rfl⟩
        | some bits =>
          dsimp only
          rw [doDecrypt_eq hr]
          refine ⟨hc.answer _ (fun c' => isAnswer_answerTo P bits (s.calls, x) c') (fun c' plain hh => ?_) (fun y hy hwy => ?_), rfl⟩
          · obtain ⟨rfl, iv, k1, k2⟩ := answerTo_success hh
            exact ⟨x, bits, iv, hx, ((hc.entry _ e he).ready bits hb).2.2, k1, k2⟩
          · rw [hc.unique _ _ _ hy hx]
            exact (congrArg Option.isSome he).trans rfl

theorem cancelPending_eq (hr : ∀ c, P.raises c = false) : ∀ (l : List (Nat × EncryptedContent)) (s : Decryptor),
    cancelPending P l s = ({ s with trace := s.trace ++ l.map fun p => .error p.1 .ckRetrievalFailure }, false)
  | [], s => by rw [List.map_nil, List.append_nil]; rfl
  | (c, x) :: l, s => by
    unfold cancelPending
    rw [error_eq hr]
    dsimp only
    rw [cancelPending_eq hr l]
    show (({ s with trace := (s.trace ++ [_]) ++ _ } : Decryptor), false) = _
    rw [List.append_assoc]
    rfl

theorem good_shutdownLoop (hr : ∀ c, P.raises c = false) : ∀ (l : List (Name × Entry)) (s : Decryptor), (l.map (·.1)).Nodup →
    (∀ x ∈ l, dictGet x.1 s.entries = some x.2) → Inv P none none s → Good P (shutdownLoop P l s)
  | [], s, _, _, h => ⟨h, rfl⟩
  | (n, e) :: l, s, hn, hg, h => by
    rw [List.map_cons, List.nodup_cons] at hn
    have he : dictGet n s.entries = some e := hg (n, e) List.mem_cons_self
    unfold shutdownLoop
    split
    · next hp =>
      dsimp only
      rw [cancelPending_eq hr]
      dsimp only
      have g1 := fun m => updateEntry_get (n := n) (f := fun e => { e with pendingId := 0 })
        (s := { s with outstanding := s.outstanding.filter fun x => x.1 ≠ e.pendingId }) he m
      have gn := (g1 n).trans (if_pos rfl)
      generalize hs1 : ({ setPending n 0 { s with outstanding := s.outstanding.filter fun x => x.1 ≠ e.pendingId } with
          trace := (setPending n 0 { s with outstanding := s.outstanding.filter fun x => x.1 ≠ e.pendingId }).trace ++
            e.pending.map fun p => .error p.1 .ckRetrievalFailure } : Decryptor) = s1
      have e1 : s1.entries = (updateEntry n (fun e => { e with pendingId := 0 })
          { s with outstanding := s.outstanding.filter fun x => x.1 ≠ e.pendingId }).entries := by rw [← hs1]; rfl
      have gn1 : dictGet n s1.entries = some { e with pendingId := 0 } := by rw [e1]; exact gn
      have g2 := fun m => updateEntry_get (n := n) (f := fun e => { e with pending := [] }) (s := s1) gn1 m
      have hall : ∀ m, dictGet m (updateEntry n (fun e => { e with pending := [] }) s1).entries =
          if m = n then some { e with pendingId := 0, pending := [] } else dictGet m s.entries := by
        intro m
        refine (g2 m).trans ?_
        split
        · rfl
        · next hm => rw [e1]; exact (g1 m).trans (if_neg hm)
      refine good_shutdownLoop hr l _ hn.2 ?_ (h.cancel he hp .ckRetrievalFailure hall ?_ ?_ ?_ ?_ ?_)
      · intro x hx
        have hne : x.1 ≠ n := fun hh => hn.1 (List.mem_map.mpr ⟨x, hx, hh⟩)
        rw [hall, if_neg hne]
        exact hg x (List.mem_cons_of_mem _ hx)
      · refine updateEntry_keys ?_
        rw [e1]
        exact updateEntry_keys (s := { s with outstanding := _ }) h.keys
      · show s1.outstanding = _
        rw [← hs1]; rfl
      · show s1.calls = _
        rw [← hs1]; rfl
      · show s1.nextId = _
        rw [← hs1]; rfl
      · show s1.trace = _
        rw [← hs1]; rfl
    · exact good_shutdownLoop hr l s hn.2 (fun x hx => hg x (List.mem_cons_of_mem _ hx)) h

theorem inv_step (hr : ∀ c, P.raises c = false) {s : Decryptor} (h : Inv P none none s) (a : DAct) (hu : ∀ e, envOfD a = some e → Untabled e) :
    Inv P none none (s.step P a) := by
  cases a with
  | decrypt x env => exact (good_decrypt hr h x env (hu env rfl)).1
  | data id d env =>
    unfold step
    dsimp only
    split
    · next name owner n rest ht => exact (good_onCkData hr (take_open h ht) d env (hu env rfl)).1
    · next name p ck owner n rest ht => exact (good_onKdkData hr (take_open h ht) p ck d env).1
    · exact h
  | timeout id env =>
    unfold step
    dsimp only
    split
    · next job rest ht =>
      have ho := take_open h ht
      unfold onTimeout
      cases job with
      | ck name owner n =>
        dsimp only
        split
        · exact (good_express hr ho _ (.ck name owner (n - 1)) rfl rfl env (hu env rfl)).1
        · exact (good_error hr ho _).1
      | kdk name p ck owner n =>
        dsimp only
        split
        · exact (good_express hr ho _ (.kdk name p ck owner (n - 1)) rfl rfl env (hu env rfl)).1
        · exact (good_error hr ho _).1
    · exact h
  | nack id =>
    unfold step
    dsimp only
    split
    · next job rest ht =>
      have ho := take_open h ht
      unfold onNetworkNack
      cases job with
      | ck name owner n => exact (good_error hr ho _).1
      | kdk name p ck owner n => exact (good_error hr ho _).1
    · exact h
  | shutdown =>
    exact (good_shutdownLoop hr s.entries s h.keys (fun x hx => dictGet_mem h.keys hx) h).1

theorem inv_empty : Inv P none none {} where
  keys := List.nodup_nil
  ids := List.nodup_nil
  idPos := by intro x hx; cases hx
  nextPos := Nat.one_pos
  link := by intro id job hj; cases hj
  entry := by intro n e he; cases he
  told := by intro n e he; cases he
  sep := by intro n e n' e' c he; cases he
  called := fun c => ⟨(fun h => by cases h), (fun ⟨x, hx⟩ => by cases hx)⟩
  unique := by intro c x y hx; cases hx
  once := fun c => Nat.zero_le _
  early := fun c _ => rfl
  rest := by intro c hc; cases hc
  float := by intro c hc; cases hc
  retrieved := by intro n b hb; cases hb
  right := by intro c p hs; cases hs
  known := by intro n e he; cases he
  listed := by intro c x hx; cases hx

theorem run_snoc (P : DecParams) (acts : List DAct) (a : DAct) : run P (acts ++ [a]) = (run P acts).step P a := by
  unfold run
  rw [List.foldl_append]
  rfl

theorem run_induction (P : DecParams) {Q : List DAct → Decryptor → Prop} (h0 : Q [] {})
    (hs : ∀ acts a, Q acts (run P acts) → Q (acts ++ [a]) ((run P acts).step P a)) (acts : List DAct) : Q acts (run P acts) := by
  suffices ∀ r : List DAct, Q r.reverse (run P r.reverse) by
    have := this acts.reverse
    rwa [List.reverse_reverse] at this
  intro r
  induction r with
  | nil => exact h0
  | cons a r ih =>
    rw [List.reverse_cons, run_snoc]
    exact hs _ _ ih

theorem run_inv (hr : ∀ c, P.raises c = false) (acts : List DAct) (hu : UntabledD acts) : Inv P none none (run P acts) := by
  refine run_induction P (Q := fun acts s => UntabledD acts → Inv P none none s) (fun _ => inv_empty) (fun acts a ih h => ?_) acts hu
  exact inv_step hr (ih fun b hb => h b (List.mem_append_left _ hb)) a (h a (by simp))

end Decryptor
end Nac
end PyNDN
