import Verif.Spec.Consumer
import Verif.Lemmas.GroupPackets
/-
Lemmas about the consumer: what a Data that was verified does.
-/
namespace PyNDN.Consumer
open EncV1 Spec.Consumer
open Encrypt (EncryptedContent encodeEncryptedContent decodeEncryptedContent)
open PSync (dictGet dictSet dictDel)

def errS (s : St) (call : Nat) (code : Code) : St := { s with out := s.out ++ [.error call code] }
def doneS (s : St) (call : Nat) (d : Data) (plain : Bytes) : St := { s with out := s.out ++ [.complete call d plain] }
def logS (s : St) (call : Nat) : St := { s with out := s.out ++ [.logged call] }
def sentS (s : St) (p : Pending) (again : Bool) : St := { s with pending := s.pending ++ [p], next := s.next + 1, out := s.out ++ [.sent p again] }

/-- The end of `_decrypt` of the content. -/
inductive Last (P : Params) (call : Nat) (d : Data) (c : EncryptedContent) (key : Bytes) (s : St) : St → Prop where
  | error (code : Code) : Last P call d c key s (errS s call code)
  | done {plain : Bytes} (h : Opens P c key plain) : Last P call d c key s (doneS s call d plain)

/-- With the D-KEY. -/
inductive Mid (P : Params) (call : Nat) (d : Data) (c k : EncryptedContent) (key : Bytes) (s : St) : St → Prop where
  | error (code : Code) : Mid P call d c k key s (errS s call code)
  | got {bits : Bytes} {s' : St} (h : Opens P k key bits) (hl : Last P call d c bits { s with cKeys := dictSet c.keyLocator.keyName bits s.cKeys } s') :
      Mid P call d c k key s s'

/-- What a Data that was verified does. -/
inductive Outcome (P : Params) (call : Nat) (s : St) : Goal → Data → St → Prop where
  | error {goal : Goal} {d : Data} (code : Code) : Outcome P call s goal d (errS s call code)
  | ask1 {d : Data} {c : EncryptedContent} (h : Holds d c) :
      Outcome P call s .content d (sentS s ⟨s.next, call, c.keyLocator.keyName ++ forC :: s.group, 1, .cKey d c⟩ false)
  | last {d : Data} {c : EncryptedContent} {key : Bytes} {s' : St} (h : Holds d c) (hk : dictGet c.keyLocator.keyName s.cKeys = some key)
      (hl : Last P call d c key s s') : Outcome P call s .content d s'
  | ask2 {d d' : Data} {c k : EncryptedContent} {n : Name} (h : Holds d' k) (hn : dKeyNameOf k.keyLocator.keyName = .ok n) :
      Outcome P call s (.cKey d c) d' (sentS s ⟨s.next, call, n ++ forC :: P.consumerName, 1, .dKey d c k n⟩ false)
  | mid {d d' : Data} {c k : EncryptedContent} {n : Name} {key : Bytes} {s' : St} (h : Holds d' k) (hn : dKeyNameOf k.keyLocator.keyName = .ok n)
      (hk : dictGet n s.dKeys = some key) (hm : Mid P call d c k key s s') : Outcome P call s (.cKey d c) d' s'
  | logged2 {d d' : Data} {c k : EncryptedContent} {e : Err} (h : Holds d' k) (hn : dKeyNameOf k.keyLocator.keyName = .error e) :
      Outcome P call s (.cKey d c) d' (logS s call)
  | first {d d' : Data} {c k nonce payload : EncryptedContent} {n : Name} {w v key nonceKey bits : Bytes} {s' : St} (hw : d'.content = some w)
      (hn : decodeEncryptedContent w = .ok nonce) (hk : dictGet (encodeName nonce.keyLocator.keyName) s.db = some key)
      (he : encodeEncryptedContent nonce = .ok v) (ho : Opens P nonce key nonceKey) (hp : decodeEncryptedContent (w.drop v.length) = .ok payload)
      (hb : Opens P payload nonceKey bits) (hm : Mid P call d c k bits { s with dKeys := dictSet n bits s.dKeys } s') :
      Outcome P call s (.dKey d c k n) d' s'
  | logged3 {d d' : Data} {c k nonce : EncryptedContent} {n : Name} {w : Bytes} (hw : d'.content = some w) (hn : decodeEncryptedContent w = .ok nonce)
      (he : ∀ v payload, encodeEncryptedContent nonce = .ok v → decodeEncryptedContent (w.drop v.length) ≠ .ok payload) :
      Outcome P call s (.dKey d c k n) d' (logS s call)

variable {P : Params} {call : Nat} {s s' : St} {env : Env}

theorem opens_of {c : EncryptedContent} {key plain : Bytes} (h : decryptBits P c key = .ok plain) : Opens P c key plain := by
  unfold decryptBits at h
  split at h
  · rename_i ha
    refine .inl ⟨ha, ?_⟩
    cases hi : c.initialVector with
    | none => rw [hi] at h; nomatch h
    | some iv =>
      rw [hi] at h
      dsimp only at h
      cases hp : P.aes.decryptCbc key iv c.payload with
      | none => rw [hp] at h; nomatch h
      | some x => rw [hp] at h; cases h; exact ⟨iv, rfl, hp⟩
  · split at h
    · rename_i ha
      refine .inr ⟨ha, ?_⟩
      cases hp : P.rsa.decrypt key (c.payload.getD []) with
      | none => rw [hp] at h; nomatch h
      | some x => rw [hp] at h; cases h; rfl
    · nomatch h

theorem decryptBits_of {c : EncryptedContent} {key plain : Bytes} (h : Opens P c key plain) : decryptBits P c key = .ok plain := by
  unfold decryptBits
  rcases h with ⟨h1, iv, h2, h3⟩ | ⟨h1, h2⟩
  · rw [if_pos h1, h2]
    dsimp only
    rw [h3]
  · rw [if_neg (by rw [h1]; decide), if_pos h1, h2]

theorem holds_of {d : Data} {c : EncryptedContent} (h : decodeContent d = .ok c) : Holds d c := by
  unfold decodeContent at h
  cases hc : d.content with
  | none => rw [hc] at h; nomatch h
  | some w => rw [hc] at h; exact ⟨w, hc, h⟩

theorem decodeContent_of {d : Data} {c : EncryptedContent} (h : Holds d c) : decodeContent d = .ok c := by
  obtain ⟨w, h1, h2⟩ := h
  unfold decodeContent
  rw [h1]
  exact h2

theorem last_spec {d : Data} {c : EncryptedContent} {key : Bytes} : ∃ s', decrypt P call c key (onComplete call d) s = (.ok (), s') ∧ Last P call d c key s s' := by
  unfold decrypt
  cases h : decryptBits P c key with
  | ok plain => exact ⟨_, rfl, .done (opens_of h)⟩
  | error code => exact ⟨_, rfl, .error code⟩

theorem mid_spec {d : Data} {c k : EncryptedContent} {key : Bytes} :
    ∃ s', decrypt P call k key (gotCKey P call d c) s = (.ok (), s') ∧ Mid P call d c k key s s' := by
  unfold decrypt
  cases h : decryptBits P k key with
  | error code => exact ⟨_, rfl, .error code⟩
  | ok bits =>
    dsimp only
    obtain ⟨s', h1, h2⟩ := last_spec (P := P) (call := call) (d := d) (c := c) (key := bits) (s := { s with cKeys := dictSet c.keyLocator.keyName bits s.cKeys })
    exact ⟨s', h1, .got (opens_of h) h2⟩

/-- With the exception logged. -/
def caught (m : M Unit) (call : Nat) (s : St) : St :=
  match m s with
  | (.ok _, s') => s'
  | (.error _, s') => logS s' call

theorem caught_ok {m : M Unit} (h : m s = (.ok (), s')) : caught m call s = s' := by
  unfold caught
  rw [h]

theorem send_spec {name : Name} {r : Nat} {goal : Goal} {again : Bool} :
    sendInterest call name r goal again env s = (.ok (), if env.expressRaises then errS s call .general else sentS s ⟨s.next, call, name, r, goal⟩ again) := by
  unfold sendInterest
  cases env.expressRaises <;> rfl

theorem caught_get {f : St → M Unit} : caught (get >>= f) call s = caught (f s) call s := rfl
theorem caught_lifted {α : Type} {a : α} {f : α → M Unit} : caught (lifted (.ok a) >>= f) call s = caught (f a) call s := rfl
theorem caught_raised {α : Type} {e : Err} {f : α → M Unit} : caught (lifted (.error e) >>= f) call s = logS s call := rfl

theorem outcome (P : Params) (p : Pending) (d : Data) (env : Env) (s : St) : Outcome P p.call s p.goal d (caught (onVerified P p d env) p.call s) := by
  unfold onVerified
  cases hg : p.goal with
  | content =>
    show Outcome P p.call s .content d (caught (decryptContent P p.call d env) p.call s)
    unfold decryptContent
    cases hd : decodeContent d with
    | error e => exact .error _
    | ok c =>
      have hh := holds_of hd
      dsimp only
      rw [caught_get]
      cases hk : dictGet c.keyLocator.keyName s.cKeys with
      | none =>
        dsimp only
        rw [caught_ok send_spec]
        split
        · exact .error _
        · exact .ask1 hh
      | some key =>
        dsimp only
        obtain ⟨s', h1, h2⟩ := last_spec (P := P) (call := p.call) (d := d) (c := c) (key := key) (s := s)
        rw [caught_ok h1]
        exact .last hh hk h2
  | cKey data c =>
    show Outcome P p.call s (.cKey data c) d (caught (decryptCKey P p.call data c d env) p.call s)
    unfold decryptCKey
    cases hd : decodeContent d with
    | error e => exact .error _
    | ok k =>
      have hh := holds_of hd
      dsimp only
      cases hn : dKeyNameOf k.keyLocator.keyName with
      | error e => exact .logged2 hh hn
      | ok n =>
        rw [caught_lifted, caught_get]
        cases hk : dictGet n s.dKeys with
        | none =>
          dsimp only
          rw [caught_ok send_spec]
          split
          · exact .error _
          · exact .ask2 hh hn
        | some key =>
          obtain ⟨s', h1, h2⟩ := mid_spec (P := P) (call := p.call) (d := data) (c := c) (k := k) (key := key) (s := s)
          dsimp only
          rw [caught_ok h1]
          exact .mid hh hn hk h2
  | dKey data c k n =>
    show Outcome P p.call s (.dKey data c k n) d (caught (decryptDKey P p.call d env (gotDKey P p.call data c k n)) p.call s)
    unfold decryptDKey
    cases hd : decodeContent d with
    | error e => exact .error _
    | ok nonce =>
      obtain ⟨w, hw, hdw⟩ := holds_of hd
      dsimp only
      split
      · exact .error _
      · rw [caught_get, hw]
        dsimp only [Option.getD_some]
        split
        · exact .error _
        · rename_i hlen
          obtain ⟨key, hk⟩ : ∃ key, dictGet (encodeName nonce.keyLocator.keyName) s.db = some key := by
            cases hk : dictGet (encodeName nonce.keyLocator.keyName) s.db with
            | none => rw [hk] at hlen; exact absurd rfl hlen
            | some key => exact ⟨key, rfl⟩
          rw [hk]
          dsimp only [Option.getD_some]
          cases he : encodeEncryptedContent nonce with
          | error e => exact .logged3 hw hdw fun v payload h => by rw [he] at h; nomatch h
          | ok v =>
            rw [caught_lifted]
            split
            · exact .error _
            · unfold decrypt
              cases ho : decryptBits P nonce key with
              | error code => exact .error _
              | ok nonceKey =>
                dsimp only
                cases hp : decodeEncryptedContent (w.drop v.length) with
                | error e => exact .logged3 hw hdw fun v' payload h h' => by rw [he] at h; cases h; rw [hp] at h'; nomatch h'
                | ok payload =>
                  rw [caught_lifted]
                  cases hb : decryptBits P payload nonceKey with
                  | error code => exact .error _
                  | ok bits =>
                    dsimp only
                    obtain ⟨s', h1, h2⟩ := mid_spec (P := P) (call := p.call) (d := data) (c := c) (k := k) (key := bits) (s := { s with dKeys := dictSet n bits s.dKeys })
                    have : caught (gotDKey P p.call data c k n bits) p.call s = s' := caught_ok h1
                    rw [this]
                    exact .first hw hdw hk he (opens_of ho) hp (opens_of hb) h2

/-! ### Steps -/

theorem step_data {id : Nat} {d : Data} {v : Verdict} {p : Pending} (hp : s.pending.find? (fun p => p.id = id) = some p) :
    ∃ s0 : St, s0 = { s with pending := s.pending.filter fun q => q.id ≠ id, out := s.out ++ [.answered p d v] } ∧ (step P (.data id d v env) s).2 =
      match v with
      | .failed => errS s0 p.call .validation
      | .raises => errS s0 p.call .general
      | .verified => caught (onVerified P p d env) p.call s0 := by
  refine ⟨_, rfl, ?_⟩
  show (answer id _ s).2 = _
  unfold answer
  rw [hp]
  dsimp only
  show (M.bind _ _ _).2 = _
  unfold M.bind modify
  dsimp only
  cases v with
  | failed => rfl
  | raises => rfl
  | verified =>
    dsimp only
    unfold caught
    split
    · rename_i h; rw [h]
    · rename_i h; rw [h]; rfl

theorem step_timeout {id : Nat} {p : Pending} (hp : s.pending.find? (fun p => p.id = id) = some p) :
    ∃ s0 : St, s0 = { s with pending := s.pending.filter fun q => q.id ≠ id } ∧ (step P (.timeout id env) s).2 =
      if p.retrials > 0 then if env.expressRaises then errS s0 p.call .general else sentS s0 ⟨s0.next, p.call, p.name, p.retrials - 1, p.goal⟩ true
      else errS s0 p.call .retrievalFailure := by
  refine ⟨_, rfl, ?_⟩
  show (answer id _ s).2 = _
  unfold answer
  rw [hp]
  dsimp only
  unfold onTimeout
  split
  · rw [send_spec]
  · rfl

theorem step_nack {id : Nat} {p : Pending} (hp : s.pending.find? (fun p => p.id = id) = some p) :
    (step P (.nack id) s).2 = errS { s with pending := s.pending.filter fun q => q.id ≠ id } p.call .retrievalFailure := by
  show (answer id _ s).2 = _
  unfold answer
  rw [hp]
  rfl

theorem answer_none {id : Nat} {f : Pending → M Unit} (hp : s.pending.find? (fun p => p.id = id) = none) : (answer id f s).2 = s := by
  unfold answer
  rw [hp]

end PyNDN.Consumer
