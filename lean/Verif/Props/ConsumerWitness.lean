import Verif.Props.Consumer
import Verif.Props.GroupManagerWitness
import Verif.Props.NacSystemWitness
/-! C78: a concrete consumer that meets the hypotheses, and the cases in which the code does not do what one would expect. -/
namespace PyNDN.Consumer
open EncV1 Spec.Consumer
open Encrypt (EncryptedContent encodeEncryptedContent decodeEncryptedContent)

def exConsumer : Params := { consumerName := [.generic [65]], rsa := Group.exRsa, aes := Nac.Decryptor.exAes }

/-- The encoding, which is known not to raise. -/
def wire (c : EncryptedContent) : Bytes :=
  match encodeEncryptedContent c with
  | .ok w => w
  | .error _ => []

def exG : Name := [.generic [80], readC, .generic [100]]
def exT (h : UInt8) : Component := .generic [50, 48, 49, 53, 48, 56, 50, 55, 84, 48, 48 + h, 48, 48, 48, 48]
def exE : Name := exG ++ [eKeyC, exT 5, exT 9]
def exD : Name := exG ++ [dKeyC, exT 5, exT 9]
def exC : Name := [.generic [80], sampleC, .generic [100], cKeyC, exT 6]

/-- The private key of the group, the content key. -/
def exPriv : Bytes := List.replicate 30 7
def exCBits : Bytes := List.replicate 16 9
def exIv : Bytes := List.replicate 16 3

def exContent (n : UInt8) (plain : Bytes) : Data :=
  { name := [.generic [80], sampleC, .generic [n]]
    content := some (wire { algorithmType := some 1, keyLocator := locator exC, initialVector := some exIv, payload := some (Nac.Decryptor.exAes.encryptCbc exCBits exIv plain) }) }

/-- The C-KEY, encrypted with the public key of the group (that is, with this RSA, its private key). -/
def exCKeyData (key : Bytes := exPriv) (e : Name := exE) : Data :=
  { name := exC ++ forC :: e
    content := some (wire { algorithmType := some 3, keyLocator := locator e, payload := some (key ++ exCBits) }) }

/-- The D-KEY, in two parts, for Alice. -/
def exNonce : Bytes := wire { algorithmType := some 3, keyLocator := locator Group.exAlice, payload := some ([1] ++ List.replicate 16 5) }
def exDKeyData (key : Bytes := exPriv) : Data :=
  { name := exD ++ forC :: Group.exAlice
    content := some (exNonce ++ wire { algorithmType := some 1, keyLocator := locator (Group.exAlice ++ [nonceC]), initialVector := some exIv
                                       payload := some (Nac.Decryptor.exAes.encryptCbc (List.replicate 16 5) exIv key) }) }

/-- What happened, in short. -/
inductive Short where
  | sent (n : Name) (again : Bool)
  | answered (v : Verdict)
  | complete (call : Nat) (plain : Bytes)
  | error (call : Nat) (code : Code)
  | logged (call : Nat)
  deriving DecidableEq

def Out.short : Out → Short
  | .sent p again => .sent p.name again
  | .answered _ _ v => .answered v
  | .complete c _ p => .complete c p
  | .error c e => .error c e
  | .logged c => .logged c

def short (db : List (Bytes × Bytes)) (ops : List Op) : List Short := (run exConsumer (new exG db) ops).2.out.map Out.short

/-- Two contents with the same keys; the first Interest for the C-KEY times out.  The second content arrives later and is decrypted at once. -/
def exOps : List Op :=
  [.addDecryptionKey Group.exAlice [1], .consume 0 [.generic [80], sampleC, .generic [1]] {}, .data 0 (exContent 1 [1, 2, 3]) .verified {}, .timeout 1 {},
    .data 2 (exCKeyData) .verified {}, .data 3 (exDKeyData) .verified {}, .consume 1 [.generic [80], sampleC, .generic [2]] {},
    .data 4 (exContent 2 [4, 5]) .verified {}]

/-- C78_opened, C78_kept: the trace. -/
theorem exOps_trace : short [] exOps =
    [.sent [.generic [80], sampleC, .generic [1]] false, .answered .verified, .sent (exC ++ forC :: exG) false, .sent (exC ++ forC :: exG) true, .answered .verified,
      .sent (exD ++ forC :: [.generic [65]]) false, .answered .verified, .complete 0 [1, 2, 3], .sent [.generic [80], sampleC, .generic [2]] false, .answered .verified,
      .complete 1 [4, 5]] := by decide +kernel

theorem exOps_noRestart : ∀ op ∈ exOps, NoRestart op := by
  intro op h g e
  subst e
  simp [exOps] at h

/-- The hypotheses of C78_kept hold before the last event. -/
example : ∃ p, (run exConsumer (new exG []) (exOps.take 7)).2.pending.find? (fun p => p.id = 4) = some p ∧ p.goal = .content ∧
    Out.complete 0 (exContent 1 [1, 2, 3]) [1, 2, 3] ∈ (run exConsumer (new exG []) (exOps.take 7)).2.out := by
  refine ⟨⟨4, 1, [.generic [80], sampleC, .generic [2]], 1, .content⟩, ?_, rfl, ?_⟩ <;> decide +kernel

/-- C78_opened says of it that the plain text is from the key that was added. -/
example : ∃ cKey, CKeyFrom exConsumer (Known [] exOps) (GroupOf exG exOps) (run exConsumer (new exG []) exOps).2.out exC cKey := by
  have h : Out.complete 1 (exContent 2 [4, 5]) [4, 5] ∈ (run exConsumer (new exG []) exOps).2.out := by decide +kernel
  obtain ⟨p, c, cKey, _, _, h1, h2, _⟩ := C78_opened exConsumer exG [] exOps h
  have h3 : c.keyLocator.keyName = exC := by
    have h4 : decodeContent (exContent 2 [4, 5]) = .ok c := decodeContent_of h1
    have h5 : (decodeContent (exContent 2 [4, 5])).toOption.map (·.keyLocator.keyName) = some exC := by decide +kernel
    rw [h4] at h5
    exact Option.some.inj h5
  rw [h3] at h2
  exact ⟨cKey, h2⟩

/-- All verified Data of this history can be read, so that C78_exactly_partial applies. -/
theorem exOps_readable : ∀ p d, Out.answered p d .verified ∈ (run exConsumer (new exG []) exOps).2.out → Readable p d := by
  intro p d h
  have hl : ∀ o ∈ (run exConsumer (new exG []) exOps).2.out, ∀ p d, o = .answered p d .verified →
      match p.goal with
      | .content => True
      | .cKey _ _ => (decodeContent d).toOption.all fun k => decide (k.keyLocator.keyName ≠ [])
      | .dKey _ _ _ _ => (decodeContent d).toOption.all fun n => (encodeEncryptedContent n).toOption.any fun v =>
          (decodeEncryptedContent ((d.content.getD []).drop v.length)).toOption.isSome := by
    intro o ho p d e
    have hb : ((run exConsumer (new exG []) exOps).2.out.all fun o => match o with
      | .answered p d .verified => (match p.goal with
        | .content => true
        | .cKey _ _ => (decodeContent d).toOption.all fun k => decide (k.keyLocator.keyName ≠ [])
        | .dKey _ _ _ _ => (decodeContent d).toOption.all fun n => (encodeEncryptedContent n).toOption.any fun v =>
          (decodeEncryptedContent ((d.content.getD []).drop v.length)).toOption.isSome)
      | _ => true) = true := by decide +kernel
    have := List.all_eq_true.mp hb o ho
    rw [e] at this
    dsimp only at this
    generalize p.goal = g at *
    cases g with
    | content => trivial
    | cKey _ _ => exact this
    | dKey _ _ _ _ => exact this
  have := hl _ h p d rfl
  unfold Readable
  generalize p.goal = g at *
  cases g with
  | content => trivial
  | cKey _ _ =>
    intro k hk
    dsimp only at this
    rw [decodeContent_of hk] at this
    exact of_decide_eq_true this
  | dKey _ _ _ _ =>
    intro w nonce hw hn
    dsimp only at this
    rw [decodeContent_of ⟨w, hw, hn⟩, hw] at this
    dsimp only [Except.toOption, Option.all, Option.getD_some] at this
    cases he : encodeEncryptedContent nonce with
    | error e => rw [he] at this; nomatch this
    | ok v =>
      rw [he] at this
      dsimp only [Except.toOption, Option.any] at this
      cases hd : decodeEncryptedContent (w.drop v.length) with
      | error e => rw [hd] at this; nomatch this
      | ok payload => exact ⟨v, payload, rfl, hd⟩

example : callbacks 0 (run exConsumer (new exG []) exOps).2.out + open' 0 (run exConsumer (new exG []) exOps).2.pending = 1 :=
  C78_exactly_partial exConsumer exG [] exOps_noRestart exOps_readable 0

/-- Errors: no answer after two attempts, a NACK, a Data that is not valid, no key. -/
example : short [] [.consume 0 [.generic [1]] {}, .timeout 0 {}, .timeout 1 {}, .consume 1 [.generic [2]] {}, .nack 2, .consume 2 [.generic [3]] {}, .data 3 {} .failed {},
      .consume 3 [.generic [1]] {}, .data 4 (exContent 1 [1]) .verified {}, .data 5 (exCKeyData) .verified {}, .data 6 (exDKeyData) .verified {}] =
    [.sent [.generic [1]] false, .sent [.generic [1]] true, .error 0 .retrievalFailure, .sent [.generic [2]] false, .error 1 .retrievalFailure,
      .sent [.generic [3]] false, .answered .failed, .error 2 .validation, .sent [.generic [1]] false, .answered .verified, .sent (exC ++ forC :: exG) false,
      .answered .verified, .sent (exD ++ forC :: [.generic [65]]) false, .answered .verified, .error 3 .noDecryptKey] := by decide +kernel

/-! ### Cases in which the code does not do what one would expect -/

/-- Neither callback is ever called, although no Interest is pending: a verified C-KEY in which no key is named, and a verified D-KEY whose second part cannot
be decoded, raise in the callback of `verifyData`, which only logs that. -/
theorem C78_silent : ∃ P g db ops ops', (∀ op ∈ ops ++ ops', NoRestart op) ∧
    consumes 0 ops = 1 ∧ (run P (new g db) ops).2.pending = [] ∧ callbacks 0 (run P (new g db) ops).2.out = 0 ∧
    consumes 0 ops' = 1 ∧ (run P (new g db) ops').2.pending = [] ∧ callbacks 0 (run P (new g db) ops').2.out = 0 := by
  refine ⟨exConsumer, exG, [(encodeName Group.exAlice, [1])],
    [.consume 0 [.generic [1]] {}, .data 0 (exContent 1 [1]) .verified {}, .data 1 (exCKeyData exPriv []) .verified {}],
    [.consume 0 [.generic [1]] {}, .data 0 (exContent 1 [1]) .verified {}, .data 1 (exCKeyData) .verified {}, .data 2 { content := some (exNonce ++ [1]) } .verified {}],
    ?_, by decide +kernel, by decide +kernel, by decide +kernel, by decide +kernel, by decide +kernel, by decide +kernel⟩
  intro op h g e
  subst e
  simp at h

/-- If the private key of the group is short enough for RSA then `GroupManager` makes a D-KEY with one part only (Encryptor.encryptData), which the consumer
does not accept: InvalidEncryptedFormat, although it has the key. -/
theorem C78_single : ∃ w, Spec.Group.Sealed Group.exRsa Nac.Decryptor.exAes Group.exAlice [1] [7, 8, 9] w ∧
    short [(encodeName Group.exAlice, [1])] [.consume 0 [.generic [1]] {}, .data 0 (exContent 1 [1]) .verified {}, .data 1 (exCKeyData [7, 8, 9]) .verified {},
      .data 2 { name := exD ++ forC :: Group.exAlice, content := some w } .verified {}] =
    [.sent [.generic [1]] false, .answered .verified, .sent (exC ++ forC :: exG) false, .answered .verified, .sent (exD ++ forC :: [.generic [65]]) false,
      .answered .verified, .error 0 .invalidFormat] := by
  refine ⟨wire { algorithmType := some 3, keyLocator := locator Group.exAlice, payload := some [1, 7, 8, 9] }, .inl ⟨0, [1, 7, 8, 9], by decide +kernel, ?_⟩, by decide +kernel⟩
  have h : (encodeEncryptedContent { algorithmType := some 3, keyLocator := { type := some 1, keyName := Group.exAlice }, payload := some [1, 7, 8, 9] }).toOption.isSome := by decide +kernel
  show _ = Except.ok (wire { algorithmType := some 3, keyLocator := { type := some 1, keyName := Group.exAlice }, payload := some [1, 7, 8, 9] })
  unfold wire
  cases he : encodeEncryptedContent { algorithmType := some 3, keyLocator := { type := some 1, keyName := Group.exAlice }, payload := some [1, 7, 8, 9] } with
  | ok w => rfl
  | error e => rw [he] at h; nomatch h

/-- When the group manager makes the group key for an interval anew (with needRegenerate, the names stay the same), a consumer that has the old D-KEY uses it for ever: it
does not ask for the new one, and the C-KEY that is encrypted with the new key cannot be decrypted. -/
theorem C78_stale : short [] (exOps ++ [.consume 2 [.generic [3]] {}, .data 5 { content := some (wire { algorithmType := some 1, keyLocator := locator [.generic [99]], initialVector := some exIv, payload := some [] }) } .verified {},
      .data 6 { content := some (wire { algorithmType := some 3, keyLocator := locator exE, payload := some (List.replicate 30 8 ++ exCBits) }) } .verified {}]) =
    short [] exOps ++ [.sent [.generic [3]] false, .answered .verified, .sent ([.generic [99]] ++ forC :: exG) false, .answered .verified, .error 2 .invalidFormat] := by
  decide +kernel

end PyNDN.Consumer
