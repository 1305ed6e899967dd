import Verif.Spec.HmacSign
import Verif.Lemmas.HmacSign
/-
C87: HMAC signatures.
-/
namespace PyNDN.HmacSign
open PyNDN PyNDN.Spec PyNDN.Spec.HmacSign

variable {mac : Bytes → Bytes → Bytes} {key : Bytes}

theorem fresh_encode {o : DataObj} (h : Fresh o) : o.wireEncode = encodeData o.data := by
  unfold DataObj.wireEncode
  split
  · rename_i w hw
    exact (h w hw).symm
  · rfl

/-- The encoding of a signed Data packet: its signed portion is that of the packet before. -/
theorem signData_ok {o : DataObj} (hok : DataOk o.data) (hf : Fresh o) :
    ∃ o' wire b e v, signData mac key o = .ok o' ∧ o'.cached = none ∧ DataOk o'.data ∧ encodeData o'.data = .ok (wire, b, e) ∧
      o'.data = { o.data with signature := { o.data.signature with signature := some (mac key (slice wire b e)) } } ∧
      slice wire b e = flat (signedFields o'.data v) ∧ encodeSignatureInfo o'.data.signature.info [] = .ok (tlv 22 v) ∧
      (flat (signedFields o'.data v)).length ≤ wire.length := by
  obtain ⟨w0, b0, e0, v0, p1, _, p3, p4⟩ := C22_encoding o.data hok
  let d' : Data := { o.data with signature := { o.data.signature with signature := some (mac key (slice w0 b0 e0)) } }
  have hok' : DataOk d' := hok
  obtain ⟨w, b, e, v, q1, q2, q3, q4⟩ := C22_encoding d' hok'
  have hv : v = v0 := by
    have p4' : encodeSignatureInfo d'.signature.info [] = .ok (tlv 22 v0) := p4
    rw [q4] at p4'
    injection p4' with p4'
    exact KeyChain.tlv_inj' p4'
  have hsl : slice w b e = slice w0 b0 e0 := by rw [q3, p3, hv]
  refine ⟨{ data := d' }, w, b, e, v, ?_, rfl, hok', q1, ?_, q3, q4, ?_⟩
  · unfold signData
    rw [fresh_encode hf, p1]
    rfl
  · rw [hsl]
  · rw [← show slice w b e = flat (signedFields d' v) from q3]
    unfold slice
    rw [List.length_drop, List.length_take]
    omega

/-- A Data packet that is signed with an HMAC key verifies with it, where it was signed and wherever it is received, and with another
key only if the codes are the same. -/
theorem C87_data (hm : ∀ k m, mac k m ≠ []) (o : DataObj) (hok : DataOk o.data) (hf : Fresh o) :
    ∃ o' wire b e, signData mac key o = .ok o' ∧
      o'.data = { o.data with signature := { o.data.signature with signature := some (mac key (slice wire b e)) } } ∧
      o'.wireEncode = .ok (wire, b, e) ∧ verifyData mac key o' = .ok true ∧
      (wire.length < 2 ^ 64 → ∀ old extra, ∃ r, receive old (wire ++ extra) = .ok r ∧ SameData o'.data r.data ∧
        ∀ key2, verifyData mac key2 r = .ok (decide (mac key2 (slice wire b e) = mac key (slice wire b e)))) := by
  obtain ⟨o', wire, b, e, v, h1, h2, h3, h4, h5, h6, h7, h8⟩ := signData_ok (mac := mac) (key := key) hok hf
  have h9 : o'.wireEncode = .ok (wire, b, e) := by
    unfold DataObj.wireEncode
    rw [h2]
    exact h4
  refine ⟨o', wire, b, e, h1, h5, h9, ?_, fun hsize old extra => ?_⟩
  · unfold verifyData
    rw [h9, h5]
    show Except.ok (decide (some (mac key (slice wire b e)) = some (mac key (slice wire b e)))) = _
    rw [decide_eq_true rfl]
  · obtain ⟨r, g1, g2⟩ := C22_roundtrip o'.data old h3 wire b e h4 hsize extra
    refine ⟨{ data := r, cached := some (wire ++ extra, b, e) }, ?_, g2, fun key2 => ?_⟩
    · unfold receive
      rw [g1]
    · have hsig : r.signature.signature = some (mac key (slice wire b e)) := by
        refine KeyChain.some_of_getD ?_ (hm _ _)
        rw [← g2.2.2.2.2, h5]
        rfl
      have hsl : slice (wire ++ extra) b e = slice wire b e := by
        unfold slice
        have hle : e ≤ wire.length := by
          obtain ⟨v', ⟨b', e', q1, q2, q3⟩, _⟩ := data_spec o'.data h3
          rw [h4] at q1
          cases q1
          have q4 : (flat (signedFields o'.data v')).length ≤ (flat (signedFields o'.data v' ++ [(23, o'.data.signature.signature.getD [])])).length := by
            rw [flat_append, List.length_append]; omega
          omega
        rw [List.take_append_of_le_length hle]
      unfold verifyData
      show Except.ok (decide (some (mac key2 (slice (wire ++ extra) b e)) = r.signature.signature)) = _
      rw [hsig, hsl]
      congr 1
      rw [decide_eq_decide]
      exact Option.some_inj

theorem verifyData_true {r : DataObj} (h : verifyData mac key r = .ok true) :
    ∃ wire b e, r.wireEncode = .ok (wire, b, e) ∧ r.data.signature.signature = some (mac key (slice wire b e)) := by
  unfold verifyData at h
  cases hw : r.wireEncode with
  | error e => rw [hw] at h; cases h
  | ok w =>
    rw [hw] at h
    have h1 : Except.ok (decide (some (mac key (signedBytes w)) = r.data.signature.signature)) = Except.ok (ε := Err) true := h
    injection h1 with h1
    exact ⟨w.1, w.2.1, w.2.2, rfl, (of_decide_eq_true h1).symm⟩

/-- Whatever bytes are received: if they decode to a Data packet that verifies, then a packet that says the same has been signed with
the key, or somebody has the code of a message that has not been signed. -/
theorem C87_data_unforgeable (signed : DataObj → Prop) (hs : ∀ o, signed o → SignedData mac key o) (old : Data) (input : Bytes) (r : DataObj)
    (hr : receive old input = .ok r) (hv : verifyData mac key r = .ok true) :
    (∃ o, signed o ∧ SaySame o.data r.data) ∨ ForgedData mac key signed r.data.signature.signature := by
  obtain ⟨w, b, e, h1, h2⟩ := verifyData_true hv
  unfold receive at hr
  split at hr
  · rename_i d b' e' hd
    cases hr
    cases h1
    by_cases hex : ∃ o, signed o ∧ ∃ wire b' e', o.wireEncode = .ok (wire, b', e') ∧ slice wire b' e' = slice input b e
    · left
      obtain ⟨o, ho, wire, b', e', q1, q2⟩ := hex
      obtain ⟨⟨o0, p1, p2, p3⟩, p4⟩ := hs o ho
      obtain ⟨o', wire', b'', e'', v, g1, g2, g3, g4, g5, g6, g7, g8⟩ := signData_ok (mac := mac) (key := key) p1 p2
      rw [p3] at g1
      cases g1
      have g9 : o.wireEncode = .ok (wire', b'', e'') := by
        unfold DataObj.wireEncode
        rw [g2]
        exact g4
      rw [q1] at g9
      cases g9
      have hlen : wire.length < 2 ^ 64 := p4 _ q1
      exact ⟨o, ho, data_of_signed g3 g7 (by omega) hd (by rw [← q2, g6])⟩
    · right
      refine ⟨_, h2, fun o ho wire b' e' hw heq => hex ⟨o, ho, wire, b', e', hw, heq⟩⟩
  · cases hr

/-! ### Interests -/

theorem signInterest_ok {o : InterestObj} {k : Name} {rnd : Nat → UInt8} (hok : InterestOk o.interest) (hk : CanonicalName k) :
    ∃ o' encoded m, signInterest mac key (some k) rnd o = .ok o' ∧ encodeSignatureInfo (.hmac { type := some 1, keyName := k }) [] = .ok encoded ∧
      o'.cached = none ∧ InterestOk o'.interest ∧ m = flat (nameFields (o.interest.name ++ [Component.generic encoded])) ∧
      o'.interest = { o.interest with name := o.interest.name ++ [Component.generic encoded] ++
        [Component.generic (writeBlobTlv 23 (some (mac key m)) [])], nonce := none } := by
  obtain ⟨v, hv, _⟩ := signatureInfo_roundtrip (.hmac { type := some 1, keyName := k }) (Or.inr (Or.inl ⟨rfl, hk⟩))
  have hcan : ∀ x y, CanonicalName (o.interest.name ++ [Component.generic x] ++ [Component.generic y]) := by
    intro x y c hc
    rcases List.mem_append.1 hc with hc | hc
    · rcases List.mem_append.1 hc with hc | hc
      · exact hok.name c hc
      · rw [List.mem_singleton.1 hc]; trivial
    · rw [List.mem_singleton.1 hc]; trivial
  have hok' : ∀ x y, InterestOk { o.interest with name := o.interest.name ++ [Component.generic x] ++ [Component.generic y], nonce := none } := fun x y =>
    ⟨hcan x y, hok.minSuffix, hok.maxSuffix, hok.keyLocator, hok.exclude, hok.childSelector, hok.lifetime, hok.forwardingHint, hok.link, hok.selectedDelegation, hok.exclusive⟩
  have he := hv []
  generalize flat [(22, v)] ++ [] = encoded at he
  obtain ⟨w, b, e, q1, q2, _, _⟩ := KeyChain.interest_received _ (hok' encoded []) rnd
  have q2' : slice w b e = flat (nameFields (o.interest.name ++ [Component.generic encoded])) := by
    rw [q2]
    show flat (nameFields (o.interest.name ++ [Component.generic encoded] ++ [_]).dropLast) = _
    rw [List.dropLast_concat]
  refine ⟨{ interest := { o.interest with name := o.interest.name ++ [Component.generic encoded] ++
        [Component.generic (writeBlobTlv 23 (some (mac key (slice w b e))) [])], nonce := none } }, encoded, slice w b e, ?_, he, rfl, hok' encoded _, q2', rfl⟩
  unfold signInterest
  simp only [he, bind, Except.bind, q1]
  rfl

/-- An Interest that is signed with an HMAC key verifies with it, where it was signed and wherever it is received, and with another key
only if the codes are the same; the signature names the key. -/
theorem C87_interest (o : InterestObj) (keyName : Name) (rnd : Nat → UInt8) (hok : InterestOk o.interest) (hk : CanonicalName keyName) :
    ∃ o' x y, signInterest mac key (some keyName) rnd o = .ok o' ∧
      o'.interest = { o.interest with name := o.interest.name ++ [x] ++ [y], nonce := none } ∧
      ∀ rnd2, ∃ wire b e, o'.wireEncode rnd2 = .ok (wire, b, e) ∧ (wire.length < 2 ^ 64 →
        verifyInterest mac key rnd2 o' = .ok true ∧
        ∀ old extra, ∃ r, receiveInterest old (wire ++ extra) = .ok r ∧ r.interest.name = o'.interest.name ∧
          (∃ sig, Validator.interestSignature r.interest.name = .ok sig ∧ SameSigInfo (.hmac { type := some 1, keyName := keyName }) sig.info) ∧
          ∀ key2 rnd3, verifyInterest mac key2 rnd3 r = .ok (decide (mac key2 (slice wire b e) = mac key (slice wire b e)))) := by
  obtain ⟨o', encoded, m, h1, h2, h3, h4, h5, h6⟩ := signInterest_ok (mac := mac) (key := key) (rnd := rnd) hok hk
  refine ⟨o', _, _, h1, h6, fun rnd2 => ?_⟩
  obtain ⟨wire, b, e, g1, g2, g3, g4⟩ := KeyChain.interest_received o'.interest h4 rnd2
  have hw : o'.wireEncode rnd2 = .ok (wire, b, e) := by
    unfold InterestObj.wireEncode
    rw [h3]
    exact g1
  refine ⟨wire, b, e, hw, fun hsize => ?_⟩
  have hm : slice wire b e = m := by
    rw [g2, h6, h5]
    show flat (nameFields (o.interest.name ++ [Component.generic encoded] ++ [_]).dropLast) = _
    rw [List.dropLast_concat]
  have hlen : ∀ c ∈ o'.interest.name, c.value.length < 2 ^ 64 := by
    intro c hc
    have h4 : (Spec.key c).2.length ≤ (flat (nameFields o'.interest.name)).length := KeyChain.flat_mem (List.mem_map.2 ⟨c, hc, rfl⟩)
    have h5 : (Spec.key c).2 = c.value := rfl
    rw [h5] at h4
    omega
  have hl1 : encoded.length < 2 ^ 64 := hlen (Component.generic encoded) (by rw [h6]; simp)
  have hl2 : (mac key m).length < 2 ^ 64 := by
    have := hlen (Component.generic (writeBlobTlv 23 (some (mac key m)) [])) (by rw [h6]; simp)
    have e2 : writeBlobTlv 23 (some (mac key m)) [] = tlv 23 (mac key m) := by rw [blobTlv_flat, flat_one]; simp
    rw [e2] at this
    have t := tlv_length 23 (mac key m)
    have : (tlv 23 (mac key m)).length < 2 ^ 64 := this
    omega
  obtain ⟨si, q1, q2⟩ := KeyChain.signature_of_name (n := o.interest.name) (show SigInfoOk (.hmac { type := some 1, keyName := keyName }) from
    Or.inr (Or.inl ⟨rfl, hk⟩)) h2 hl1 hl2
  have hname : o'.interest.name = o.interest.name ++ [Component.generic encoded] ++ [Component.generic (writeBlobTlv 23 (some (mac key m)) [])] := by
    rw [h6]
  rw [← hname] at q1
  constructor
  · unfold verifyInterest
    rw [q1, hw]
    show Except.ok (decide (some (mac key (slice wire b e)) = some (mac key m))) = _
    rw [hm, decide_eq_true rfl]
  · intro old extra
    obtain ⟨r, p1, p2⟩ := g4 hsize old extra
    refine ⟨{ interest := r, cached := some (wire ++ extra, b, e) }, ?_, p2, ⟨_, by rw [p2]; exact q1, q2⟩, fun key2 rnd3 => ?_⟩
    · unfold receiveInterest
      rw [p1]
    · have hsl : slice (wire ++ extra) b e = slice wire b e := by
        obtain ⟨r0, p3, _⟩ := g4 hsize o.interest []
        rw [List.append_nil] at p3
        unfold slice
        rw [List.take_append_of_le_length (interest_end p3)]
      unfold verifyInterest
      show (Validator.interestSignature r.name >>= fun s => _) = _
      rw [p2, q1]
      show Except.ok (decide (some (mac key2 (slice (wire ++ extra) b e)) = some (mac key m))) = _
      rw [hsl, hm]
      congr 1
      rw [decide_eq_decide]
      exact Option.some_inj

theorem verifyInterest_true {r : InterestObj} {rnd : Nat → UInt8} (h : verifyInterest mac key rnd r = .ok true) :
    ∃ sig wire b e, Validator.interestSignature r.interest.name = .ok sig ∧ r.wireEncode rnd = .ok (wire, b, e) ∧
      sig.signature = some (mac key (slice wire b e)) := by
  unfold verifyInterest at h
  cases hg : Validator.interestSignature r.interest.name with
  | error e => rw [hg] at h; cases h
  | ok sig =>
    rw [hg] at h
    cases hw : r.wireEncode rnd with
    | error e => rw [hw] at h; cases h
    | ok w =>
      rw [hw] at h
      have h1 : Except.ok (decide (some (mac key (signedBytes w)) = sig.signature)) = Except.ok (ε := Err) true := h
      injection h1 with h1
      exact ⟨sig, w.1, w.2.1, w.2.2, rfl, rfl, (of_decide_eq_true h1).symm⟩

/-- Whatever bytes are received: if they decode to an Interest that verifies, then an Interest whose name is the same up to the last
component has been signed with the key, or somebody has the code of a message that has not been signed. -/
theorem C87_interest_unforgeable (signed : InterestObj → Prop) (hs : ∀ o, signed o → SignedInterest mac key o) (old : Interest) (input : Bytes)
    (r : InterestObj) (rnd : Nat → UInt8) (hr : receiveInterest old input = .ok r) (hv : verifyInterest mac key rnd r = .ok true) :
    (∃ o, signed o ∧ r.interest.name.dropLast = o.interest.name.dropLast) ∨
      ∃ sig, Validator.interestSignature r.interest.name = .ok sig ∧ ForgedInterest mac key signed sig.signature := by
  obtain ⟨sig, w, b, e, h0, h1, h2⟩ := verifyInterest_true hv
  unfold receiveInterest at hr
  split at hr
  · rename_i i b' e' hd
    cases hr
    cases h1
    by_cases hex : ∃ o, signed o ∧ ∃ rnd wire b' e', o.wireEncode rnd = .ok (wire, b', e') ∧ slice wire b' e' = slice input b e
    · left
      obtain ⟨o, ho, rnd', wire, b', e', q1, q2⟩ := hex
      obtain ⟨⟨o0, k, rnd0, p1, p2, p3⟩, p4⟩ := hs o ho
      obtain ⟨o', encoded, m, g1, g2, g3, g4, g5, g6⟩ := signInterest_ok (mac := mac) (key := key) (rnd := rnd0) p1 p2
      rw [p3] at g1
      cases g1
      obtain ⟨wire', b'', e'', k1, k2, k3, k4⟩ := KeyChain.interest_received o.interest g4 rnd'
      have k5 : o.wireEncode rnd' = .ok (wire', b'', e'') := by
        unfold InterestObj.wireEncode
        rw [g3]
        exact k1
      rw [q1] at k5
      cases k5
      have hlen : wire.length < 2 ^ 64 := p4 _ _ q1
      have hcan : CanonicalName o.interest.name.dropLast := fun c hc => g4.name c (List.dropLast_subset _ hc)
      have hl : (flat (nameFields o.interest.name.dropLast)).length < 2 ^ 64 := by
        rw [← k2]
        unfold slice
        rw [List.length_drop, List.length_take]
        omega
      exact ⟨o, ho, interest_of_signed hcan hl hd (by rw [← q2, k2])⟩
    · right
      exact ⟨sig, h0, _, h2, fun o ho rnd wire b' e' hw heq => hex ⟨o, ho, rnd, wire, b', e', hw, heq⟩⟩
  · cases hr

/-! ### Concrete packets -/

/-- An example of a code. -/
def c87Mac (k m : Bytes) : Bytes := 1 :: (k ++ m)
def c87Data : Data := { name := [⟨.generic, [97]⟩], content := some [1, 2], signature := { info := .hmac { type := some 1, keyName := [⟨.generic, [107]⟩] } } }
def c87Interest : Interest := { name := [⟨.generic, [97]⟩] }


theorem c87Data_ok : DataOk c87Data := by
  refine ⟨?_, ⟨by decide, ?_, by decide, fun _ => rfl⟩, Or.inr (Or.inl ⟨rfl, ?_⟩)⟩
  · intro c hc
    rw [List.mem_singleton.1 hc]
    trivial
  · intro f hf
    cases hf
  · intro c hc
    rw [List.mem_singleton.1 hc]
    trivial

theorem c87Interest_ok : InterestOk c87Interest where
  name := by intro c hc; rw [List.mem_singleton.1 hc]; trivial
  minSuffix := by intro n hn; cases hn
  maxSuffix := by intro n hn; cases hn
  keyLocator := Or.inl rfl
  exclude := by intro c hc; cases hc
  childSelector := by intro n hn; cases hn
  lifetime := by intro n hn; cases hn
  forwardingHint := by intro d hd; cases hd
  link := by intro b hb; cases hb
  selectedDelegation := by intro n hn; cases hn
  exclusive := by intro _; rfl

def ok? {α : Type} (d : α) : Except Err α → α
  | .ok a => a
  | .error _ => d

/-- The signed Data packet, what is received, and a Data packet with another content and the same signature. -/
def c87Signed : DataObj := ok? { data := {} } (signData c87Mac [5] { data := c87Data })
def c87Wire : Bytes := (ok? ([], 0, 0) c87Signed.wireEncode).1
def c87Received : DataObj := ok? { data := {} } (receive {} c87Wire)
def c87Changed : DataObj := { data := { c87Signed.data with content := some [1, 3] } }

example : SignedData c87Mac [5] c87Signed := by
  refine ⟨⟨{ data := c87Data }, c87Data_ok, (fun w h => by cases h), by decide +kernel⟩, fun w hw => ?_⟩
  have h : (ok? ([], 0, 0) c87Signed.wireEncode).1.length < 2 ^ 64 := by decide +kernel
  rw [hw] at h
  exact h

example : (verifyData c87Mac [5] c87Received).toOption = some true ∧ (verifyData c87Mac [6] c87Received).toOption = some false ∧
    (verifyData c87Mac [5] c87Changed).toOption = some false := by decide +kernel

def c87SignedInterest : InterestObj :=
  ok? { interest := {} } (signInterest c87Mac [5] (some [⟨.generic, [107]⟩]) (fun _ => 7) { interest := c87Interest })
def c87InterestWire : Bytes := (ok? ([], 0, 0) (c87SignedInterest.wireEncode fun _ => 9)).1
def c87ReceivedInterest : InterestObj := ok? { interest := {} } (receiveInterest {} c87InterestWire)

example : (∃ o0 keyName rnd, InterestOk o0.interest ∧ CanonicalName keyName ∧ signInterest c87Mac [5] (some keyName) rnd o0 = .ok c87SignedInterest) ∧
    c87ReceivedInterest.interest.name.length = 3 ∧ (verifyInterest c87Mac [5] (fun _ => 0) c87ReceivedInterest).toOption = some true ∧
    (verifyInterest c87Mac [6] (fun _ => 0) c87ReceivedInterest).toOption = some false :=
  ⟨⟨{ interest := c87Interest }, [⟨.generic, [107]⟩], fun _ => 7, c87Interest_ok, by intro c hc; rw [List.mem_singleton.1 hc]; trivial, by decide +kernel⟩,
    by decide +kernel, by decide +kernel, by decide +kernel⟩

/-! ### Departures -/

/-- A Data packet that has been received in an encoding that is not the library's own (here, with a longer form of a length), and is
signed again: the cached encoding is signed, and a new encoding is sent, which does not verify. -/
theorem C87_received_signed_again :
    let input : Bytes := [6, 19, 7, 3, 8, 1, 97, 20, 0, 21, 253, 0, 1, 120, 22, 3, 27, 1, 0, 23, 0]
    let r := ok? { data := {} } (receive {} input)
    r.data.name = [⟨.generic, [97]⟩] ∧ ∃ o, signData c87Mac [5] r = .ok o ∧ verifyData c87Mac [5] o = .ok false :=
  ⟨by decide +kernel, ok? { data := {} } (signData c87Mac [5] (ok? { data := {} } (receive {} [6, 19, 7, 3, 8, 1, 97, 20, 0, 21, 253, 0, 1, 120, 22, 3, 27, 1, 0, 23, 0]))),
    by decide +kernel, by decide +kernel⟩

/-- The kind of signature that a Data packet claims, and the key that it names, are not checked: a packet with a SHA-256 digest
signature verifies as if it had an HMAC signature. -/
theorem C87_kind_not_checked :
    let o := ok? { data := {} } (signData c87Mac [5] { data := { c87Data with signature := { info := .digest } } })
    o.data.signature.info = .digest ∧ verifyData c87Mac [5] o = .ok true := ⟨by decide +kernel, by decide +kernel⟩

/-- Verifying an Interest with less than two components raises. -/
theorem C87_short_name (key : Bytes) (rnd : Nat → UInt8) (o : InterestObj) (h : o.interest.name.length < 2) :
    ∃ e, verifyInterest mac key rnd o = .error e := by
  have h1 : ∃ e, pyIndex o.interest.name (-2) = .error e := by
    generalize o.interest.name = n at h
    match n, h with
    | [], _ => exact ⟨_, rfl⟩
    | [_], _ => exact ⟨_, rfl⟩
    | _ :: _ :: _, h => exact absurd h (by simp)
  obtain ⟨e, h1⟩ := h1
  refine ⟨e, ?_⟩
  unfold verifyInterest Validator.interestSignature
  rw [h1]
  rfl

end PyNDN.HmacSign
