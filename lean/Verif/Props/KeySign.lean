import Verif.Lemmas.KeyExample
import Verif.Props.Interest
import Verif.Props.Match
/-
C65: what a KeyChain signs can be verified.
-/
namespace PyNDN
namespace KeyChain
open PSync (dictGet dictSet dictDel dictGet_none dictGet_some)
open Spec
open Spec.KeyChain

variable {P : Params} {strict : Bool} {s : KC}

theorem disciplined_snoc {ops : List Op} {op : Op} (h : Disciplined strict P (ops ++ [op])) : Disciplined strict P ops ∧ Proper strict P (run P ops) op :=
  ⟨fun a o b hab => h a o (b ++ [op]) (by rw [hab]; simp), h ops op [] rfl⟩

theorem out_data {α : Type} {m : K α} {f : α → Out} {o : Out} (h : (K.out m f s).1 = .ok o) : ∃ a, (m s).1 = .ok a ∧ o = f a ∧ (K.out m f s).2 = (m s).2 := by
  unfold K.out at *
  rw [bind_run] at *
  cases hm : m s with
  | mk r s' =>
    rw [hm] at h
    cases r with
    | error e => nomatch h
    | ok a => cases h; exact ⟨a, rfl, rfl, rfl⟩

theorem out_ok {α : Type} {m : K α} {f : α → Out} {a : α} (h : (m s).1 = .ok a) : (K.out m f s).1 = .ok (f a) ∧ (K.out m f s).2 = (m s).2 := by
  unfold K.out
  rw [bind_run]
  cases hm : m s with
  | mk r s' =>
    rw [hm] at h
    cases h
    exact ⟨rfl, rfl⟩

theorem After.ok {σ α : Type} {m : M σ α} {s : σ} {a : α} {Q : Except KErr α → σ → Prop} (h : After m s Q) (e : (m s).1 = .ok a) : Q (.ok a) (m s).2 := by
  unfold After at h; rw [e] at h; exact h

/-- The signature verifies with each certificate of the key, if the same bytes are verified. -/
theorem names_key {info : SigningInfo} {k : Name} {bits : Bytes} {si si' : SigInfo} (h : SignedWith P info k bits si) (hs : SameSigInfo si si') : NamesKey P info k bits si' := by
  rcases h with ⟨h1, rfl⟩ | ⟨h1, rfl⟩
  · cases si' <;> try exact hs.elim
    obtain ⟨⟨q1, q2, _⟩, rfl⟩ := hs
    exact ⟨_, q1.symm, (q2 rfl).symm, Or.inl ⟨h1, rfl⟩⟩
  · cases si' <;> try exact hs.elim
    obtain ⟨⟨q1, q2, _⟩, rfl⟩ := hs
    exact ⟨_, q1.symm, (q2 rfl).symm, Or.inr ⟨h1, rfl⟩⟩

theorem some_of_getD {o : Option Bytes} {v : Bytes} (h : o.getD [] = v) (hv : v ≠ []) : o = some v := by
  cases o with
  | none => exact absurd h.symm hv
  | some x => exact congrArg some h

theorem tlv_inj' {t : Nat} {a b : Bytes} (h : tlv t a = tlv t b) : a = b := by
  have hl := congrArg List.length h
  rw [tlv_length, tlv_length, varNumberBytes_spec, varNumberBytes_spec, varNumberBytes_spec] at hl
  have hlen : ∀ n, (varNum n).length = varNumSize n := by
    intro n
    unfold varNum varNumSize
    split
    · simp [be]
    · split
      · simp [be]
      · split <;> simp [be]
  rw [hlen, hlen, hlen] at hl
  have : a.length = b.length := by
    generalize varNumSize t = z at hl
    unfold varNumSize at hl
    generalize a.length = x at *
    generalize b.length = y at *
    split at hl <;> split at hl <;> (try split at hl) <;> (try split at hl) <;> (try split at hl) <;> (try split at hl) <;> omega
  unfold tlv at h
  rw [this] at h
  exact List.append_cancel_left h

/-- Who receives a signed packet. -/
theorem signed_received (S : Sound P) (hs : Coh P strict s) {d d' : Data} {info : SigningInfo} {random : Nat} (hsd0 : SignedData P strict s d info random d') (hok : DataOk d') :
    ∃ wire b e, encodeData d' = .ok (wire, b, e) ∧
      (wire.length < 2 ^ 64 → ∀ old extra, ∃ r, decodeData old (wire ++ extra) = .ok (r, b, e) ∧ SameData d' r ∧
        ((ByDigest s info.signer ∧ r.signature.info = .digest ∧ r.signature.signature.getD [] = P.sha256 (slice wire b e)) ∨
        ∃ k bits, Chosen strict s info.signer k ∧ dictGet k s.store.keys = some bits ∧ NamesKey P info k bits r.signature.info ∧
          ∀ (V : Validator.Cfg) (cert : Validator.SData), V.verify = P.verify → cert.data.content = some bits →
            Validator.verifyData V { data := r, signed := .ok (slice wire b e) } cert = .ok true)) := by
  obtain ⟨hsame, ⟨k, hprep, w0, b0, e0, henc0, hsig⟩, wire, b, e, henc⟩ := hsd0
  refine ⟨wire, b, e, henc, fun hsize old extra => ?_⟩
  obtain ⟨r, hr, hsd⟩ := C22_roundtrip d' old hok wire b e henc hsize extra
  refine ⟨r, hr, hsd, ?_⟩
  have hslice : signedPortion w0 b0 e0 = slice wire b e := by
    obtain ⟨w1, b1, e1, si1, q1, _, q2, q3⟩ := C22_encoding d' hok
    rw [henc] at q1
    cases q1
    have hok0 : DataOk { d with signature := { info := d'.signature.info } } := by
      obtain ⟨a1, a2, a3⟩ := hok
      rw [hsame] at a1 a2
      exact ⟨a1, a2, a3⟩
    obtain ⟨w2, b2, e2, si2, p1, _, p2, p3⟩ := C22_encoding _ hok0
    rw [henc0] at p1
    cases p1
    have : si2 = si1 := by
      have p3' : encodeSignatureInfo d'.signature.info [] = .ok (tlv 22 si2) := p3
      rw [q3] at p3'
      injection p3' with p3'
      exact (tlv_inj' p3').symm
    subst this
    rw [q2, hsame]
    exact p2
  rw [hslice] at hsig
  obtain ⟨_, _, _, hsi, hsv⟩ := hsd
  rw [hsig] at hsv
  rcases hprep with ⟨p1, rfl, p3⟩ | ⟨p, p1, p2, p3, p4⟩
  · refine Or.inl ⟨p1, ?_, ?_⟩
    · rw [p3] at hsi
      cases hri : r.signature.info <;> rw [hri] at hsi <;> first | rfl | exact hsi.elim
    · rw [← hsv]
      unfold SignatureOf
      rw [if_pos rfl]
      rfl
  · have hne : k ≠ digestIdentity := by
      rintro rfl
      have := (hs.cons.key _ _ p3).1
      rw [digestIdentity_not_key] at this
      nomatch this
    have hsig' : r.signature.signature = some (P.sign p random (slice wire b e)) := by
      apply some_of_getD _ (S.signature _ _ _)
      rw [← hsv]
      unfold SignatureOf
      rw [if_neg hne, p2]
      rfl
    refine Or.inr ⟨k, _, p1, p3, names_key p4 hsi, fun V cert hV hc => ?_⟩
    unfold Validator.verifyData
    rw [hc, if_neg]
    · show V.verify (slice wire b e) r.signature.signature (P.publicKey p) = .ok true
      rw [hV, hsig']
      exact S.verify _ _ _
    · show (P.publicKey p).length ≠ 0
      exact fun hh => S.nonempty p (List.length_eq_zero_iff.1 hh)

/-- C65: what `sign(data)` returns is the packet with a new signature.  Who receives it can check the signature: it is a digest of
the signed portion, if this was asked for, or there is no default identity; or it names the key that was asked for, and verifies
with each certificate that has the public key of this key. -/
theorem C65_data (P : Params) (S : Sound P) (strict : Bool) (ops : List Op) (d d' : Data) (info : SigningInfo) (random : Nat)
    (h : Disciplined strict P (ops ++ [.sign d info random])) (ho : (perform P (.sign d info random) (run P ops)).1 = .ok (.data d'))
    (hok : DataOk d') :
    d' = { d with signature := d'.signature } ∧
    ∃ wire b e, encodeData d' = .ok (wire, b, e) ∧
      (wire.length < 2 ^ 64 → ∀ old extra, ∃ r, decodeData old (wire ++ extra) = .ok (r, b, e) ∧ SameData d' r ∧
        ((ByDigest (run P ops) info.signer ∧ r.signature.info = .digest ∧ r.signature.signature.getD [] = P.sha256 (slice wire b e)) ∨
        ∃ k bits, Chosen strict (run P ops) info.signer k ∧ dictGet k (run P ops).store.keys = some bits ∧ NamesKey P info k bits r.signature.info ∧
          ∀ (V : Validator.Cfg) (cert : Validator.SData), V.verify = P.verify → cert.data.content = some bits →
            Validator.verifyData V { data := r, signed := .ok (slice wire b e) } cert = .ok true)) := by
  obtain ⟨hd, hp⟩ := disciplined_snoc h
  have hs := coh_run S ops hd
  obtain ⟨x, hx, e, _⟩ := out_data ho
  cases e
  obtain ⟨_, _, hsd⟩ := (signData_spec S hs d info random hp).ok hx
  exact ⟨hsd.same, signed_received S hs hsd hok⟩

theorem flat_mem {x : Nat × Bytes} : ∀ {l : List (Nat × Bytes)}, x ∈ l → x.2.length ≤ (flat l).length
  | y :: l, h => by
    have e : (flat (y :: l)).length = (tlv y.1 y.2).length + (flat l).length := by
      rw [show y :: l = [y] ++ l from rfl, flat_append, List.length_append]
      rw [show [y] = [(y.1, y.2)] from rfl, flat_one]
    rcases List.mem_cons.1 h with rfl | h
    · have := tlv_length x.1 x.2
      omega
    · have := flat_mem h
      omega

/-- An Interest that is encoded and decoded has the same name and the same signed portion, all components of the name but the last. -/
theorem interest_received (i : Interest) (h : InterestOk i) (rnd : Nat → UInt8) :
    ∃ wire b e, encodeInterest i rnd = .ok (wire, b, e) ∧ slice wire b e = flat (nameFields i.name.dropLast) ∧
      (flat (nameFields i.name)).length ≤ wire.length ∧ (wire.length < 2 ^ 64 → ∀ old extra, ∃ r, decodeInterest old (wire ++ extra) = .ok (r, b, e) ∧ r.name = i.name) := by
  have hlen : ∀ (wire : Bytes) (l : List (Nat × Bytes)), wire = tlv 5 (flat l) → (7, flat (nameFields i.name)) ∈ l → (flat (nameFields i.name)).length ≤ wire.length := by
    intro wire l hw hm
    have h1 := flat_mem hm
    have h2 := tlv_length 5 (flat l)
    rw [hw]
    have h3 : (flat (nameFields i.name)).length ≤ (flat l).length := h1
    omega
  by_cases hp : i.applicationParameters.getD [] = []
  · obtain ⟨wire, b, e, sent, link, h1, _, _, hw, h2⟩ := C20_encoding i h rnd hp
    refine ⟨wire, b, e, h1, h2, hlen _ _ hw (by unfold interestV02Fields; simp), fun hsize old extra => ?_⟩
    obtain ⟨r, hr, hs, _⟩ := C20_roundtrip_partial i old h rnd hp wire b e h1 hsize extra
    exact ⟨r, hr, hs.name.symm⟩
  · obtain ⟨wire, b, e, sent, h1, _, hw, h2⟩ := C21_encoding i h rnd hp
    refine ⟨wire, b, e, h1, h2, hlen _ _ hw (by unfold interestV03Fields; simp), fun hsize old extra => ?_⟩
    by_cases hv : i.canBePrefix = true ∨ i.mustBeFresh = true ∨ i.forwardingHint ≠ []
    · obtain ⟨r, hr, hn, _⟩ := C21_roundtrip_partial i old h rnd hp hv wire b e h1 hsize extra
      exact ⟨r, hr, hn⟩
    · have hv' : i.canBePrefix = false ∧ i.mustBeFresh = false ∧ i.forwardingHint = [] := by
        refine ⟨?_, ?_, ?_⟩
        · cases hc : i.canBePrefix with
          | false => rfl
          | true => exact absurd (Or.inl hc) hv
        · cases hc : i.mustBeFresh with
          | false => rfl
          | true => exact absurd (Or.inr (Or.inl hc)) hv
        · cases hc : i.forwardingHint with
          | nil => rfl
          | cons x l => exact absurd (Or.inr (Or.inr (by rw [hc]; exact fun h => nomatch h))) hv
      obtain ⟨r, hr, _, _, hn⟩ := C21_parameters_lost i old h rnd hp hv' wire b e h1 hsize extra
      exact ⟨r, hr, hn⟩

theorem signature_of_name {n : Name} {si : SigInfo} {encoded sig : Bytes} (hok : SigInfoOk si) (he : encodeSignatureInfo si [] = .ok encoded) (hl : encoded.length < 2 ^ 64) (hl2 : sig.length < 2 ^ 64) :
    ∃ si', Validator.interestSignature (n ++ [Component.generic encoded] ++ [Component.generic (writeBlobTlv 23 (some sig) [])]) = .ok { info := si', signature := some sig } ∧ SameSigInfo si si' := by
  obtain ⟨v, h1, h2⟩ := signatureInfo_roundtrip si hok
  rw [h1] at he
  injection he with he
  have he' : encoded = tlv 22 v := by rw [← he, flat_one]; simp
  have hv : v.length < 2 ^ 64 := by
    have := tlv_length 22 v
    rw [he'] at hl
    omega
  have hat := At.start (t := 22) (v := v) (rest := []) (by omega) hv
  obtain ⟨si', o, d1, d2, d3⟩ := h2 _ _ _ _ hat
  have hat2 := At.start (t := 23) (v := sig) (rest := []) (by omega) hl2
  obtain ⟨o2, d4, d5⟩ := readBlobTlv_At hat2
  refine ⟨si', ?_, d2⟩
  unfold Validator.interestSignature
  have e1 : pyIndex (n ++ [Component.generic encoded] ++ [Component.generic (writeBlobTlv 23 (some sig) [])]) (-2) = .ok (Component.generic encoded) := by
    have := Validator.pyIndex_neg (n ++ [Component.generic encoded] ++ [Component.generic (writeBlobTlv 23 (some sig) [])]) 2 (by omega) (by simp)
    rw [show (-2 : Int) = -((2 : Nat) : Int) from rfl, this]
    simp
  rw [e1, pyIndex_last]
  show Validator.decodeSignatureInfoAndValue encoded (writeBlobTlv 23 (some sig) []) = _
  unfold Validator.decodeSignatureInfoAndValue
  have e2 : writeBlobTlv 23 (some sig) [] = tlv 23 sig := by rw [blobTlv_flat, flat_one]; simp
  rw [e2, he']
  unfold runDec
  rw [List.append_nil] at d1 d4
  rw [d1, d4]
  rfl

/-- C65: what `sign(interest)` returns is the Interest with two more components in its name.  Who receives it can check the
signature in them: it is a digest of the signed portion, if this was asked for, or there is no default identity; or it names the
key that was asked for, and verifies with each certificate that has the public key of this key. -/
theorem C65_interest (P : Params) (S : Sound P) (strict : Bool) (ops : List Op) (i i' : Interest) (info : SigningInfo) (random : Nat) (nonce rnd : Nat → UInt8)
    (h : Disciplined strict P (ops ++ [.signInterest i info random nonce])) (ho : (perform P (.signInterest i info random nonce) (run P ops)).1 = .ok (.interest i'))
    (hok : InterestOk i) (hv : ValidityOk (periodOf info)) (hkeys : ∀ k, Chosen strict (run P ops) info.signer k → CanonicalName k) :
    (∃ x y, i' = { i with name := i.name ++ [x] ++ [y], nonce := none }) ∧
    ∃ wire b e, encodeInterest i' rnd = .ok (wire, b, e) ∧
      (wire.length < 2 ^ 64 → ∀ old extra, ∃ r, decodeInterest old (wire ++ extra) = .ok (r, b, e) ∧ r.name = i'.name ∧
        ∃ sig, Validator.interestSignature r.name = .ok sig ∧
        ((ByDigest (run P ops) info.signer ∧ sig.info = .digest ∧ sig.signature = some (P.sha256 (slice wire b e))) ∨
        ∃ k bits, Chosen strict (run P ops) info.signer k ∧ dictGet k (run P ops).store.keys = some bits ∧ NamesKey P info k bits sig.info ∧
          ∀ (V : Validator.Cfg) (cert : Validator.SData), V.verify = P.verify → cert.data.content = some bits →
            Validator.verifyInterest V r (.ok (slice wire b e)) cert = .ok true)) := by
  obtain ⟨hd, hp⟩ := disciplined_snoc h
  have hs := coh_run S ops hd
  obtain ⟨x, hx, e, _⟩ := out_data ho
  cases e
  obtain ⟨_, _, ⟨k, si, encoded, w0, b0, e0, hprep, henc, henc0, hi'⟩⟩ := (signInterest_spec S hs i info random nonce hp).ok hx
  have hcan : ∀ x y, CanonicalName (i.name ++ [Component.generic x] ++ [Component.generic y]) := by
    intro x y c hc
    rcases List.mem_append.1 hc with hc | hc
    · rcases List.mem_append.1 hc with hc | hc
      · exact hok.name c hc
      · rw [List.mem_singleton.1 hc]; trivial
    · rw [List.mem_singleton.1 hc]; trivial
  have hok' : ∀ x y, InterestOk { i with name := i.name ++ [Component.generic x] ++ [Component.generic y], nonce := none } := fun x y =>
    ⟨hcan x y, hok.minSuffix, hok.maxSuffix, hok.keyLocator, hok.exclude, hok.childSelector, hok.lifetime, hok.forwardingHint, hok.link, hok.selectedDelegation, hok.exclusive⟩
  have hsiok : SigInfoOk si := by
    rcases hprep with ⟨_, _, rfl⟩ | ⟨p, p1, _, _, p4⟩
    · trivial
    · rcases p4 with ⟨_, rfl⟩ | ⟨_, rfl⟩
      · exact ⟨Or.inr (Or.inl ⟨rfl, hkeys k p1⟩), hv⟩
      · exact ⟨Or.inr (Or.inl ⟨rfl, hkeys k p1⟩), hv⟩
  generalize hsv : SignatureOf P (run P ops) k random (signedPortion w0 b0 e0) = sv at hi'
  obtain ⟨wire, b, e, h1, h2, hwl, h3⟩ := interest_received i' (by rw [hi']; exact hok' _ _) rnd
  refine ⟨⟨_, _, hi'⟩, wire, b, e, h1, fun hsize old extra => ?_⟩
  obtain ⟨r, hr, hrn⟩ := h3 hsize old extra
  refine ⟨r, hr, hrn, ?_⟩
  have hslice : signedPortion w0 b0 e0 = slice wire b e := by
    obtain ⟨w1, b1, e1, q1, q2, _, _⟩ := interest_received _ (hok' encoded []) nonce
    rw [henc0] at q1
    cases q1
    rw [h2, hi']
    show slice w0 b0 e0 = _
    rw [q2]
    show flat (nameFields (i.name ++ [Component.generic encoded] ++ [_]).dropLast) = flat (nameFields (i.name ++ [Component.generic encoded] ++ [_]).dropLast)
    rw [List.dropLast_concat, List.dropLast_concat]
  rw [hslice] at hsv
  -- the components are parts of the packet
  have hlen : ∀ c ∈ i'.name, c.value.length < 2 ^ 64 := by
    intro c hc
    have h4 : (key c).2.length ≤ (flat (nameFields i'.name)).length := flat_mem (List.mem_map.2 ⟨c, hc, rfl⟩)
    have h5 : (key c).2 = c.value := rfl
    rw [h5] at h4
    omega
  have hl1 : encoded.length < 2 ^ 64 := hlen (Component.generic encoded) (by rw [hi']; simp)
  have hl2 : sv.length < 2 ^ 64 := by
    have := hlen (Component.generic (writeBlobTlv 23 (some sv) [])) (by rw [hi']; simp)
    have e2 : writeBlobTlv 23 (some sv) [] = tlv 23 sv := by rw [blobTlv_flat, flat_one]; simp
    rw [e2] at this
    have t := tlv_length 23 sv
    have : (tlv 23 sv).length < 2 ^ 64 := this
    omega
  obtain ⟨si', g1, g2⟩ := signature_of_name (n := i.name) hsiok henc hl1 hl2
  have hname : r.name = i.name ++ [Component.generic encoded] ++ [Component.generic (writeBlobTlv 23 (some sv) [])] := by rw [hrn, hi']
  refine ⟨_, by rw [hname]; exact g1, ?_⟩
  rcases hprep with ⟨p1, rfl, rfl⟩ | ⟨p, p1, p2, p3, p4⟩
  · refine Or.inl ⟨p1, ?_, ?_⟩
    · cases si' <;> first | rfl | exact g2.elim
    · rw [← hsv]
      unfold SignatureOf
      rw [if_pos rfl]
  · have hne : k ≠ digestIdentity := by
      rintro rfl
      have := (hs.cons.key _ _ p3).1
      rw [digestIdentity_not_key] at this
      nomatch this
    have hsig' : sv = P.sign p random (slice wire b e) := by
      rw [← hsv]
      unfold SignatureOf
      rw [if_neg hne, p2]
      rfl
    refine Or.inr ⟨k, _, p1, p3, names_key p4 g2, fun V cert hV hc => ?_⟩
    unfold Validator.verifyInterest
    rw [hc, if_neg, if_neg, hname, g1]
    · show V.verify (slice wire b e) (some sv) (P.publicKey p) = .ok true
      rw [hV, hsig']
      exact S.verify _ _ _
    · rw [hname]; simp
    · show (P.publicKey p).length ≠ 0
      exact fun hh => S.nonempty p (List.length_eq_zero_iff.1 hh)

theorem prepared_ok {info : SigningInfo} {k : Name} {si : SigInfo} (h : CanSign strict s info) (hp : Prepared P strict s info k si) : SigInfoOk si := by
  rcases hp with ⟨_, _, rfl⟩ | ⟨p, p1, _, _, p4⟩
  · trivial
  · rcases p4 with ⟨_, rfl⟩ | ⟨_, rfl⟩
    · exact ⟨Or.inr (Or.inl ⟨rfl, h.2.2.2 k p1⟩), h.2.2.1⟩
    · exact ⟨Or.inr (Or.inl ⟨rfl, h.2.2.2 k p1⟩), h.2.2.1⟩

/-- C65: `sign(data)` and `sign(interest)` return, if the PIB has what is asked for and the packet can be encoded; what is signed can
be encoded. -/
theorem C65_signs (P : Params) (S : Sound P) (strict : Bool) (ops : List Op) (info : SigningInfo) (random : Nat) (hc : CanSign strict (run P ops) info) :
    (∀ d, Disciplined strict P (ops ++ [.sign d info random]) → CanonicalName d.name → MetaInfoOk d.metaInfo →
      ∃ d', (perform P (.sign d info random) (run P ops)).1 = .ok (.data d') ∧ DataOk d') ∧
    (∀ i nonce, Disciplined strict P (ops ++ [.signInterest i info random nonce]) → InterestOk i →
      ∃ i', (perform P (.signInterest i info random nonce) (run P ops)).1 = .ok (.interest i')) := by
  constructor
  · intro d h hn hm
    obtain ⟨hd, hp⟩ := disciplined_snoc h
    have hs := coh_run S ops hd
    have hspec := signData_spec S hs d info random hp
    unfold After at hspec
    cases hx : (signData P d info random (run P ops)).1 with
    | ok d' =>
      rw [hx] at hspec
      obtain ⟨_, _, hsame, ⟨k, hprep, _⟩, _⟩ := hspec
      refine ⟨d', (out_ok hx).1, ?_, ?_, prepared_ok hc hprep⟩
      · rw [hsame]; exact hn
      · rw [hsame]; exact hm
    | error e =>
      rw [hx] at hspec
      obtain ⟨_, _, h1 | h1 | ⟨k, si, h1, h2⟩⟩ := hspec
      · rw [hc.2.1] at h1; nomatch h1
      · exact absurd hc.1 h1
      · exact absurd ⟨hn, hm, prepared_ok hc h1⟩ h2
  · intro i nonce h hi
    obtain ⟨hd, hp⟩ := disciplined_snoc h
    have hs := coh_run S ops hd
    have hspec := signInterest_spec S hs i info random nonce hp
    unfold After at hspec
    cases hx : (signInterest P i info random nonce (run P ops)).1 with
    | ok i' => exact ⟨i', (out_ok hx).1⟩
    | error e =>
      rw [hx] at hspec
      obtain ⟨_, _, h1 | h1 | ⟨k, si, h1, h2⟩⟩ := hspec
      · rw [hc.2.1] at h1; nomatch h1
      · exact absurd hc.1 h1
      · obtain ⟨v, q1, _⟩ := signatureInfo_roundtrip si (prepared_ok hc h1)
        rcases h2 with ⟨e, h2⟩ | ⟨encoded, e, h2, h3⟩
        · rw [q1] at h2; nomatch h2
        · obtain ⟨w1, b1, e1, r1, _⟩ := interest_received { i with name := i.name ++ [Component.generic encoded] ++ [Component.generic []], nonce := none } ⟨by
              intro c hcm
              rcases List.mem_append.1 hcm with hcm | hcm
              · rcases List.mem_append.1 hcm with hcm | hcm
                · exact hi.name c hcm
                · rw [List.mem_singleton.1 hcm]; trivial
              · rw [List.mem_singleton.1 hcm]; trivial,
            hi.minSuffix, hi.maxSuffix, hi.keyLocator, hi.exclude, hi.childSelector, hi.lifetime, hi.forwardingHint, hi.link, hi.selectedDelegation, hi.exclusive⟩ nonce
          rw [h3] at r1
          nomatch r1

/-- A packet that is signed with the default key of the default identity, in the history `exOps`. -/
def exData : Data := { name := exB, content := some [1, 2] }

theorem exCanSign : CanSign true (run exP exOps) {} := by
  refine ⟨fun n h => ?_, rfl, (fun _ _ h => nomatch h), fun k h => ?_⟩
  · have e : (run exP exOps).store.defaultIdentity = some exA := by decide +kernel
    rw [e] at h
    cases h
    decide +kernel
  · obtain ⟨n, h1, _, h2⟩ := h
    have e : (run exP exOps).store.defaultIdentity = some exA := by decide +kernel
    rw [e] at h1
    cases h1
    have e2 : dictGet exA (run exP exOps).store.defaultKeys = some exKey := by decide +kernel
    rw [h2 rfl] at e2
    cases e2
    intro c hc
    simp only [exKey, constructKeyName, exA, List.cons_append, List.nil_append, List.mem_cons, List.not_mem_nil, or_false] at hc
    rcases hc with rfl | rfl | rfl <;> trivial

/-- The hypotheses of C65_signs and C65_data hold for it. -/
example : ∃ d', (perform exP (.sign exData {} 0) (run exP exOps)).1 = .ok (.data d') ∧ DataOk d' ∧ Disciplined true exP (exOps ++ [.sign exData {} 0]) := by
  have hd : Disciplined true exP (exOps ++ [.sign exData {} 0]) := disciplined_add exDisciplined trivial
  obtain ⟨d', h1, h2⟩ := (C65_signs exP exSound true exOps {} 0 exCanSign).1 exData hd (by
    intro c hc
    rw [List.mem_singleton.1 hc]
    trivial) ⟨by decide, by decide, by decide⟩
  exact ⟨d', h1, h2, hd⟩

end KeyChain
end PyNDN
