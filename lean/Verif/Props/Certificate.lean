import Verif.Lemmas.Certificate
/-
C90: certificates of version 1 are encoded in their format, and what was encoded is decoded.
-/
namespace PyNDN.Certificate
open Der Spec.Der Spec.Certificate

/-- What `decode` of a well-formed Content leaves: the descriptions and extensions are added to those that are there. -/
theorem decode_spec (L : Lib) {f : Facts} {t : Tree} {b post : Bytes} (c : Cert) (ht : IsCertificate f t) (hk : Known t) (hd : IsDer t b)
    (hds : ∀ d ∈ f.descriptions, OidOk d.1 ∧ ∀ x ∈ d.2, x < 128) (hes : ∀ e ∈ f.extensions, OidOk e.1)
    (hkey : IsKeyOf ec f.key ∨ IsKeyOf rsa f.key ∧ ∀ k, IsDer f.key k → L.load k = true) (hc : c.content = some (b ++ post)) :
    ∃ k, IsDer f.key k ∧ decode L c = ({ c with
      notBefore := .time (1000 * f.notBefore), notAfter := .time (1000 * f.notAfter),
      subjects := c.subjects ++ f.descriptions.map (fun d => (.oid (d.1.map Int.ofNat), d.2)),
      publicKey := some k,
      extensions := c.extensions ++ f.extensions.map (fun e => ⟨.oid (e.1.map Int.ofNat), .bool e.2.1, e.2.2⟩) }, none) := by
  obtain ⟨root, h1, h2, hg⟩ := parse_isDer hk hd [] post
  obtain ⟨nb, na, ds, es, hnb, hna, hD, hE, rfl⟩ := ht
  obtain ⟨hd0, size, ch, cs, rfl, hcs⟩ := of_seq h2
  obtain ⟨v, ns1, rfl, hv, hns1⟩ := of_cons hcs
  obtain ⟨s, ns2, rfl, hs, hns2⟩ := of_cons hns1
  obtain ⟨kn, ns, rfl, hkn, hns⟩ := of_cons hns2
  obtain ⟨hdv, sizev, chv, cv, rfl, hcv⟩ := of_seq hv
  obtain ⟨v1, cv', rfl, hv1, hcv'⟩ := of_cons hcv
  obtain ⟨v2, cv'', rfl, hv2, _⟩ := of_cons hcv'
  obtain ⟨hd1, rfl⟩ := of_prim hv1
  obtain ⟨hd2, rfl⟩ := of_prim hv2
  obtain ⟨hds', sizes', chs, css, rfl, hcss⟩ := of_seq hs
  have kg : Good kn := hg.2.2.2.1
  have kk : Known f.key := hk.1.2.2.1
  have ek : kn.encode.1 = der f.key := by rw [(encode_spec kn kg).1, hkn]
  refine ⟨kn.encode.1, by rw [ek]; exact isDer_der _ kk, ?_⟩
  have key : publicKeyError L kn.encode.1 = none := by
    rw [ek]
    refine key_ok kk (isDer_der _ kk) (hkey.imp_right fun h => ⟨h.1, h.2 _ (isDer_der _ kk)⟩)
  have a1 : ∀ rest, valAt (Node.leaf 24 hd1 nb :: rest) 0 = .ok (.time (1000 * f.notBefore)) := by
    intro rest
    show ((Node.leaf 24 hd1 nb).toVal).mapError _ = _
    rw [time_val hnb]
    rfl
  have a2 : ∀ x rest, valAt (x :: Node.leaf 24 hd2 na :: rest) 1 = .ok (.time (1000 * f.notAfter)) := by
    intro x rest
    show ((Node.leaf 24 hd2 na).toVal).mapError _ = _
    rw [time_val hna]
    rfl
  have a3 := decodeAll_spec (f := decodeSubject) (g := fun d : List Nat × Bytes => (OidValue.oid (d.1.map Int.ofNat), d.2)) (R := IsDescription)
    css f.descriptions (fun d hd n h => decode_subject (hds d hd).1 (hds d hd).2 h) c.subjects (by rw [hcss]; exact hD)
  have h1 : parse (b ++ post) = .ok (.seq hd0 size ch (.seq hdv sizev chv (.leaf 24 hd1 nb :: .leaf 24 hd2 na :: cv'') :: .seq hds' sizes' chs css :: kn :: ns)) := h1
  unfold decode
  rw [hc]
  dsimp only
  rw [h1]
  simp only [Node.getChildren, getSequence, Except.mapError, bind, Except.bind, List.getElem?_cons_zero, List.getElem?_cons_succ, pure, Except.pure]
  rw [a1]
  simp only
  rw [a2]
  simp only
  rw [a3]
  simp only [nth, List.getElem?_cons_zero, List.getElem?_cons_succ]
  rw [key]
  simp only
  by_cases hf : f.extensions = []
  · rw [if_pos hf] at hns
    cases of_nil hns
    rw [if_neg (by simp), hf]
    simp
  · rw [if_neg hf] at hns
    obtain ⟨x, xs, rfl, hx, _⟩ := of_cons hns
    obtain ⟨hdx, sizex, chx, cx, rfl, hcx⟩ := of_seq hx
    have a4 := decodeAll_spec (f := decodeExtension)
      (g := fun e : List Nat × Bool × Bytes => (⟨.oid (e.1.map Int.ofNat), .bool e.2.1, e.2.2⟩ : Extension)) (R := IsExtension)
      cx f.extensions (fun e he n h => decode_extension (hes e he) h) c.extensions (by rw [hcx]; exact hE)
    rw [if_pos (by simp)]
    simp only [List.getElem?_cons_zero]
    rw [a4]

/-- C90: a Data packet whose Content is a certificate, in any DER encoding of its facts and with any bytes after it, is decoded to these
facts: the times in milliseconds, the descriptions of ASCII text, the bytes of the key, and the extensions. -/
theorem C90_decode (L : Lib) {f : Facts} {t : Tree} {b post : Bytes} (isKey : Bool) (ht : IsCertificate f t) (hk : Known t) (hd : IsDer t b)
    (hds : ∀ d ∈ f.descriptions, OidOk d.1 ∧ ∀ x ∈ d.2, x < 128) (hes : ∀ e ∈ f.extensions, OidOk e.1)
    (hkey : IsKeyOf ec f.key ∨ IsKeyOf rsa f.key ∧ ∀ k, IsDer f.key k → L.load k = true) :
    ∃ c, ofData L (some (b ++ post)) isKey = .ok c ∧ Says c f ∧ c.content = some (b ++ post) ∧ c.isKey = isKey := by
  obtain ⟨k, h1, h2⟩ := decode_spec L { empty with content := some (b ++ post), isKey := isKey } ht hk hd hds hes hkey rfl
  have h3 : ofData L (some (b ++ post)) isKey = .ok (decode L { empty with content := some (b ++ post), isKey := isKey }).1 := by
    unfold ofData
    rw [h2]
  refine ⟨_, h3, ?_⟩
  rw [h2]
  exact ⟨⟨rfl, rfl, rfl, rfl, k, rfl, h1⟩, rfl, rfl⟩

/-- C90: `encode` puts the DER encoding of the facts into the Content, sets the type KEY, and changes nothing else: the second of the times,
the descriptions and the extensions in their order, and the public key. -/
theorem C90_encode {c : Cert} {f : Facts} {nb na : Int} {k : Bytes} (h1 : c.notBefore = .time nb) (h2 : c.notAfter = .time na)
    (r1 : -30610224000000 ≤ nb ∧ nb < 253402300800000) (r2 : -30610224000000 ≤ na ∧ na < 253402300800000)
    (f1 : f.notBefore = nb / 1000) (f2 : f.notAfter = na / 1000)
    (hs : c.subjects = f.descriptions.map (fun d => (.oid (d.1.map Int.ofNat), d.2))) (hso : ∀ d ∈ f.descriptions, OidOk d.1)
    (he : c.extensions = f.extensions.map (fun e => ⟨.oid (e.1.map Int.ofNat), .bool e.2.1, e.2.2⟩)) (heo : ∀ e ∈ f.extensions, OidOk e.1)
    (hk : c.publicKey = some k) (hd : IsDer f.key k) (hkn : Known f.key) :
    ∃ t b, IsCertificate f t ∧ encode c = .ok { c with content := some b, isKey := true } ∧
      (b.length < 256 ^ 126 → Known t ∧ IsDer t b) := by
  obtain ⟨cb, g1, i1⟩ := time_ok nb r1.1 r1.2
  obtain ⟨ca, g2, i2⟩ := time_ok na r2.1 r2.2
  obtain ⟨v1, w1⟩ := add_spec good_empty.1 good_empty.2 (good_prim 24 cb)
  obtain ⟨v2, w2⟩ := add_spec v1 w1 (good_prim 24 ca)
  obtain ⟨sn, ds, s1, s2, s3, s4⟩ := addAll_spec (toDer := subjectNode) (g := fun d : List Nat × Bytes => (OidValue.oid (d.1.map Int.ofNat), d.2))
    (R := IsDescription) f.descriptions (fun d hd => subject_node d (hso d hd)) _ _ good_empty.1 good_empty.2
  obtain ⟨en, es, e1, e2, e3, e4⟩ := addAll_spec (toDer := extensionNode)
    (g := fun e : List Nat × Bool × Bytes => (⟨.oid (e.1.map Int.ofNat), .bool e.2.1, e.2.2⟩ : Extension))
    (R := IsExtension) f.extensions (fun e he => extension_node e (heo e he)) _ _ good_empty.1 good_empty.2
  obtain ⟨kn, k1, k2, k3⟩ := parse_isDer hkn hd [] []
  have k1 : parse k = .ok kn := by
    rw [List.append_nil] at k1
    exact k1
  obtain ⟨x1, y1⟩ := add_spec good_empty.1 good_empty.2 v2
  obtain ⟨x2, y2⟩ := add_spec x1 y1 s2
  obtain ⟨x3, y3⟩ := add_spec x2 y2 k3
  obtain ⟨x4, y4⟩ := add_spec x3 y3 e2
  have tv : Taggeds [Tree.prim 24 cb, Tree.prim 24 ca] := ⟨show (24 : UInt8) ∈ tags by decide, show (24 : UInt8) ∈ tags by decide, trivial⟩
  have td : Taggeds ds := taggeds_all (fun x t h => by
    obtain ⟨o, _, rfl⟩ := h
    exact ⟨show (6 : UInt8) ∈ tags by decide, show (19 : UInt8) ∈ tags by decide, trivial⟩) s4
  have te : Taggeds es := taggeds_all (fun x t h => by
    obtain ⟨o, _, rfl⟩ := h
    exact ⟨show (6 : UInt8) ∈ tags by decide, show (1 : UInt8) ∈ tags by decide, show (4 : UInt8) ∈ tags by decide, trivial⟩) e4
  have tk : Tagged f.key := known_tagged _ hkn
  have root : ∃ root t, toDer c = .ok root ∧ Good root ∧ treeOf root = t ∧ IsCertificate f t ∧ Tagged t := by
    by_cases hf : f.extensions = []
    · refine ⟨_, _, ?_, x3, y3, ⟨cb, ca, ds, es, by rw [f1]; exact i1, by rw [f2]; exact i2, s4, e4, ?_⟩, ?_⟩
      · unfold toDer
        rw [h1, h2, hs, hk, he, hf]
        simp only [timeNode, g1, g2, s1, keyNode, k1, Except.mapError, bind, Except.bind, pure, Except.pure]
        rfl
      · rw [if_pos hf, w2, s3, k2]
        rfl
      · rw [w2, s3, k2]
        exact ⟨tv, td, tk, trivial⟩
    · refine ⟨_, _, ?_, x4, y4, ⟨cb, ca, ds, es, by rw [f1]; exact i1, by rw [f2]; exact i2, s4, e4, ?_⟩, ?_⟩
      · unfold toDer
        rw [h1, h2, hs, hk, he]
        simp only [timeNode, g1, g2, s1, e1, keyNode, k1, Except.mapError, bind, Except.bind, pure, Except.pure]
        rw [if_pos (by rw [List.length_map]; exact List.length_pos_iff.mpr hf)]
      · rw [if_neg hf, w2, s3, k2, e3]
        rfl
      · rw [w2, s3, k2, e3]
        exact ⟨tv, td, tk, te, trivial⟩
  obtain ⟨root, t, q1, q2, q3, q4, q5⟩ := root
  refine ⟨t, root.encode.1, q4, ?_, fun hl => ?_⟩
  · unfold encode
    rw [q1]
    rfl
  · rw [(encode_spec root q2).1, q3] at hl ⊢
    have hK := tagged_known t q5 hl
    exact ⟨hK, isDer_der t hK⟩

/-- C90, with a departure for text that is not ASCII: what `encode` made is decoded to the same descriptions, extensions and key, and to
the times without the fraction of the second. -/
theorem C90_round_partial (L : Lib) {c c' : Cert} {f : Facts} {nb na : Int} {k b : Bytes} (h1 : c.notBefore = .time nb) (h2 : c.notAfter = .time na)
    (r1 : -30610224000000 ≤ nb ∧ nb < 253402300800000) (r2 : -30610224000000 ≤ na ∧ na < 253402300800000)
    (f1 : f.notBefore = nb / 1000) (f2 : f.notAfter = na / 1000)
    (hs : c.subjects = f.descriptions.map (fun d => (.oid (d.1.map Int.ofNat), d.2)))
    (hso : ∀ d ∈ f.descriptions, OidOk d.1 ∧ ∀ x ∈ d.2, x < 128)
    (he : c.extensions = f.extensions.map (fun e => ⟨.oid (e.1.map Int.ofNat), .bool e.2.1, e.2.2⟩)) (heo : ∀ e ∈ f.extensions, OidOk e.1)
    (hk : c.publicKey = some k) (hd : IsDer f.key k) (hkn : Known f.key) (hkey : IsKeyOf ec f.key ∨ IsKeyOf rsa f.key ∧ L.load k = true)
    (hc : encode c = .ok c') (hb : c'.content = some b) (hl : b.length < 256 ^ 126) :
    ∃ d, ofData L c'.content c'.isKey = .ok d ∧ c'.isKey = true ∧ d = { c' with notBefore := .time (nb - nb % 1000), notAfter := .time (na - na % 1000) } := by
  obtain ⟨t, b', i1, i2, i3⟩ := C90_encode h1 h2 r1 r2 f1 f2 hs (fun d hd => (hso d hd).1) he heo hk hd hkn
  rw [hc] at i2
  cases i2
  cases hb
  obtain ⟨hK, hD⟩ := i3 hl
  have hkey' : IsKeyOf ec f.key ∨ IsKeyOf rsa f.key ∧ ∀ k, IsDer f.key k → L.load k = true := by
    refine hkey.imp_right fun h => ⟨h.1, fun k' hk' => ?_⟩
    rw [der_unique _ hkn k' hk', ← der_unique _ hkn k hd]
    exact h.2
  obtain ⟨d, j1, ⟨j2, j3, j4, j5, k', j6, j7⟩, j8, j9⟩ := C90_decode (post := []) L true i1 hK hD hso heo hkey'
  rw [List.append_nil] at j1 j8
  have e : k' = k := by rw [der_unique _ hkn k' j7, ← der_unique _ hkn k hd]
  refine ⟨d, j1, rfl, ?_⟩
  obtain ⟨dc, dk, dnb, dna, ds, dp, de⟩ := d
  dsimp only at j2 j3 j4 j5 j6 j8 j9
  subst j2 j3 j4 j5 j6 j8 j9 e
  rw [← hs, ← he, f1, f2, ← hk, show 1000 * (nb / 1000) = nb - nb % 1000 by omega, show 1000 * (na / 1000) = na - na % 1000 by omega]

end PyNDN.Certificate
