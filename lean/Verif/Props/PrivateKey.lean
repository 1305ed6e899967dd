import Verif.Lemmas.PrivateKey
/-
C72: the PKCS #8 encodings of a private key.
-/
namespace PyNDN.PrivateKey
open Der Spec.Der
open Spec.PrivateKey (IsInfo IsEncryptedInfo IsRsaKey IsPadded algorithmOf Sound)

theorem pkcs8Oid_of {a b : Nat} {rest : List Nat} {key bytes : Bytes} {t : Tree} (hb : b < 40) (h : IsInfo (a :: b :: rest) key t) (hk : Known t)
    (hd : IsDer t bytes) : pkcs8Oid bytes = .ok (.str (dotted (a :: b :: rest))) := by
  cases h with
  | @mk oid version ps attrs ho =>
    obtain ⟨n, h1, h2, h3⟩ := parse_of hk hd
    obtain ⟨cs, h4, h5, h6⟩ := children_of h2 h3
    obtain ⟨s, h7, h8, h9⟩ := sequence_of (i := 1) h5 h6 rfl
    obtain ⟨ds, h10, h11, h12⟩ := children_of h8 h9
    obtain ⟨o, h13, h14, h15⟩ := nth_of (i := 0) h11 h12 rfl
    have h16 := toVal_oid h14 h15 ho hb
    unfold pkcs8Oid
    simp only [h1, h4, h7, h10, h13, h16, bind, Except.bind]

/-- C72: a PrivateKeyInfo in DER of an RSA or EC key is loaded with this type, and one of any other algorithm is refused. -/
theorem C72_load_pkcs8 (L : Lib) {a b : Nat} {rest : List Nat} {key bytes : Bytes} {t : Tree} (hb : b < 40)
    (h : IsInfo (a :: b :: rest) key t) (hk : Known t) (hd : IsDer t bytes) :
    (∀ type, type = .rsa ∨ type = .ec → a :: b :: rest = algorithmOf type →
      (∀ k, L.load bytes = some k → loadPkcs8 L bytes none = .ok ⟨k, type⟩) ∧ (L.load bytes = none → loadPkcs8 L bytes none = .error .library)) ∧
    (a :: b :: rest ≠ Spec.PrivateKey.rsa → a :: b :: rest ≠ Spec.PrivateKey.ec → loadPkcs8 L bytes none = .error .tpm) := by
  have e := pkcs8Oid_of hb h hk hd
  unfold loadPkcs8
  simp only [e]
  refine ⟨fun type ht ha => ?_, fun h1 h2 => ?_⟩
  · rcases ht with rfl | rfl
    · have h1 : ¬ dotted (a :: b :: rest) = dotted ecOid := fun q => absurd (dotted_inj (by simp) (by decide) q) (by rw [ha]; decide)
      have h2 : dotted (a :: b :: rest) = dotted rsaOid := by rw [ha]; rfl
      rw [if_neg h1, if_pos h2]
      exact ⟨fun k hl => by simp [finish, hl], fun hl => by simp [finish, hl]⟩
    · have h2 : dotted (a :: b :: rest) = dotted ecOid := by rw [ha]; rfl
      rw [if_pos h2]
      exact ⟨fun k hl => by simp [finish, hl], fun hl => by simp [finish, hl]⟩
  · have h3 : ¬ dotted (a :: b :: rest) = dotted ecOid := fun q => h2 (dotted_inj (by simp) (by decide) q)
    have h4 : ¬ dotted (a :: b :: rest) = dotted rsaOid := fun q => h1 (dotted_inj (by simp) (by decide) q)
    rw [if_neg h3, if_neg h4]

/-- C72, with a departure for another pseudorandom function: `loadEncryptedPkcs8` of any EncryptedPrivateKeyInfo with PBES2, PBKDF2 and
Triple DES, with any salt, iterations and initial vector: it derives the key with HMAC and SHA1, decrypts, removes the padding, and loads the
PrivateKeyInfo.  The key length and the pseudorandom function are ignored. -/
theorem C72_load_encrypted_partial (L : Lib) {salt iv encrypted bytes : Bytes} {iterations : Nat} {options : List Tree} {t : Tree}
    (h : IsEncryptedInfo salt iterations options iv encrypted t) (hk : Known t) (hd : IsDer t bytes) (password : Bytes) :
    (L.pbkdf2 (.bytes salt) (.int iterations) password = none → loadEncryptedPkcs8 L bytes password = .error .library) ∧
    ∀ d, L.pbkdf2 (.bytes salt) (.int iterations) password = some d →
      (L.decrypt d (.bytes iv) (.bytes encrypted) = none ∨ L.decrypt d (.bytes iv) (.bytes encrypted) = some [] →
        loadEncryptedPkcs8 L bytes password = .error .tpm) ∧
      ∀ pkcs8 padded, L.decrypt d (.bytes iv) (.bytes encrypted) = some padded → IsPadded pkcs8 padded →
        loadEncryptedPkcs8 L bytes password = loadPkcs8 L pkcs8 none := by
  cases h with
  | @mk a b c n ha hb hc hn =>
    obtain ⟨n0, p1, p2, p3⟩ := parse_of hk hd
    obtain ⟨cs, q1, q2, q3⟩ := children_of p2 p3
    obtain ⟨al, r1, r2, r3⟩ := sequence_of (i := 0) q2 q3 rfl
    obtain ⟨ids, s1, s2, s3⟩ := children_of r2 r3
    obtain ⟨o, t1, t2, t3⟩ := nth_of (i := 0) s2 s3 rfl
    obtain ⟨pa, u1, u2, u3⟩ := nth_of (i := 1) s2 s3 rfl
    obtain ⟨ke, v1, v2, v3⟩ := nth_of (i := 1) q2 q3 rfl
    have e1 : encryptedInfo bytes = .ok (.str (dotted pbes2Oid), pa, .bytes encrypted) := by
      unfold encryptedInfo
      simp only [p1, q1, r1, s1, t1, u1, v1, toVal_oid t2 t3 ha (by omega), toVal_octets v2 v3, bind, Except.bind, pure, Except.pure]
      rfl
    obtain ⟨ps, a1, a2, a3⟩ := children_of u2 u3
    obtain ⟨de, b1, b2, b3⟩ := sequence_of (i := 0) a2 a3 rfl
    obtain ⟨ds, c1, c2, c3⟩ := children_of b2 b3
    obtain ⟨dO, d1, d2, d3⟩ := nth_of (i := 0) c2 c3 rfl
    obtain ⟨dp, f1, f2, f3⟩ := nth_of (i := 1) c2 c3 rfl
    obtain ⟨sc, g1, g2, g3⟩ := sequence_of (i := 1) a2 a3 rfl
    obtain ⟨ss, i1, i2, i3⟩ := children_of g2 g3
    obtain ⟨sO, j1, j2, j3⟩ := nth_of (i := 0) i2 i3 rfl
    obtain ⟨sp, k1, k2, k3⟩ := nth_of (i := 1) i2 i3 rfl
    have e2 : pbes2Info pa = .ok (.str (dotted pbkdf2Oid), dp, .str (dotted desOid), sp) := by
      unfold pbes2Info
      simp only [a1, b1, c1, d1, f1, g1, i1, j1, k1, toVal_oid d2 d3 hb (by omega), toVal_oid j2 j3 hc (by omega), bind, Except.bind, pure,
        Except.pure]
      rfl
    obtain ⟨ls, l1, l2, l3⟩ := children_of f2 f3
    obtain ⟨sa, m1, m2, m3⟩ := nth_of (i := 0) l2 l3 rfl
    obtain ⟨it, n1, n2, n3⟩ := nth_of (i := 1) l2 l3 rfl
    have e3 : pbkdf2Info dp = .ok (.bytes salt, .int iterations) := by
      unfold pbkdf2Info
      simp only [l1, m1, n1, toVal_octets m2 m3, toVal_integer n2 n3 hn, bind, Except.bind, pure, Except.pure]
    have e4 : sp.toVal = .ok (.bytes iv) := toVal_octets k2 k3
    have x1 : ¬ (Val.str (dotted pbes2Oid) ≠ Val.str (dotted pbes2Oid)) := fun q => q rfl
    have x2 : ¬ (Val.str (dotted pbkdf2Oid) ≠ Val.str (dotted pbkdf2Oid)) := fun q => q rfl
    have x3 : ¬ (Val.str (dotted desOid) ≠ Val.str (dotted desOid)) := fun q => q rfl
    unfold loadEncryptedPkcs8
    simp only [e1, e2, e3, e4, if_neg x1, if_neg x2, if_neg x3]
    refine ⟨fun h0 => by simp only [h0], fun d h0 => ?_⟩
    simp only [h0]
    refine ⟨?_, fun pkcs8 padded h1 h2 => ?_⟩
    · rintro (h1 | h1)
      · simp only [h1]; rfl
      · simp only [h1]; rfl
    · obtain ⟨k, hk1, hk2, hk3, _⟩ := h2
      have hu : Nac.unpad padded = some pkcs8 := by
        have hgl : padded.getLast? = some (UInt8.ofNat k) := by
          rw [hk3, List.getLast?_append, List.getLast?_replicate, if_neg (by omega)]
          rfl
        have hn : (UInt8.ofNat k).toNat = k := by rw [UInt8.toNat_ofNat']; omega
        have hz : UInt8.ofNat k ≠ 0 := by
          intro q
          rw [q] at hn
          have : (0 : UInt8).toNat = 0 := rfl
          omega
        unfold Nac.unpad
        rw [hgl]
        dsimp only
        rw [if_neg hz, hn, hk3, List.length_append, List.length_replicate, Nat.add_sub_cancel, List.take_left]
      simp only [h1, Option.bind_some, hu]

/-! ### What `toEncryptedPkcs8` gives -/

theorem sequence_spec (cs : List Node) (hg : ∀ c ∈ cs, Good c) : ∃ n, sequence cs = .ok n ∧ treeOf n = .seq (treesOf cs) ∧ Good n := by
  have key : ∀ (cs : List Node) (h : Bytes) (size : Nat) (ch : Bool) (ns : List Node), (∀ c ∈ cs, Good c) → Good (.seq h size ch ns) →
      ∃ n, (cs.foldlM (fun n c => match Node.addChild c false [] n with
        | some n' => Except.ok n'
        | none => Except.error Der.Err.encoding) (Node.seq h size ch ns) : Except Der.Err Node) = .ok n ∧
        treeOf n = .seq (treesOf ns ++ treesOf cs) ∧ Good n := by
    intro cs
    induction cs with
    | nil => intro h size ch ns _ hg; exact ⟨_, rfl, by rw [treesOf, List.append_nil]; rfl, hg⟩
    | cons c cs ih =>
      intro h size ch ns hc hg
      obtain ⟨n, h1, h2, h3⟩ := ih h size true (ns ++ [c]) (fun x hx => hc x (List.mem_cons_of_mem _ hx))
        ⟨(nomatch ·), goods_snoc hg.2 (hc c List.mem_cons_self)⟩
      refine ⟨n, ?_, ?_, h3⟩
      · rw [List.foldlM_cons]
        exact h1
      · rw [h2, trees_snoc, List.append_assoc]
        rfl
  obtain ⟨n, h1, h2, h3⟩ := key cs [] 0 false [] hg ⟨fun _ => rfl, trivial⟩
  exact ⟨n, h1, h2, h3⟩

theorem oidNode_spec (a b : Nat) (rest : List Nat) (ha : a ≤ 2) (hb : b ≤ 39) :
    ∃ n c, oidNode (a :: b :: rest) = .ok n ∧ treeOf n = .prim 6 c ∧ Good n ∧ IsOid (a :: b :: rest) c := by
  obtain ⟨n, c, h1, h2, h3, h4, _⟩ := C71_oid a b rest ha hb
  refine ⟨n, c, ?_, h3, built_good h2, h4⟩
  unfold oidNode
  rw [dotted_eq, C71_oid_string _ (by simp)]
  exact h1

theorem encryptedNode_spec (salt iv encrypted : Bytes) : ∃ n t, encryptedNode salt iv encrypted = .ok n ∧ treeOf n = t ∧ Good n ∧
    IsEncryptedInfo salt 2048 [] iv encrypted t := by
  obtain ⟨o1, a, p1, p2, p3, p4⟩ := oidNode_spec 1 2 [840, 113549, 1, 5, 13] (by omega) (by omega)
  obtain ⟨o2, b, q1, q2, q3, q4⟩ := oidNode_spec 1 2 [840, 113549, 1, 5, 12] (by omega) (by omega)
  obtain ⟨o3, c, r1, r2, r3, r4⟩ := oidNode_spec 1 2 [840, 113549, 3, 7] (by omega) (by omega)
  obtain ⟨i, ic, s1, s2, s3, s4, _⟩ := (C71_integer 2048).2 (by omega)
  have g4 : ∀ x, Good (octetString x) := fun x => rfl
  obtain ⟨n1, t1, t2, t3⟩ := sequence_spec [octetString salt, i] (by simp [g4, built_good s2])
  obtain ⟨n2, u1, u2, u3⟩ := sequence_spec [o2, n1] (by simp [q3, t3])
  obtain ⟨n3, v1, v2, v3⟩ := sequence_spec [o3, octetString iv] (by simp [g4, r3])
  obtain ⟨n4, w1, w2, w3⟩ := sequence_spec [n2, n3] (by simp [u3, v3])
  obtain ⟨n5, x1, x2, x3⟩ := sequence_spec [o1, n4] (by simp [p3, w3])
  obtain ⟨n6, y1, y2, y3⟩ := sequence_spec [n5, octetString encrypted] (by simp [g4, x3])
  refine ⟨n6, treeOf n6, ?_, rfl, y3, ?_⟩
  · unfold encryptedNode
    have p1' : oidNode pbes2Oid = .ok o1 := p1
    have q1' : oidNode pbkdf2Oid = .ok o2 := q1
    have r1' : oidNode desOid = .ok o3 := r1
    simp only [p1', q1', r1', s1, t1, u1, v1, w1, x1, bind, Except.bind]
    exact y1
  · rw [y2]
    simp only [treesOf, x2, w2, v2, u2, t2, p2, q2, r2, s3]
    exact .mk p4 q4 r4 s4

theorem pad_isPadded (p : Bytes) : IsPadded p (Nac.pad p) :=
  ⟨16 - p.length % 16, by omega, by omega, rfl, (Nac.pad_length p).1⟩

theorem sub_length {n : Nat} {c : Bytes} (h : IsSubidentifier n c) (k : Nat) (hn : n < 128 ^ k) (hk : 0 < k) : c.length ≤ k := by
  obtain ⟨high, last, rfl, _, h2, h3, h4⟩ := h
  rw [List.length_append, List.length_singleton]
  cases high with
  | nil => simp; omega
  | cons x r =>
    have hx : 128 < x.toNat := by
      have h5 := h2 x List.mem_cons_self
      have h6 : x ≠ 128 := fun q => h3 (by rw [q]; rfl)
      have h7 : x.toNat ≠ 128 := fun q => h6 (UInt8.toNat_inj.mp q)
      omega
    rw [List.map_cons, List.cons_append, number] at h4
    have h8 : 128 ^ (r.length + 1) ≤ n := by
      have h9 : 1 * 128 ^ (r.map (fun b : UInt8 => b.toNat - 128) ++ [last.toNat]).length ≤
          (x.toNat - 128) * 128 ^ (r.map (fun b : UInt8 => b.toNat - 128) ++ [last.toNat]).length := Nat.mul_le_mul_right _ (by omega)
      rw [List.length_append, List.length_map, List.length_singleton, Nat.one_mul] at h9
      rw [List.length_append, List.length_map, List.length_singleton] at h4
      omega
    have h9 : r.length + 1 < k := (Nat.pow_lt_pow_iff_right (by omega)).mp (Nat.lt_of_le_of_lt h8 hn)
    rw [List.length_cons]
    omega

theorem subs_length (ns : List Nat) : ∀ c, IsSubidentifiers ns c → (∀ n ∈ ns, n < 128 ^ 3) → c.length ≤ 3 * ns.length := by
  induction ns with
  | nil => intro c h _; rw [show c = [] from h]; simp
  | cons n ns ih =>
    intro c h hn
    obtain ⟨x, y, h1, h2, rfl⟩ := h
    have h3 := sub_length h1 3 (hn n List.mem_cons_self) (by omega)
    have h4 := ih y h2 (fun m hm => hn m (List.mem_cons_of_mem _ hm))
    rw [List.length_append, List.length_cons]
    omega

theorem oid_length {a b : Nat} {rest : List Nat} {c : Bytes} (h : IsOid (a :: b :: rest) c) (hn : ∀ n ∈ (40 * a + b) :: rest, n < 128 ^ 3) :
    c.length ≤ 3 * (rest.length + 1) := by
  obtain ⟨a', b', r', e, h1⟩ := h
  cases e
  exact subs_length _ c h1 hn

theorem integer_length {n : Nat} {c : Bytes} (h : IsInteger n c) (k : Nat) (hn : n < 256 ^ k) : c.length ≤ k + 1 := by
  obtain ⟨h1, b, r, rfl, hb, h2⟩ := h
  rw [List.map_cons, number, List.length_map] at h1
  by_cases hz : b = 0
  · cases r with
    | nil => simp
    | cons x r =>
      have hx := h2 hz x r rfl
      rw [List.map_cons, number, List.length_map] at h1
      have h3 : 1 * 256 ^ r.length ≤ x.toNat * 256 ^ r.length := Nat.mul_le_mul_right _ (by omega)
      have h4 : r.length < k := (Nat.pow_lt_pow_iff_right (a := 256) (by omega)).mp (by omega)
      simp only [List.length_cons]
      omega
  · have hx : b.toNat ≠ 0 := fun q => hz (UInt8.toNat_inj.mp q)
    have h3 : 1 * 256 ^ r.length ≤ b.toNat * 256 ^ r.length := Nat.mul_le_mul_right _ (by omega)
    have h4 : r.length < k := (Nat.pow_lt_pow_iff_right (a := 256) (by omega)).mp (by omega)
    simp only [List.length_cons]
    omega

theorem encryptedInfo_known {salt iv encrypted : Bytes} {t : Tree} (h : IsEncryptedInfo salt 2048 [] iv encrypted t) (h1 : salt.length = 8)
    (h2 : iv.length = 8) (h3 : encrypted.length < 2 ^ 65) : Known t := by
  cases h with
  | @mk a b c n ha hb hc hn =>
    refine known_of _ ?_ ?_
    · refine ⟨⟨?_, ⟨⟨?_, ⟨?_, ?_, trivial⟩, trivial⟩, ⟨?_, ?_, trivial⟩, trivial⟩, trivial⟩, ?_, trivial⟩ <;> exact List.contains_iff_mem.mp rfl
    · have la := oid_length ha (by decide)
      have lb := oid_length hb (by decide)
      have lc := oid_length hc (by decide)
      have ln := integer_length hn 2 (by omega)
      have big : (2 : Nat) ^ 80 ≤ 256 ^ 126 := by decide
      refine Nat.lt_of_lt_of_le ?_ big
      refine Nat.lt_of_le_of_lt (seq_le _) ?_
      simp only [ders_cons, ders_nil]
      have z1 := prim_le 4 encrypted
      have z2 := prim_le 6 a
      have z3 := prim_le 6 b
      have z4 := prim_le 6 c
      have z5 := prim_le 2 n
      have z6 := prim_le 4 salt
      have z7 := prim_le 4 iv
      have y1 := seq_le [.prim 4 salt, .prim 2 n]
      have y2 := seq_le [.prim 6 b, .seq [.prim 4 salt, .prim 2 n]]
      have y3 := seq_le [.prim 6 c, .prim 4 iv]
      have y4 := seq_le [.seq [.prim 6 b, .seq [.prim 4 salt, .prim 2 n]], .seq [.prim 6 c, .prim 4 iv]]
      have y5 := seq_le [.prim 6 a, .seq [.seq [.prim 6 b, .seq [.prim 4 salt, .prim 2 n]], .seq [.prim 6 c, .prim 4 iv]]]
      simp only [ders_cons, ders_nil] at y1 y2 y3 y4 y5
      simp only [List.length_cons, List.length_nil] at la lb lc
      omega

/-- C72: `toEncryptedPkcs8` gives the DER encoding of an EncryptedPrivateKeyInfo of the encrypted, padded PrivateKeyInfo. -/
theorem C72_format {L : Lib} {k : Key} (hs : Sound L k) {salt iv : Bytes} (h1 : salt.length = 8) (h2 : iv.length = 8) (password : Bytes) :
    ∃ b t d padded encrypted, toEncryptedPkcs8 L salt iv (some k) password = .ok b ∧ IsEncryptedInfo salt 2048 [] iv encrypted t ∧ Known t ∧
      IsDer t b ∧ L.pbkdf2 (.bytes salt) (.int 2048) password = some d ∧ IsPadded (L.pkcs8 k.key) padded ∧
      L.encrypt d iv padded = some encrypted := by
  obtain ⟨d, d1, d2⟩ := hs.derive salt password h1
  have hp := Nac.pad_length (L.pkcs8 k.key)
  obtain ⟨c, c1, c2, c3⟩ := hs.cipher d iv (Nac.pad (L.pkcs8 k.key)) d2 h2 (by omega)
  obtain ⟨n, t, n1, n2, n3, n4⟩ := encryptedNode_spec salt iv c
  have hk := encryptedInfo_known n4 h1 h2 (by have := hs.size; omega)
  refine ⟨n.encode.1, t, d, Nac.pad (L.pkcs8 k.key), c, ?_, n4, hk, ?_, d1, pad_isPadded _, c1⟩
  · unfold toEncryptedPkcs8
    simp only [d1, c1, n1]
  · rw [(encode_spec n n3).1, n2]
    exact isDer_der _ hk

theorem load_sound {L : Lib} {k : Key} (hs : Sound L k) : loadPkcs8 L (L.pkcs8 k.key) none = .ok k := by
  obtain ⟨t, key, i1, i2, i3⟩ := hs.info
  rcases k with ⟨k, type⟩
  rcases hs.type with q | q
  · have q : type = .rsa := q
    subst q
    exact ((C72_load_pkcs8 L (by omega) i1 i2 i3).1 .rsa (.inl rfl) rfl).1 k hs.load
  · have q : type = .ec := q
    subst q
    exact ((C72_load_pkcs8 L (by omega) i1 i2 i3).1 .ec (.inr rfl) rfl).1 k hs.load

/-- C72: what is exported is imported again with the same password, with or without one: the same key and the same type. -/
theorem C72_roundtrip {L : Lib} {k : Key} (hs : Sound L k) {salt iv : Bytes} (h1 : salt.length = 8) (h2 : iv.length = 8)
    (password : Option Bytes) : ∃ b, exportKey L salt iv k password = .ok b ∧ importKey L b password = .ok k := by
  cases password with
  | none => exact ⟨L.pkcs8 k.key, rfl, load_sound hs⟩
  | some pw =>
    obtain ⟨d, d1, d2⟩ := hs.derive salt pw h1
    obtain ⟨b, t, d', padded, c, b1, b2, b3, b4, b5, b6, b7⟩ := C72_format hs h1 h2 pw
    rw [d1] at b5
    cases b5
    obtain ⟨j, j1, j2, j3, j4⟩ := id b6
    obtain ⟨c', c1, c2, c3⟩ := hs.cipher d iv padded d2 h2 (by omega)
    rw [b7] at c1
    cases c1
    refine ⟨b, b1, ?_⟩
    show loadEncryptedPkcs8 L b pw = _
    rw [((C72_load_encrypted_partial L b2 b3 b4 pw).2 d d1).2 _ padded c3 b6]
    exact load_sound hs

/-- C72: `toPkcs1` is the contents of the OCTET STRING with the private key. -/
theorem C72_pkcs1 (L : Lib) (k : Key) {algorithm : List Nat} {key : Bytes} {t : Tree} (h : IsInfo algorithm key t) (hk : Known t)
    (hd : IsDer t (L.pkcs8 k.key)) : toPkcs1 L (some k) = .ok key := by
  cases h with
  | @mk oid version ps attrs ho =>
    obtain ⟨n, h1, h2, h3⟩ := parse_of hk hd
    obtain ⟨cs, h4, h5, h6⟩ := children_of h2 h3
    obtain ⟨m, h7, h8, h9⟩ := nth_of (i := 2) h5 h6 rfl
    have h10 : payload m = key := by
      cases m with
      | leaf => cases h8; rfl
      | seq => cases h8
    unfold toPkcs1 pkcs1Of
    simp only [h1, h4, h7, h10, bind, Except.bind, pure, Except.pure]

theorem isInteger_tree (n : Node) : isInteger n = true ↔ ∃ c, treeOf n = .prim 2 c := by
  cases n with
  | leaf t h p =>
    show decide (t = 2) = true ↔ ∃ c, Tree.prim t p = .prim 2 c
    rw [decide_eq_true_iff]
    exact ⟨fun h => ⟨p, by rw [h]⟩, fun ⟨c, h⟩ => by cases h; rfl⟩
  | seq => exact ⟨(nomatch ·), fun ⟨c, h⟩ => nomatch h⟩

theorem ints_all (cs : List Node) : cs.all isInteger = true ↔ ∃ ns : List Bytes, treesOf cs = ns.map (.prim 2) := by
  induction cs with
  | nil => exact ⟨fun _ => ⟨[], rfl⟩, fun _ => rfl⟩
  | cons c cs ih =>
    rw [List.all_cons, Bool.and_eq_true, isInteger_tree, ih]
    constructor
    · rintro ⟨⟨x, hx⟩, ns, hns⟩
      exact ⟨x :: ns, by rw [treesOf, hx, hns]; rfl⟩
    · rintro ⟨ns, hns⟩
      cases ns with
      | nil => cases hns
      | cons x ns =>
        rw [treesOf, List.map_cons] at hns
        injection hns with h1 h2
        exact ⟨⟨x, h1⟩, ns, h2⟩

theorem trees_length (cs : List Node) : (treesOf cs).length = cs.length := by
  induction cs with
  | nil => rfl
  | cons c cs ih => rw [treesOf, List.length_cons, List.length_cons, ih]

/-- C72: `loadPkcs1` takes an RSAPrivateKey in DER for RSA, and what is not DER of known types, such as an ECPrivateKey, for EC. -/
theorem C72_load_pkcs1 (L : Lib) (bytes : Bytes) {k : Nat} (hl : L.load bytes = some k) :
    (∀ t, IsRsaKey t → Known t → IsDer t bytes → loadPkcs1 L bytes none = .ok ⟨k, .rsa⟩) ∧
    (parse bytes = .error .decoding → loadPkcs1 L bytes none = .ok ⟨k, .ec⟩) := by
  refine ⟨fun t ht hk hd => ?_, fun hp => ?_⟩
  · obtain ⟨v, ns, rfl, h1, h2⟩ := ht
    obtain ⟨n, p1, p2, p3⟩ := parse_of hk hd
    obtain ⟨cs, q1, q2, q3⟩ := children_of p2 p3
    cases cs with
    | nil => cases q2
    | cons c cs =>
      rw [treesOf] at q2
      injection q2 with r1 r2
      have hlen : (c :: cs).length = 9 := by rw [List.length_cons, ← trees_length, r2, List.length_map, h2]
      have e : detectPkcs1 bytes = .ok .rsa := by
        unfold detectPkcs1
        simp only [p1, q1, bind, Except.bind]
        rw [if_neg (by omega)]
        simp only [(isInteger_tree c).mpr ⟨v, r1⟩, toVal_integer r1 q3.1 h1, (ints_all cs).mpr ⟨ns, r2⟩, pure, Except.pure]
        rfl
      unfold loadPkcs1
      simp [e, finish, hl]
  · unfold loadPkcs1 detectPkcs1
    simp [hp, bind, Except.bind, finish, hl]

/-! ### Exceptions -/

theorem finish_errors (L : Lib) (bytes : Bytes) (t : KeyType) (e : Err) (h : finish L bytes t = .error e) : e = .tpm ∨ e = .library := by
  unfold finish at h
  split at h
  · split at h
    · cases h
    · cases h; exact .inr rfl
  · cases h; exact .inl rfl

theorem unrecognized_errors (v : Val) : unrecognized v = .tpm ∨ unrecognized v = .type := by
  cases v <;> simp [unrecognized]

theorem loadPkcs8_errors (L : Lib) (bytes : Bytes) (type : Option KeyType) (e : Err) (h : loadPkcs8 L bytes type = .error e) :
    e = .tpm ∨ e = .library := by
  unfold loadPkcs8 at h
  split at h
  · exact finish_errors _ _ _ _ h
  · split at h
    · split at h
      · exact finish_errors _ _ _ _ h
      · split at h
        · exact finish_errors _ _ _ _ h
        · cases h; exact .inl rfl
    · cases h; exact .inl rfl

/-- C72, with departures for the exceptions other than TpmPrivateKey.Error: any bytes are loaded, or an exception is raised.  A key that
was loaded is one that the `cryptography` package made, with the type RSA or EC. -/
theorem C72_safe_partial (L : Lib) (bytes password : Bytes) :
    (∀ type e, loadPkcs8 L bytes type = .error e → e = .tpm ∨ e = .library) ∧
    (∀ type e, loadPkcs1 L bytes type = .error e → e = .tpm ∨ e = .library ∨ e = .index) ∧
    (∀ e, loadEncryptedPkcs8 L bytes password = .error e → e = .tpm ∨ e = .library ∨ e = .type) ∧
    (∀ type k, loadPkcs8 L bytes type = .ok k ∨ loadPkcs1 L bytes type = .ok k → L.load bytes = some k.key ∧ (k.type = .rsa ∨ k.type = .ec)) ∧
    ∀ k, loadEncryptedPkcs8 L bytes password = .ok k → ∃ salt n d iv c padded pkcs8, L.pbkdf2 salt n password = some d ∧
      L.decrypt d iv c = some padded ∧ pkcs8 <+: padded ∧ L.load pkcs8 = some k.key ∧ (k.type = .rsa ∨ k.type = .ec) := by
  have fin : ∀ b t k, finish L b t = .ok k → L.load b = some k.key ∧ (k.type = .rsa ∨ k.type = .ec) := by
    intro b t k h
    unfold finish at h
    split at h
    · rename_i ht
      split at h
      · rename_i hl
        cases h
        exact ⟨hl, ht.symm⟩
      · cases h
    · cases h
  have l8 : ∀ b type k, loadPkcs8 L b type = .ok k → L.load b = some k.key ∧ (k.type = .rsa ∨ k.type = .ec) := by
    intro b type k h
    unfold loadPkcs8 at h
    split at h
    · exact fin _ _ _ h
    · split at h
      · split at h
        · exact fin _ _ _ h
        · split at h
          · exact fin _ _ _ h
          · cases h
      · cases h
  refine ⟨loadPkcs8_errors L bytes, fun type e h => ?_, fun e h => ?_, ?_, fun k h => ?_⟩
  · unfold loadPkcs1 at h
    split at h
    · rcases finish_errors _ _ _ _ h with h | h
      · exact .inl h
      · exact .inr (.inl h)
    · split at h
      · rcases finish_errors _ _ _ _ h with h | h
        · exact .inl h
        · exact .inr (.inl h)
      · rcases finish_errors _ _ _ _ h with h | h
        · exact .inl h
        · exact .inr (.inl h)
      · cases h; exact .inr (.inr rfl)
  · have un : ∀ v, unrecognized v = e → e = .tpm ∨ e = .library ∨ e = .type := by
      intro v hv
      rcases unrecognized_errors v with q | q
      · exact .inl (hv ▸ q)
      · exact .inr (.inr (hv ▸ q))
    unfold loadEncryptedPkcs8 at h
    repeat' split at h
    all_goals first
      | (injection h with h; exact un _ h)
      | (injection h with h; subst h; simp; done)
      | (rcases loadPkcs8_errors _ _ _ _ h with q | q
         · exact .inl q
         · exact .inr (.inl q))
  · rintro type k (h | h)
    · exact l8 _ _ _ h
    · unfold loadPkcs1 at h
      repeat' split at h
      all_goals first
        | exact fin _ _ _ h
        | cases h
  · unfold loadEncryptedPkcs8 at h
    repeat' split at h
    all_goals first
      | (injection h; done)
      | skip
    rename_i _ _ _ _ _ _ _ _ _ _ _ _ salt n _ _ _ d hd _ iv _ _ pkcs8 hp
    obtain ⟨padded, h1, h2⟩ := Option.bind_eq_some_iff.mp hp
    refine ⟨_, _, d, iv, _, padded, pkcs8, hd, h1, ?_, l8 _ _ _ h⟩
    unfold Nac.unpad at h2
    split at h2
    · cases h2
    · injection h2 with h2
      rw [← h2]
      split
      · exact List.nil_prefix
      · exact List.take_prefix _ _

end PyNDN.PrivateKey
