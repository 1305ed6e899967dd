import Verif.Model.IdentityCertificate
import Verif.Lemmas.ConfigPolicyTimes
import Verif.Props.CertificateWitness
/-
C92: the certificates that an IdentityManager prepares are for the key that was asked for.
-/
namespace PyNDN.IdentityCertificate
open ConfigPolicy Certificate Spec.Certificate Spec.Der

theorem version_escaped {now : Int} {v : Component} (h : Component.fromVersion now = .ok v) : v.toEscapedString ≠ "ID-CERT".toList := by
  unfold Component.fromVersion Component.fromNumberWithMarker writeNonNegativeInteger at h
  split at h
  · cases h
  · have h : Except.ok (⟨.generic, nonNegIntBytes 0xFD ++ (nonNegIntBytes now.toNat ++ [])⟩ : Component) = (.ok v : Except PyNDN.Err Component) := h
    injection h with h
    have e : nonNegIntBytes 0xFD = [0xFD] := by decide
    rw [e] at h
    rw [← h]
    show escapeValue (0xFD :: (nonNegIntBytes now.toNat ++ [])) ≠ _
    unfold escapeValue
    rw [if_neg (by simp)]
    rw [List.flatMap_cons, if_neg (by decide)]
    intro h
    have := congrArg List.head? h
    simp at this

theorem key_of_certName {pre keyName : Name} {now : Int} {v : Component} (hv : Component.fromVersion now = .ok v) (hp : pre <+: keyName)
    (hk : ∀ c ∈ pre, c.toEscapedString ≠ "KEY".toList) : publicKeyName (certName pre keyName v) = .ok keyName := by
  obtain ⟨rest, rfl⟩ := hp
  rw [publicKeyName_some]
  refine ⟨pre, keyC, rest, [idCertC, v], ?_, by decide, hk, ⟨idCertC, [v], rfl, by decide, ?_⟩, rfl⟩
  · unfold certName
    rw [List.drop_left]
  · intro x hx
    cases List.mem_singleton.mp hx
    exact version_escaped hv

theorem setName_ok {n k : Name} (h : publicKeyName n = .ok k) : setName n = .ok k := by
  obtain ⟨a, b, c, d, rfl, h2, _, ⟨e, es, rfl, h4, _⟩, _⟩ := publicKeyName_some.mp h
  unfold setName
  rw [h, if_pos]
  have h2 : isKey b = true := beq_iff_eq.mpr h2
  have h4 : isIdCert e = true := beq_iff_eq.mpr h4
  simp [h2, h4]

theorem prefixFor_none (keyName signing : Name) : prefixFor keyName signing none =
    some (if signing.matches keyName then signing else keyName.dropLast) := by
  unfold prefixFor
  dsimp only
  by_cases h : signing.matches keyName = true <;> simp [h]

theorem prefixFor_some {keyName signing pre : Name} {hint : Option Name} (h : prefixFor keyName signing hint = some pre) :
    hint = some pre ∧ pre.matches keyName = true ∧ pre ≠ keyName ∨
      hint = none ∧ pre = if signing.matches keyName then signing else keyName.dropLast := by
  cases hint with
  | none =>
    rw [prefixFor_none] at h
    exact .inr ⟨rfl, (Option.some.inj h).symm⟩
  | some x =>
    unfold prefixFor at h
    dsimp only at h
    split at h
    · rename_i hx
      cases h
      rw [Bool.and_eq_true, Bool.not_eq_true'] at hx
      refine .inl ⟨rfl, hx.1, fun e => ?_⟩
      rw [(name_equals_iff _ _).mpr e] at hx
      cases hx.2
    · cases h

/-- C92: if `prepareUnsignedIdentityCertificate` gives a certificate, its name is the prefix, "KEY", the rest of the key name, "ID-CERT" and
a version of the clock, and the type is KEY.  The prefix is the hint, which is a proper prefix of the key name; without a hint it is the
signing identity if that matches the key name, else the key name without its key ID.  If the prefix is one of the key name and has no component "KEY", then the name of the
certificate's public key is the key name: for this object and for everyone who reads the name. -/
theorem C92_name_partial {keyName : Name} {key : Bytes} {signing : Name} {nb na : Int} {ds : List (OidValue × Bytes)} {hint : Option Name} {now : Int}
    {c : IdCert} (h : prepare keyName key signing nb na ds hint now = .ok (some c)) :
    ∃ pre v, (hint = some pre ∧ pre.matches keyName = true ∧ pre ≠ keyName ∨
        hint = none ∧ pre = if signing.matches keyName then signing else keyName.dropLast) ∧ Component.fromVersion now = .ok v ∧
      c.name = pre ++ keyC :: keyName.drop pre.length ++ [idCertC, v] ∧ c.cert.isKey = true ∧
      (pre <+: keyName → (∀ x ∈ pre, x.toEscapedString ≠ "KEY".toList) → c.publicKeyName = keyName ∧ publicKeyName c.name = .ok keyName) := by
  unfold prepare at h
  split at h
  · cases h
  · split at h
    · cases h
    · split at h
      · cases h
      · rename_i pre hpre
        split at h
        · cases h
        · rename_i v hv
          split at h
          · cases h
          · rename_i k hk
            dsimp only at h
            split at h
            · cases h
            · rename_i cert hcert
              cases h
              refine ⟨pre, v, prefixFor_some hpre, hv, rfl, ?_, fun hp hn => ?_⟩
              · unfold Certificate.encode at hcert
                simp only [bind, Except.bind] at hcert
                split at hcert
                · cases hcert
                · cases hcert
                  rfl
              · have e := key_of_certName hv hp hn
                rw [setName_ok e] at hk
                cases hk
                exact ⟨rfl, e⟩

/-- C92: there is no certificate exactly if the key name has no key ID, `ksk-` or `dsk-` followed by anything, or the hint is not a proper
prefix of the key name. -/
theorem C92_none (keyName : Name) (key : Bytes) (signing : Name) (nb na : Int) (ds : List (OidValue × Bytes)) (hint : Option Name) (now : Int) :
    prepare keyName key signing nb na ds hint now = .ok none ↔
      (¬ ∃ last rest, keyName.getLast? = some last ∧ (last.toEscapedString = "ksk-".toList ++ rest ∨ last.toEscapedString = "dsk-".toList ++ rest)) ∨
      (∃ h, hint = some h ∧ ¬ (h.matches keyName = true ∧ h ≠ keyName)) := by
  have hid : ∀ c : Component, isKeyId c = true ↔ ∃ rest, c.toEscapedString = "ksk-".toList ++ rest ∨ c.toEscapedString = "dsk-".toList ++ rest := by
    intro c
    unfold isKeyId
    constructor
    · intro h
      simp only [Bool.and_eq_true, Bool.or_eq_true, beq_iff_eq] at h
      refine ⟨c.toEscapedString.drop 4, h.2.imp (fun h => ?_) (fun h => ?_)⟩ <;> rw [← h, List.take_append_drop]
    · rintro ⟨rest, h | h⟩ <;> rw [h] <;> simp
  have hpre : prefixFor keyName signing hint = none ↔ ∃ h, hint = some h ∧ ¬ (h.matches keyName = true ∧ h ≠ keyName) := by
    cases hint with
    | none => rw [prefixFor_none]; simp
    | some h =>
      unfold prefixFor
      rw [ite_eq_right_iff]
      have : h.equals keyName = true ↔ h = keyName := name_equals_iff _ _
      simp only [Bool.and_eq_true, Bool.not_eq_true', reduceCtorEq, imp_false]
      rw [← Bool.not_eq_true, this]
      simp
  rw [← hpre]
  unfold prepare
  rcases hl : keyName.getLast? with _ | last
  · simp
  · have e : (∃ last' rest, some last = some last' ∧ (last'.toEscapedString = "ksk-".toList ++ rest ∨ last'.toEscapedString = "dsk-".toList ++ rest)) ↔
        isKeyId last = true := by
      rw [hid]
      constructor
      · rintro ⟨l, rest, h1, h2⟩
        cases h1
        exact ⟨rest, h2⟩
      · rintro ⟨rest, h⟩
        exact ⟨last, rest, rfl, h⟩
    rw [e]
    dsimp only
    rcases hk : isKeyId last with _ | _
    · simp
    · rcases hp : prefixFor keyName signing hint with _ | pre
      · simp
      · simp only [Bool.not_true, Bool.false_eq_true, if_false, not_true_eq_false, reduceCtorEq, or_false, iff_false]
        split
        · simp
        · split
          · simp
          · split <;> simp

/-- C92: a certificate that an IdentityManager generates for a key is for this key, if there is no component "KEY" before the key ID: its name
is the key name with "KEY" before the key ID, "ID-CERT" and the version; the Content is the encoding, of type KEY, of the validity from now for
two years, one description with the URI of the key name, and the key; and it can be read again. -/
theorem C92_generate {keyName : Name} {last : Component} {key : Bytes} {k : Tree} {now : Int} (hlast : keyName.getLast? = some last)
    (hn : ∀ x ∈ keyName.dropLast, x.toEscapedString ≠ "KEY".toList) (h0 : 0 ≤ now) (h1 : now < 253339228800000)
    (hd : IsDer k key) (hk : Known k) :
    ∃ v c t b, Component.fromVersion now = .ok v ∧ generate keyName key now = .ok c ∧
      c.name = keyName.dropLast ++ [keyC, last, idCertC, v] ∧ c.publicKeyName = keyName ∧ publicKeyName c.name = .ok keyName ∧
      c.cert.isKey = true ∧ c.cert.content = some b ∧
      IsCertificate ⟨now / 1000, (now + 63072000000) / 1000, [([2, 5, 4, 41], uriBytes (Name.toUri keyName))], k, []⟩ t ∧
      (b.length < 256 ^ 126 → IsDer t b) := by
  have hv : ∃ v, Component.fromVersion now = .ok v := by
    unfold Component.fromVersion Component.fromNumberWithMarker writeNonNegativeInteger
    rw [if_neg (by omega)]
    exact ⟨_, rfl⟩
  obtain ⟨v, hv⟩ := hv
  have hkn : keyName = keyName.dropLast ++ [last] := (List.dropLast_append_getLast? last hlast).symm
  have hname : keyName.dropLast ++ [keyC, last] ++ [idCertC, v] = certName keyName.dropLast keyName v := by
    have hd : keyName.drop keyName.dropLast.length = [last] := by
      conv => lhs; rw [hkn]
      simp
    unfold certName
    rw [hd]
  have hp : keyName.dropLast <+: keyName := List.dropLast_prefix _
  have hpub := key_of_certName hv hp hn
  obtain ⟨t, b, i1, i2, i3⟩ := C90_encode (k := key)
    (c := { Certificate.empty with
      notBefore := .time now, notAfter := .time (now + 2 * 365 * 24 * 3600 * 1000), publicKey := some key,
      subjects := [(nameOid, uriBytes (Name.toUri keyName))] })
    (f := ⟨now / 1000, (now + 63072000000) / 1000, [([2, 5, 4, 41], uriBytes (Name.toUri keyName))], k, []⟩)
    rfl rfl ⟨by omega, by omega⟩ ⟨by omega, by omega⟩ rfl rfl rfl
    (fun d hd => by cases List.mem_singleton.mp hd; exact ⟨2, 5, _, rfl, by decide, by decide⟩) rfl (fun e he => by cases he) rfl hd hk
  have hg := show generate keyName key now = .ok ⟨certName keyName.dropLast keyName v, keyName, _⟩ by
    unfold generate
    rw [hlast]
    dsimp only
    rw [hv]
    dsimp only
    rw [hname, setName_ok hpub]
    dsimp only
    rw [i2]
  exact ⟨v, _, t, b, hv, hg, by rw [← hname]; simp, rfl, hpub, rfl, rfl, i1, fun h => (i3 h).2⟩

/-- C92: the Content of a certificate that is prepared is the encoding, of type KEY, of the given validity, the given descriptions (of none,
one with the URI of the identity) and the given key; and it can be read again. -/
theorem C92_content {keyName : Name} {key : Bytes} {signing : Name} {nb na : Int} {ds : List (List Nat × Bytes)} {hint : Option Name} {now : Int}
    {k : Tree} {c : IdCert} (h : prepare keyName key signing nb na (ds.map fun d => (.oid (d.1.map Int.ofNat), d.2)) hint now = .ok (some c))
    (r1 : -30610224000000 ≤ nb ∧ nb < 253402300800000) (r2 : -30610224000000 ≤ na ∧ na < 253402300800000)
    (hso : ∀ d ∈ ds, OidOk d.1) (hd : IsDer k key) (hk : Known k) :
    ∃ t b, c.cert.isKey = true ∧ c.cert.content = some b ∧ c.cert.publicKey = some key ∧
      IsCertificate ⟨nb / 1000, na / 1000, if ds = [] then [([2, 5, 4, 41], uriBytes (Name.toUri keyName.dropLast))] else ds, k, []⟩ t ∧
      (b.length < 256 ^ 126 → IsDer t b) := by
  obtain ⟨t, b, i1, i2, i3⟩ := C90_encode (k := key)
    (c := { Certificate.empty with
      notBefore := .time nb, notAfter := .time na, publicKey := some key,
      subjects := if (ds.map fun d => ((.oid (d.1.map Int.ofNat), d.2) : OidValue × Bytes)).isEmpty then [(nameOid, uriBytes (Name.toUri keyName.dropLast))]
        else ds.map fun d => (.oid (d.1.map Int.ofNat), d.2) })
    (f := ⟨nb / 1000, na / 1000, if ds = [] then [([2, 5, 4, 41], uriBytes (Name.toUri keyName.dropLast))] else ds, k, []⟩)
    rfl rfl r1 r2 rfl rfl (by cases ds <;> rfl)
    (by
      intro d hd
      dsimp only at hd
      split at hd
      · cases List.mem_singleton.mp hd
        exact ⟨2, 5, _, rfl, by decide, by decide⟩
      · exact hso d hd)
    rfl (fun e he => by cases he) rfl hd hk
  unfold prepare at h
  split at h
  · cases h
  · split at h
    · cases h
    · split at h
      · cases h
      · split at h
        · cases h
        · split at h
          · cases h
          · dsimp only at h
            rw [i2] at h
            cases h
            exact ⟨t, b, rfl, rfl, rfl, i1, fun h => (i3 h).2⟩

/-- C92: an identity certificate takes exactly the names with a component "KEY" and a component "ID-CERT" after it; the public key's name is
then the components before the first "KEY" and those between it and the last "ID-CERT".  A name without the one or the other is refused with a
SecurityException. -/
theorem C92_setName (n : Name) :
    (∀ k, setName n = .ok k ↔ ∃ a key c cert d, n = a ++ key :: c ++ cert :: d ∧ k = a ++ c ∧
      key.toEscapedString = "KEY".toList ∧ (∀ x ∈ a, x.toEscapedString ≠ "KEY".toList) ∧
      cert.toEscapedString = "ID-CERT".toList ∧ ∀ x ∈ d, x.toEscapedString ≠ "ID-CERT".toList) ∧
    (setName n = .error .security ↔
      (∀ x ∈ n, x.toEscapedString ≠ "KEY".toList) ∨ ∀ x ∈ n, x.toEscapedString ≠ "ID-CERT".toList) := by
  constructor
  · intro k
    constructor
    · intro h
      have h : publicKeyName n = .ok k := by
        unfold setName at h
        split at h
        · split at h
          · rename_i hp; cases h; exact hp
          · cases h
        · cases h
      obtain ⟨a, b, c, d, rfl, h2, h3, ⟨e, es, rfl, h4, h5⟩, rfl⟩ := publicKeyName_some.mp h
      exact ⟨a, b, c, e, es, rfl, rfl, h2, h3, h4, h5⟩
    · rintro ⟨a, b, c, e, es, rfl, rfl, h2, h3, h4, h5⟩
      exact setName_ok (publicKeyName_some.mpr ⟨a, b, c, e :: es, rfl, h2, h3, ⟨e, es, rfl, h4, h5⟩, rfl⟩)
  · have a1 : n.any isKey = false ↔ ∀ x ∈ n, x.toEscapedString ≠ "KEY".toList := by
      rw [List.any_eq_false]
      exact forall₂_congr fun x _ => not_congr beq_iff_eq
    have a2 : n.any isIdCert = false ↔ ∀ x ∈ n, x.toEscapedString ≠ "ID-CERT".toList := by
      rw [List.any_eq_false]
      exact forall₂_congr fun x _ => not_congr beq_iff_eq
    rw [← a1, ← a2]
    unfold setName
    rcases n.any isKey <;> rcases n.any isIdCert <;> rcases publicKeyName n <;> simp

/-- C92, departure: a component "KEY" of the identity is taken for the one that was inserted: the certificate is for another key name. -/
theorem C92_key_departure : ∃ c, prepare [Component.generic [97], keyC, Component.generic [98], Component.generic [107, 115, 107, 45, 49]]
      (Der.der exKey) [Component.generic [97], keyC, Component.generic [98]] 0 1000 [] none 5000 = .ok (some c) ∧
    c.publicKeyName = [Component.generic [97], Component.generic [98], keyC, Component.generic [107, 115, 107, 45, 49]] := by
  have h : ((prepare [Component.generic [97], keyC, Component.generic [98], Component.generic [107, 115, 107, 45, 49]]
      (Der.der exKey) [Component.generic [97], keyC, Component.generic [98]] 0 1000 [] none 5000).toOption.bind fun c => c.map (·.publicKeyName)) =
      some [Component.generic [97], Component.generic [98], keyC, Component.generic [107, 115, 107, 45, 49]] := by decide +kernel
  rcases hp : prepare [Component.generic [97], keyC, Component.generic [98], Component.generic [107, 115, 107, 45, 49]]
      (Der.der exKey) [Component.generic [97], keyC, Component.generic [98]] 0 1000 [] none 5000 with e | _ | c
  · rw [hp] at h; cases h
  · rw [hp] at h; cases h
  · rw [hp] at h
    have h : some c.publicKeyName = some _ := h
    exact ⟨c, rfl, Option.some.inj h⟩

/-- A key of an identity, with a certificate prepared by the identity's parent. -/
example : ∃ c, prepare [Component.generic [97], Component.generic [98], Component.generic [107, 115, 107, 45, 49]]
      (Der.der exKey) [Component.generic [97]] 0 1000 [] none 5000 = .ok (some c) ∧
    c.publicKeyName = [Component.generic [97], Component.generic [98], Component.generic [107, 115, 107, 45, 49]] := by
  have h : ((prepare [Component.generic [97], Component.generic [98], Component.generic [107, 115, 107, 45, 49]]
      (Der.der exKey) [Component.generic [97]] 0 1000 [] none 5000).toOption.bind fun c => c.map (·.publicKeyName)) =
      some [Component.generic [97], Component.generic [98], Component.generic [107, 115, 107, 45, 49]] := by decide +kernel
  rcases hp : prepare [Component.generic [97], Component.generic [98], Component.generic [107, 115, 107, 45, 49]]
      (Der.der exKey) [Component.generic [97]] 0 1000 [] none 5000 with e | _ | c
  · rw [hp] at h; cases h
  · rw [hp] at h; cases h
  · rw [hp] at h
    have h : some c.publicKeyName = some _ := h
    exact ⟨c, rfl, Option.some.inj h⟩

/-- A name that is taken, one that is refused, and one that is neither. -/
example : setName [Component.generic [97], keyC, Component.generic [98], idCertC] = .ok [Component.generic [97], Component.generic [98]] ∧
    setName [Component.generic [97], idCertC] = .error .security ∧ setName [idCertC, keyC] = .error .runtime := by decide

/-- A certificate for the key /a/ksk-1, made at the time 5000, and one prepared by /a for /a/b/ksk-1. -/
example : ∃ v c t b, Component.fromVersion 5000 = .ok v ∧ generate [Component.generic [97], Component.generic [107, 115, 107, 45, 49]] (Der.der exKey) 5000 = .ok c ∧
    c.name = [Component.generic [97]] ++ [keyC, Component.generic [107, 115, 107, 45, 49], idCertC, v] ∧
    c.publicKeyName = [Component.generic [97], Component.generic [107, 115, 107, 45, 49]] ∧ c.cert.content = some b ∧
    IsCertificate ⟨5, 63072005, [([2, 5, 4, 41], uriBytes (Name.toUri [Component.generic [97], Component.generic [107, 115, 107, 45, 49]]))], exKey, []⟩ t := by
  obtain ⟨v, c, t, b, h1, h2, h3, h4, _, _, h5, h6, _⟩ := C92_generate
    (keyName := [Component.generic [97], Component.generic [107, 115, 107, 45, 49]]) (now := 5000) rfl
    (fun x hx => by cases List.mem_singleton.mp hx; decide) (by decide) (by decide) (Der.isDer_der exKey exKnown) exKnown
  exact ⟨v, c, t, b, h1, h2, h3, h4, h5, h6⟩

end PyNDN.IdentityCertificate
