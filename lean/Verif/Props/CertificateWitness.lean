import Verif.Props.Certificate
/-
C90: examples and departures.
-/
namespace PyNDN.Certificate
open Der Spec.Der Spec.Certificate

/-! ### What was decoded twice, and any Content -/

/-- C90, departure: the lists are not cleared.  If a certificate that was decoded is decoded again, as by a second call of `wireDecode`,
the descriptions and the extensions are there twice. -/
theorem C90_again_departure (L : Lib) {f : Facts} {t : Tree} {b post : Bytes} (isKey : Bool) (ht : IsCertificate f t) (hk : Known t) (hd : IsDer t b)
    (hds : ∀ d ∈ f.descriptions, OidOk d.1 ∧ ∀ x ∈ d.2, x < 128) (hes : ∀ e ∈ f.extensions, OidOk e.1)
    (hkey : IsKeyOf ec f.key ∨ IsKeyOf rsa f.key ∧ ∀ k, IsDer f.key k → L.load k = true) :
    ∃ c, ofData L (some (b ++ post)) isKey = .ok c ∧
      wireDecode L (some (b ++ post)) isKey c = ({ c with subjects := c.subjects ++ c.subjects, extensions := c.extensions ++ c.extensions }, none) := by
  obtain ⟨c, h1, ⟨h2, h3, h4, h5, k, h6, h7⟩, h8, h9⟩ := C90_decode (post := post) L isKey ht hk hd hds hes hkey
  refine ⟨c, h1, ?_⟩
  obtain ⟨k', h10, h11⟩ := decode_spec L { c with content := some (b ++ post), isKey := isKey } ht hk hd hds hes hkey rfl
  have kk : Known f.key := by
    obtain ⟨_, _, _, _, _, _, _, _, rfl⟩ := ht
    exact hk.1.2.2.1
  have e : k' = k := by rw [der_unique _ kk k' h10, ← der_unique _ kk k h7]
  unfold wireDecode
  rw [h11, e, ← h2, ← h3, ← h4, ← h5, ← h6, ← h8, ← h9]

/-- C90: whatever the Content is, the key that `decode` leaves is the one that was there, or one that is accepted: of elliptic curves, or of
RSA and loaded by the library.  If nothing is raised, it is accepted. -/
theorem C90_key (L : Lib) (c : Cert) : ((decode L c).1.publicKey = c.publicKey ∧ (decode L c).2 ≠ none) ∨
    ∃ der, (decode L c).1.publicKey = some der ∧ (algorithm der = .ok (.str ecOid) ∨ algorithm der = .ok (.str rsaOid) ∧ L.load der = true) := by
  have acc : ∀ der, publicKeyError L der = none → algorithm der = .ok (.str ecOid) ∨ algorithm der = .ok (.str rsaOid) ∧ L.load der = true := by
    intro der h
    unfold publicKeyError at h
    rcases ha : algorithm der with e | v
    · rw [ha] at h; cases h
    · rw [ha] at h
      dsimp only at h
      split at h
      · rename_i hv
        split at h
        · rename_i hl
          exact .inr ⟨by rw [hv], hl⟩
        · cases h
      · split at h
        · rename_i hv
          exact .inl (by rw [hv])
        · cases v <;> cases h
  unfold decode
  dsimp only
  split
  · exact .inl ⟨rfl, by simp⟩
  · split
    · exact .inl ⟨rfl, by simp⟩
    · split
      · exact .inl ⟨rfl, by simp⟩
      · split
        · exact .inl ⟨rfl, by simp⟩
        · split
          · exact .inl ⟨rfl, by simp⟩
          · split
            · exact .inl ⟨rfl, by simp⟩
            · split
              · exact .inl ⟨rfl, by simp⟩
              · rename_i hkey
                have := acc _ hkey
                split
                · split
                  · exact .inr ⟨_, rfl, this⟩
                  · exact .inr ⟨_, rfl, this⟩
                · exact .inr ⟨_, rfl, this⟩

/-! ### An example -/

/-- A key of elliptic curves. -/
def exKey : Tree := .seq [.seq [.prim 6 [0x2a, 0x86, 0x48, 0xce, 0x3d, 2, 1]], .prim 3 [0, 4, 1, 2, 3]]

theorem exKnown : Known exKey := by
  refine tagged_known _ ⟨⟨show (6 : UInt8) ∈ tags by decide, trivial⟩, show (3 : UInt8) ∈ tags by decide, trivial⟩ ?_
  exact Nat.lt_of_le_of_lt (m := 300) (by decide +kernel) (by decide +kernel)

theorem exKeyOf : IsKeyOf ec exKey := by
  obtain ⟨c, h1, h2⟩ := oid_spec 1 2 [840, 10045, 2, 1] (by decide) (by decide)
  have e : (oid [1, 2, 840, 10045, 2, 1]).map (fun n => n.encode.1.drop 2) = .ok [0x2a, 0x86, 0x48, 0xce, 0x3d, 2, 1] := by decide +kernel
  rw [show oid [1, 2, 840, 10045, 2, 1] = .ok (prim 6 c) from h1] at e
  have hc : c = [0x2a, 0x86, 0x48, 0xce, 0x3d, 2, 1] := by
    have e : Except.ok ((header 6 c.length ++ c).drop 2) = (Except.ok _ : Except Der.Err Bytes) := e
    injection e with e
    have hl := congrArg List.length e
    rw [List.length_drop, List.length_append] at hl
    unfold header at e hl
    split at e
    · exact e
    · rename_i hbig
      rw [if_neg hbig] at hl
      simp only [List.length_cons, List.length_nil] at hl
      omega
  rw [hc] at h2
  exact ⟨_, [], _, h2, rfl⟩

/-- 2015 to 2035, one description and one critical extension. -/
def exCert : Cert where
  notBefore := .time 1434508800500
  notAfter := .time 2065228800000
  subjects := [(.oid [2, 5, 4, 41], [65, 108, 105])]
  publicKey := some (der exKey)
  extensions := [⟨.oid [1, 3, 6, 1], .bool true, [1, 200]⟩]

def exFacts : Facts := ⟨1434508800, 2065228800, [([2, 5, 4, 41], [65, 108, 105])], exKey, [([1, 3, 6, 1], true, [1, 200])]⟩

def noLib : Lib := ⟨fun _ => false⟩

theorem exOk : (∀ d ∈ exFacts.descriptions, OidOk d.1 ∧ ∀ x ∈ d.2, x < 128) ∧ (∀ e ∈ exFacts.extensions, OidOk e.1) := by
  refine ⟨fun d hd => ?_, fun e he => ?_⟩
  · cases List.mem_singleton.mp hd
    exact ⟨⟨2, 5, _, rfl, by decide, by decide⟩, by decide⟩
  · cases List.mem_singleton.mp he
    exact ⟨1, 3, _, rfl, by decide, by decide⟩

example : ∃ c' d, encode exCert = .ok c' ∧ c'.isKey = true ∧ (c'.content.map (·.take 4)) = some [0x30, 0x56, 0x30, 0x22] ∧
    ofData noLib c'.content c'.isKey = .ok d ∧ d = { c' with notBefore := .time 1434508800000, notAfter := .time 2065228800000 } ∧
    d.subjects = exCert.subjects ∧ d.extensions = exCert.extensions ∧ d.publicKey = exCert.publicKey := by
  obtain ⟨t, b, _, h2, _⟩ := C90_encode (c := exCert) (f := exFacts) rfl rfl (by decide) (by decide) rfl rfl rfl (fun d hd => (exOk.1 d hd).1)
    rfl exOk.2 rfl (isDer_der _ exKnown) exKnown
  have hc : (encode exCert).toOption.map (fun c => c.content.map fun b => (b.length, b.take 4)) = some (some (88, [0x30, 0x56, 0x30, 0x22])) := by
    decide +kernel
  rw [h2] at hc
  have hc : some (some (b.length, b.take 4)) = some (some (88, [0x30, 0x56, 0x30, 0x22])) := hc
  injection hc with hc
  injection hc with hc
  injection hc with hlen htake
  obtain ⟨d, h3, _, h4⟩ := C90_round_partial noLib (c := exCert) (f := exFacts) rfl rfl (by decide) (by decide) rfl rfl rfl exOk.1 rfl exOk.2 rfl
    (isDer_der _ exKnown) exKnown (.inl exKeyOf) h2 rfl (by rw [hlen]; exact Nat.lt_of_le_of_lt (m := 300) (by decide) (by decide +kernel))
  refine ⟨_, d, h2, rfl, by show some (b.take 4) = _; rw [htake], h3, h4, ?_, ?_, ?_⟩ <;> rw [h4]

/-! ### Departures -/

/-- C90, departure: a description is encoded byte by byte and decoded as text, so that bytes from 128 on are encoded as UTF-8: "é" comes
back with four bytes. -/
theorem C90_text_departure : ∃ c' d, encode { exCert with subjects := [(.oid [2, 5, 4, 41], [0xc3, 0xa9])] } = .ok c' ∧
    ofData noLib c'.content c'.isKey = .ok d ∧ d.subjects = [(.oid [2, 5, 4, 41], [0xc3, 0x83, 0xc2, 0xa9])] := by
  have h : ((encode { exCert with subjects := [(.oid [2, 5, 4, 41], [0xc3, 0xa9])] }).toOption.bind fun c' =>
      (ofData noLib c'.content c'.isKey).toOption.map fun d => d.subjects) = some [(.oid [2, 5, 4, 41], [0xc3, 0x83, 0xc2, 0xa9])] := by
    decide +kernel
  rcases he : encode { exCert with subjects := [(.oid [2, 5, 4, 41], [0xc3, 0xa9])] } with e | c'
  · rw [he] at h; cases h
  · rw [he] at h
    rcases hd : ofData noLib c'.content c'.isKey with e | d
    · have h : ((ofData noLib c'.content c'.isKey).toOption.map fun d => d.subjects) = _ := h
      rw [hd] at h; cases h
    · have h : ((ofData noLib c'.content c'.isKey).toOption.map fun d => d.subjects) = _ := h
      rw [hd] at h
      injection h with h
      exact ⟨c', d, rfl, hd, h⟩

/-- C90, departure: `isTooEarly` and `isTooLate` raise TypeError for every certificate. -/
theorem C90_early_departure (c : Cert) : isTooEarly c = .error .type ∧ isTooLate c = .error .type := ⟨rfl, rfl⟩

end PyNDN.Certificate
