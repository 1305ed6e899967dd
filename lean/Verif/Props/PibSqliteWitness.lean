import Verif.Props.PibSqlite
/-
C74: examples, and where the code departs.
-/
namespace PyNDN.PibSqlite
open Spec (DataOk CanonicalName Canonical)
open Spec.PibSqlite (Fine NameOk CertOk Agree midway after Integrity next)
open Validator (keyComponent)

def exA : Name := [.generic [65]]
def exB : Name := [.generic [66]]
def exKey (n : Name) (i : UInt8) : Name := n ++ [keyComponent, .generic [i]]
def exCertName (n : Name) (i v : UInt8) : Name := exKey n i ++ [.generic [115], .generic [v]]
def exCert (n : Name) (i v : UInt8) : Data where
  name := exCertName n i v
  metaInfo := { type := 2, freshnessPeriod := some 3600000 }
  content := some [i, v]
  signature := { info := .rsa { type := some 1, keyName := exKey n i } (some (1500000000000, 1600000000000)), signature := some [4, 5] }

/-- Two identities, keys and certificates; the default key of B is deleted, another one is added and is then the default; A is deleted with its
keys, and a new identity may get the number of its row. -/
def exOps : List Op :=
  [.getTpmLocator, .setTpmLocator [120], .setTpmLocator [121], .getTpmLocator, .getDefaultIdentity,
   .addKey exA (exKey exA 1) [1], .addKey exB (exKey exB 1) [2], .addKey exB (exKey exB 2) [3], .addKey exB (exKey exB 1) [4],
   .getKeyBits (exKey exB 1), .getDefaultIdentity, .getDefaultKeyOfIdentity exB, .setDefaultKeyOfIdentity exB (exKey exB 2),
   .getDefaultKeyOfIdentity exB, .getDefaultKeyOfIdentity exA, .getKeysOfIdentity exB,
   .addCertificate (exCert exA 1 1), .addCertificate (exCert exA 1 2), .setDefaultCertificateOfKey (exKey exA 1) (exCertName exA 1 2),
   .getCertificatesOfKey (exKey exA 1), .getDefaultCertificateOfKey (exKey exA 1), .getCertificate (exCertName exA 1 1),
   .removeKey (exKey exB 2), .getDefaultKeyOfIdentity exB, .setDefaultIdentity exB, .removeIdentity exA, .hasCertificate (exCertName exA 1 1),
   .hasKey (exKey exA 1), .getKeysOfIdentity exB, .getDefaultIdentity, .removeIdentity exB, .getDefaultIdentity, .addIdentity exA,
   .getKeysOfIdentity exA, .getIdentities]

example : (run {} exOps).1 =
  [.bytes [], .none, .none, .bytes [121], .error .pib,
   .none, .none, .none, .none,
   .bytes [4], .name exA, .name (exKey exB 1), .none,
   .name (exKey exB 2), .name (exKey exA 1), .names [exKey exB 1, exKey exB 2],
   .none, .none, .none,
   .names [exCertName exA 1 1, exCertName exA 1 2], .cert (exCert exA 1 2), .cert (exCert exA 1 1),
   .none, .error .pib, .none, .none, .bool false,
   .bool false, .names [exKey exB 1], .name exB, .none, .error .pib, .none,
   .names [], .names [exA]] := by decide +kernel

theorem exNameOk {n : Name} (h : n ∈ [exA, exB, exKey exA 1, exKey exB 1, exKey exB 2, exCertName exA 1 1, exCertName exA 1 2]) : NameOk n := by
  simp only [List.mem_cons, List.not_mem_nil, or_false] at h
  rcases h with rfl | rfl | rfl | rfl | rfl | rfl | rfl <;> exact ⟨by unfold CanonicalName; decide, by decide⟩

theorem exCertOk {v : UInt8} (hv : v = 1 ∨ v = 2) : CertOk (exCert exA 1 v) := by
  have hn : NameOk (exCertName exA 1 v) := by rcases hv with rfl | rfl <;> exact exNameOk (by decide)
  have hk : NameOk (exKey exA 1) := exNameOk (by decide)
  refine ⟨⟨hn.1, ⟨.inl (by simp [exCert]), ?_, trivial, fun _ => rfl⟩, ?_⟩, hn, ?_, ?_⟩
  · intro f hf
    cases hf
    decide
  · exact ⟨.inr (.inl ⟨rfl, hk.1⟩), fun nb na h => by cases h; exact ⟨⟨by decide, by decide, by decide⟩, by decide, by decide, by decide⟩⟩
  · rcases hv with rfl | rfl <;> decide +kernel
  · have h : ∀ r : Except Err (Bytes × Nat × Nat), (match r with | .ok (w, _, _) => decide (w.length < 2 ^ 64) | .error _ => false) = true →
        ∃ wire b e, r = .ok (wire, b, e) ∧ wire.length < 2 ^ 64 := by
      intro r h
      rcases r with x | ⟨w, b, e⟩
      · nomatch h
      · exact ⟨w, b, e, rfl, of_decide_eq_true h⟩
    exact h _ (by rcases hv with rfl | rfl <;> decide +kernel)

theorem exFine : ∀ op ∈ exOps, Fine op := by
  intro op h
  simp only [exOps, List.mem_cons, List.not_mem_nil, or_false] at h
  rcases h with rfl | rfl | rfl | rfl | rfl | rfl | rfl | rfl | rfl | rfl | rfl | rfl | rfl | rfl | rfl | rfl | rfl | rfl | rfl | rfl | rfl | rfl |
    rfl | rfl | rfl | rfl | rfl | rfl | rfl | rfl | rfl | rfl | rfl | rfl | rfl
  all_goals first
    | exact trivial
    | exact (fun h => nomatch h : ([_] : Bytes) ≠ [])
    | exact exNameOk (by decide)
    | exact ⟨exNameOk (by decide), _, rfl⟩
    | exact ⟨exNameOk (by decide), _, _, rfl⟩
    | exact exCertOk (.inl rfl)
    | exact exCertOk (.inr rfl)

example : Agree {} exOps (run {} exOps).1 := C74_map exOps exFine

/-- `addCertificate` in a new database commits the identity, the key and the certificate. -/
example : (call (.addCertificate (exCert exA 1 1)) ⟨{}, []⟩).2.log.length = 3 := by decide +kernel

/-- After a crash that left the key without the certificate. -/
example : ∃ d ∈ (call (.addCertificate (exCert exA 1 1)) ⟨{}, []⟩).2.log,
    (run d [.hasKey (exKey exA 1), .hasCertificate (exCertName exA 1 1), .getDefaultKeyOfIdentity exA]).1 =
      [.bool true, .bool false, .name (exKey exA 1)] :=
  ⟨(run {} [.addKey exA (exKey exA 1) [1, 1]]).2, by decide +kernel, by decide +kernel⟩

example : Integrity ({} : DB) := integrity_empty

/-! ### Departures -/

theorem locator_stays (ls : List Bytes) : ∀ db : DB, db.tpmInfo.head? = some [] →
    (run db (ls.map .setTpmLocator ++ [.getTpmLocator])).1.getLast? = some (.bytes []) := by
  induction ls with
  | nil => intro db h; show some (Res.bytes (db.tpmInfo.head?.getD [])) = _; rw [h]; rfl
  | cons l ls ih =>
    intro db h
    have hd : (call (.setTpmLocator l) ⟨db, []⟩).2.db = { db with tpmInfo := db.tpmInfo ++ [l] } := by
      have e : db.tpmInfo.head?.getD [] = [] := by rw [h]; rfl
      have hs : setTpmLocator l ⟨db, []⟩ = (.ok (), ⟨{ db with tpmInfo := db.tpmInfo ++ [l] }, [{ db with tpmInfo := db.tpmInfo ++ [l] }]⟩) := by
        show (if db.tpmInfo.head?.getD [] = [] then write (.insertTpm l) else write (.updateTpm l)) ⟨db, []⟩ = _
        rw [if_pos e]
        rfl
      show (toRes (setTpmLocator l) (fun _ => Res.none) ⟨db, []⟩).2.db = _
      unfold toRes
      rw [hs]
    have := ih (call (.setTpmLocator l) ⟨db, []⟩).2.db (by
      rw [hd]
      show (db.tpmInfo ++ [l]).head? = some []
      cases hq : db.tpmInfo with
      | nil => rw [hq] at h; nomatch h
      | cons a as => rw [hq] at h; exact h)
    show ((call (.setTpmLocator l) ⟨db, []⟩).1 :: (run _ (ls.map .setTpmLocator ++ [.getTpmLocator])).1).getLast? = _
    rw [List.getLast?_cons, this]
    rfl

/-- Where the code departs: after the locator was set to the empty string, which is what a reset of the PIB does (pib.py:143-154), each call of
setTpmLocator adds a row and getTpmLocator gives the empty string for ever. -/
theorem C74_locator_lost (ls : List Bytes) :
    (run {} (.setTpmLocator [] :: (ls.map .setTpmLocator ++ [.getTpmLocator]))).1.getLast? = some (.bytes []) := by
  have := locator_stays ls (call (.setTpmLocator []) ⟨{}, []⟩).2.db rfl
  show ((call (.setTpmLocator []) ⟨{}, []⟩).1 :: (run _ (ls.map .setTpmLocator ++ [.getTpmLocator])).1).getLast? = _
  rw [List.getLast?_cons, this]
  rfl

/-- Where the code departs: setDefaultKeyOfIdentity does not look at the identity: with a key of B it leaves the default key of A and changes
that of B.  The same for addKey, with a key that belongs to another identity than the one given: no key is the default of this identity. -/
theorem C74_other_identity :
    (run {} [.addKey exA (exKey exA 1) [1], .addKey exB (exKey exB 1) [2], .addKey exB (exKey exB 2) [3],
      .setDefaultKeyOfIdentity exA (exKey exB 2), .getDefaultKeyOfIdentity exA, .getDefaultKeyOfIdentity exB]).1 =
      [.none, .none, .none, .none, .name (exKey exA 1), .name (exKey exB 2)] ∧
    (run {} [.addKey exB (exKey exB 1) [1], .addKey exB (exKey exB 2) [2], .addKey exA (exKey exB 2) [3], .getKeysOfIdentity exA,
      .getDefaultKeyOfIdentity exB]).1 = [.none, .none, .none, .names [], .name (exKey exB 2)] := by decide +kernel

/-- A certificate with null content: PibImpl.Error is raised after the identity was added. -/
theorem C74_null_content : (run {} [.addCertificate { exCert exA 1 1 with content := none }, .hasIdentity exA, .hasKey (exKey exA 1)]).1 =
    [.error .impl, .bool true, .bool false] := by decide +kernel

end PyNDN.PibSqlite
