import Verif.Spec.Der
import Verif.Model.PrivateKey
/-
Specification of the PKCS #8 encodings of a private key (RFC 5208, RFC 2898), independently of the code.
-/
namespace PyNDN.Spec.PrivateKey
open PyNDN Spec.Der

/-- rsaEncryption. -/
def rsa : List Nat := [1, 2, 840, 113549, 1, 1, 1]
/-- id-ecPublicKey. -/
def ec : List Nat := [1, 2, 840, 10045, 2, 1]
/-- id-PBES2. -/
def pbes2 : List Nat := [1, 2, 840, 113549, 1, 5, 13]
/-- id-PBKDF2. -/
def pbkdf2 : List Nat := [1, 2, 840, 113549, 1, 5, 12]
/-- des-EDE3-CBC. -/
def des : List Nat := [1, 2, 840, 113549, 3, 7]

/-- PrivateKeyInfo: the version, the algorithm with its parameters, the private key in an OCTET STRING, and attributes. -/
inductive IsInfo (algorithm : List Nat) (key : Bytes) : Tree → Prop where
  | mk {oid : Bytes} (version : Tree) (parameters attributes : List Tree) (h : IsOid algorithm oid) :
      IsInfo algorithm key (.seq (version :: .seq (.prim 6 oid :: parameters) :: .prim 4 key :: attributes))

/-- EncryptedPrivateKeyInfo with PBES2: PBKDF2 with the salt, the iterations and what may follow: the key length and the pseudorandom
function, which is HMAC with SHA1 if it is not given; Triple DES with the initial vector; the encrypted PrivateKeyInfo. -/
inductive IsEncryptedInfo (salt : Bytes) (iterations : Nat) (options : List Tree) (iv encrypted : Bytes) : Tree → Prop where
  | mk {a b c n : Bytes} (ha : IsOid pbes2 a) (hb : IsOid pbkdf2 b) (hc : IsOid des c) (hn : IsInteger iterations n) :
      IsEncryptedInfo salt iterations options iv encrypted
        (.seq [.seq [.prim 6 a, .seq [.seq [.prim 6 b, 
          .seq (.prim 4 salt :: .prim 2 n :: options)], .seq [.prim 6 c, .prim 4 iv]]], .prim 4 encrypted])

/-- RSAPrivateKey (RFC 8017) with two primes: the version 0 and 8 numbers. -/
def IsRsaKey (t : Tree) : Prop := ∃ (v : Bytes) (ns : List Bytes), t = .seq (.prim 2 v :: ns.map (.prim 2)) ∧ IsInteger 0 v ∧ ns.length = 8

/-- The padding of PKCS #7 for blocks of 16 bytes: as many bytes as are missing, each with their number. -/
def IsPadded (plain padded : Bytes) : Prop :=
  ∃ k, 1 ≤ k ∧ k ≤ 16 ∧ padded = plain ++ List.replicate k (UInt8.ofNat k) ∧ padded.length % 16 = 0

/-- The algorithm of a type of key. -/
def algorithmOf : PrivateKey.KeyType → List Nat
  | .rsa => rsa
  | .ec => ec
  | .other => []

/-- What is assumed of the `cryptography` package, for one key: `private_bytes` gives a PrivateKeyInfo of its type, and
`load_der_private_key` gives back the key; PBKDF2 with 8 bytes of salt and 2048 iterations gives 24 bytes; Triple DES with 24 bytes of key and
8 bytes of initial vector encrypts whole blocks of 8 bytes, and decrypts them. -/
structure Sound (L : PrivateKey.Lib) (k : PrivateKey.Key) : Prop where
  type : k.type = .rsa ∨ k.type = .ec
  info : ∃ t key, IsInfo (algorithmOf k.type) key t ∧ Known t ∧ IsDer t (L.pkcs8 k.key)
  size : (L.pkcs8 k.key).length < 2 ^ 64
  load : L.load (L.pkcs8 k.key) = some k.key
  derive : ∀ salt password : Bytes, salt.length = 8 → ∃ d, L.pbkdf2 (.bytes salt) (.int 2048) password = some d ∧ d.length = 24
  cipher : ∀ d iv p : Bytes, d.length = 24 → iv.length = 8 → p.length % 8 = 0 →
    ∃ c, L.encrypt d iv p = some c ∧ c.length = p.length ∧ L.decrypt d (.bytes iv) (.bytes c) = some p

end PyNDN.Spec.PrivateKey
