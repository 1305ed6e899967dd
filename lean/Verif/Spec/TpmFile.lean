import Verif.Model.TpmFile
import Verif.Spec.Name
import Verif.Spec.Packet
/-
Specification of Base 64 (RFC 4648) and of a TPM as a map from names to keys, independently of the files.
-/
namespace PyNDN.Spec.TpmFile
open PyNDN TpmFile

/-- A-Z, a-z, 0-9, + and /. -/
def alphabet : List Nat := "ABCDEFGHIJKLMNOPQRSTUVWXYZabcdefghijklmnopqrstuvwxyz0123456789+/".toList.map (·.toNat)

/-- The text is the Base 64 encoding of the bytes (RFC 4648, section 4): each 24 bits are four characters; of the last 8 bits two characters and
of the last 16 bits three characters, with zero bits added, and = for the rest. -/
inductive IsBase64 : Bytes → List Nat → Prop where
  | nil : IsBase64 [] []
  | one {a : UInt8} {i j : Nat} {ci cj : Nat} (hi : alphabet[i]? = some ci) (hj : alphabet[j]? = some cj)
      (h : i * 64 + j = a.toNat * 16) : IsBase64 [a] [ci, cj, 61, 61]
  | two {a b : UInt8} {i j k : Nat} {ci cj ck : Nat} (hi : alphabet[i]? = some ci) (hj : alphabet[j]? = some cj) (hk : alphabet[k]? = some ck)
      (h : i * 4096 + j * 64 + k = (a.toNat * 256 + b.toNat) * 4) : IsBase64 [a, b] [ci, cj, ck, 61]
  | three {a b c : UInt8} {i j k l : Nat} {ci cj ck cl : Nat} {r : Bytes} {s : List Nat} (hi : alphabet[i]? = some ci) (hj : alphabet[j]? = some cj)
      (hk : alphabet[k]? = some ck) (hl : alphabet[l]? = some cl)
      (h : i * 262144 + j * 4096 + k * 64 + l = a.toNat * 65536 + b.toNat * 256 + c.toNat) (hr : IsBase64 r s) :
      IsBase64 (a :: b :: c :: r) (ci :: cj :: ck :: cl :: s)

/-- The text in lines: each ends with a newline, and each but the last has 64 characters. -/
inductive InLines : List Nat → List Nat → Prop where
  | nil : InLines [] []
  | last {s : List Nat} (h : s ≠ []) (hs : s.length ≤ 64) : InLines s (s ++ [10])
  | line {s r t : List Nat} (h : s.length = 64) (hr : r ≠ []) (ht : InLines r t) : InLines (s ++ r) (s ++ 10 :: t)

/-- A TPM: the key of each name. -/
abbrev Keys := Name → Option PyNDN.PrivateKey.Key

def Keys.set (K : Keys) (n : Name) (k : Option PyNDN.PrivateKey.Key) : Keys := fun m => if m = n then k else K m

/-- The result of a call, and the keys after it. -/
def step (P : Params) (K : Keys) : Op → Res × Keys
  | .has n => (.bool (K n).isSome, K)
  | .get n => (.key (K n), K)
  | .delete n => (.none, K.set n none)
  | .create identity id generated =>
    match (match id with
      | .user id => if (K (identity ++ [Component.generic [75, 69, 89], id])).isSome then Except.error Err.tpm else .ok (some id)
      | .sha256 => .ok none
      | .random ids => match ids.find? fun id => (K (identity ++ [Component.generic [75, 69, 89], id])).isNone with
        | some id => .ok (some id)
        | none => .error .other), generated with
    | .error e, _ => (.error e, K)
    | .ok _, none => (.error .backEnd, K)
    | .ok given, some k =>
      let name := identity ++ [Component.generic [75, 69, 89], given.getD (Component.generic (P.sha256 (P.publicKey k.key)))]
      (.name name, K.set name (some k))
  | .export_ n password salt iv => match K n with
    | none => (.error .backEnd, K)
    | some k => match PrivateKey.exportKey P.lib salt iv k password with
      | .ok b => (.bytes b, K)
      | .error .tpm => (.error .backEnd, K)
      | .error _ => (.error .other, K)
  | .import_ n b password => match K n with
    | some _ => (.error .backEnd, K)
    | none => match PrivateKey.importKey P.lib b password with
      | .ok k => (.none, K.set n (some k))
      | .error .tpm => (.error .backEnd, K)
      | .error _ => (.error .other, K)

def run (P : Params) : Keys → List Op → List Res × Keys
  | K, [] => ([], K)
  | K, op :: ops => ((step P K op).1 :: (run P (step P K op).2 ops).1, (run P (step P K op).2 ops).2)

/-- The key can be written and read back: the library loads what is in its PKCS #8 encoding. -/
def Storable (P : Params) (k : PyNDN.PrivateKey.Key) : Prop := ∃ b, PrivateKey.toPkcs1 P.lib (some k) = .ok b ∧ PrivateKey.loadPkcs1 P.lib b none = .ok k

/-- A set of names that can be encoded and whose hashes do not collide. -/
def Distinct (P : Params) (U : Name → Prop) : Prop :=
  (∀ n, U n → CanonicalName n ∧ (flat (nameFields n)).length < 2 ^ 64) ∧
  ∀ n m, U n → U m → P.sha256 (encodeName n) = P.sha256 (encodeName m) → encodeName n = encodeName m

/-- A call with names of the set and keys that can be written. -/
def Fine (P : Params) (U : Name → Prop) : Op → Prop
  | .has n => U n
  | .get n => U n
  | .delete n => U n
  | .export_ n _ _ _ => U n
  | .import_ n b password => U n ∧ ∀ k, PrivateKey.importKey P.lib b password = .ok k → Storable P k
  | .create identity id generated =>
    (∀ k, generated = some k → Storable P k) ∧
    match id with
    | .user id => U (identity ++ [Component.generic [75, 69, 89], id])
    | .sha256 => ∀ k, generated = some k → U (identity ++ [Component.generic [75, 69, 89], Component.generic (P.sha256 (P.publicKey k.key))])
    | .random ids => ∀ id ∈ ids, U (identity ++ [Component.generic [75, 69, 89], id])

end PyNDN.Spec.TpmFile
