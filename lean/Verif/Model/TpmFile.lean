import Verif.Model.PrivateKey
import Verif.Model.KeyChain
import Verif.Model.NameUri
/-
Model of `Common.base64Encode` (util/common.py) with `base64.b64encode` and `base64.b64decode` of the Python library, and of
security/tpm/tpm_back_end_file.py with the methods of security/tpm/tpm_back_end.py that it inherits.  The files of the directory are a map from
the file name to the text.  Reading and removing a file do not fail, and writing fails only by a crash.
-/
namespace PyNDN.TpmFile
open PrivateKey (Lib Key)

/-! ### Base 64 -/

/-- The characters of `b64encode`. -/
def char (n : Nat) : Nat :=
  if n < 26 then 65 + n else if n < 52 then 97 + (n - 26) else if n < 62 then 48 + (n - 52) else if n = 62 then 43 else 47

/-- `table_a2b_base64` of CPython (binascii.c). -/
def value (c : Nat) : Option Nat :=
  if 65 ≤ c ∧ c ≤ 90 then some (c - 65) else if 97 ≤ c ∧ c ≤ 122 then some (c - 97 + 26) else if 48 ≤ c ∧ c ≤ 57 then some (c - 48 + 52)
  else if c = 43 then some 62 else if c = 47 then some 63 else none

/-- `base64.b64encode`. -/
def b64encode : Bytes → List Nat
  | [] => []
  | [a] => [char (a.toNat / 4), char (a.toNat % 4 * 16), 61, 61]
  | [a, b] => [char (a.toNat / 4), char (a.toNat % 4 * 16 + b.toNat / 16), char (b.toNat % 16 * 4), 61]
  | a :: b :: c :: r =>
    char (a.toNat / 4) :: char (a.toNat % 4 * 16 + b.toNat / 16) :: char (b.toNat % 16 * 4 + c.toNat / 64) :: char (c.toNat % 64) :: b64encode r

/-- The loop of `base64Encode` for the newlines (common.py:189-194). -/
def addNewlines (s : List Nat) : List Nat := match s with
  | [] => []
  | c :: r => (c :: r).take 64 ++ 10 :: addNewlines ((c :: r).drop 64)
termination_by s.length
decreasing_by simp; omega

/-- `Common.base64Encode` (common.py:169-195). -/
def base64Encode (b : Bytes) (newlines : Bool) : List Nat := if newlines then addNewlines (b64encode b) else b64encode b

/-- `a2b_base64` of CPython (binascii.c), where strict_mode is not set: the position in the group of four, the bits that are left, and the padding
characters.  None for binascii.Error. -/
def a2b : List Nat → Nat → Nat → Nat → Option Bytes
  | [], quad, _, _ => if quad = 0 then some [] else none
  | c :: r, quad, left, pads =>
    if c = 61 then
      if quad ≥ 2 then if quad + (pads + 1) ≥ 4 then some [] else a2b r quad left (pads + 1)
      else a2b r quad left pads
    else match value c with
      | none => a2b r quad left pads
      | some v => match quad with
        | 0 => a2b r 1 v 0
        | 1 => (a2b r 2 (v % 16) 0).map (UInt8.ofNat (left * 4 + v / 16) :: ·)
        | 2 => (a2b r 3 (v % 4) 0).map (UInt8.ofNat (left * 16 + v / 4) :: ·)
        | _ => (a2b r 0 0 0).map (UInt8.ofNat (left * 64 + v) :: ·)

/-- `base64.b64decode` of a str; none for ValueError, of which binascii.Error is a subclass. -/
def b64decode (s : List Nat) : Option Bytes := if s.all (· < 128) then a2b s 0 0 0 else none

/-! ### The back end -/

/-- The exceptions: Tpm.Error, TpmBackEnd.Error (and TpmBackEndFile.Error, its subclass), ValueError of `b64decode`, and those that
`PrivateKey` lets through. -/
inductive Err where
  | tpm | backEnd | value | other
  deriving DecidableEq, Repr

/-- What is not modelled, besides the library of the private keys. -/
structure Params where
  lib : Lib
  sha256 : Bytes → Bytes
  publicKey : Nat → Bytes

/-- The directory. -/
abbrev Dir := List (List Char × List Nat)

def Dir.read (d : Dir) (path : List Char) : Option (List Nat) := d.lookup path
def Dir.remove (d : Dir) (path : List Char) : Dir := d.filter (·.1 ≠ path)
def Dir.write (d : Dir) (path : List Char) (text : List Nat) : Dir := (path, text) :: d.remove path

/-- `_toFilePath` (tpm_back_end_file.py:249-264), in the directory. -/
def filePath (P : Params) (name : Name) : List Char := toHex (P.sha256 (encodeName name)) ++ ".privkey".toList

/-- `_loadKey` (tpm_back_end_file.py:201-226). -/
def loadKey (P : Params) (d : Dir) (name : Name) : Except Err Key :=
  match d.read (filePath P name) with
  | none => .error .backEnd
  | some text => match b64decode text with
    | none => .error .value
    | some pkcs => match PrivateKey.loadPkcs1 P.lib pkcs none with
      | .ok k => .ok k
      | .error _ => .error .backEnd

/-- The text of a key (tpm_back_end_file.py:236-240). -/
def keyText (P : Params) (k : Key) : Except Err (List Nat) :=
  match PrivateKey.toPkcs1 P.lib (some k) with
  | .ok b => .ok (base64Encode b true)
  | .error _ => .error .backEnd

/-- `_saveKey` (tpm_back_end_file.py:228-247). -/
def saveKey (P : Params) (d : Dir) (name : Name) (k : Key) : Except Err Dir :=
  (keyText P k).map (d.write (filePath P name))

/-- `hasKey` (tpm_back_end.py:52-61, tpm_back_end_file.py:77-93). -/
def hasKey (P : Params) (d : Dir) (name : Name) : Except Err Bool :=
  match d.read (filePath P name) with
  | none => .ok false
  | some _ => match loadKey P d name with
    | .ok _ => .ok true
    | .error .backEnd => .ok false
    | .error e => .error e

/-- `getKeyHandle` (tpm_back_end.py:63-72, tpm_back_end_file.py:95-106): the key of the handle. -/
def getKeyHandle (P : Params) (d : Dir) (name : Name) : Except Err (Option Key) :=
  match hasKey P d name with
  | .error e => .error e
  | .ok false => .ok none
  | .ok true => (loadKey P d name).map some

/-- The loop that draws random key ids (tpm_back_end.py:96-105); with no more draws the loop goes on, the model raises. -/
def draw (P : Params) (d : Dir) (identity : Name) : List Component → Except Err Component
  | [] => .error .other
  | id :: ids => match hasKey P d (KeyChain.constructKeyName identity id) with
    | .error e => .error e
    | .ok true => draw P d identity ids
    | .ok false => .ok id

/-- `createKey` (tpm_back_end.py:74-110, 206-231, tpm_back_end_file.py:108-130) with the key that `generatePrivateKey` gives, none for an
exception: the name of the key. -/
def createKey (P : Params) (d : Dir) (identity : Name) (id : KeyChain.KeyId) (generated : Option Key) : Except Err (Name × Dir) := do
  let given ← match id with
    | .user id => match hasKey P d (KeyChain.constructKeyName identity id) with
      | .error e => .error e
      | .ok true => .error .tpm
      | .ok false => .ok (some id)
    | .sha256 => .ok none
    | .random ids => (draw P d identity ids).map some
  match generated with
  | none => .error .backEnd
  | some k =>
    let name := KeyChain.constructKeyName identity (given.getD (.generic (P.sha256 (P.publicKey k.key))))
    let d ← saveKey P d name k
    return (name, d)

/-- `deleteKey` (tpm_back_end.py:112-121, tpm_back_end_file.py:132-141). -/
def deleteKey (P : Params) (d : Dir) (name : Name) : Dir :=
  match d.read (filePath P name) with
  | none => d
  | some _ => d.remove (filePath P name)

/-- An exception of `PrivateKey`: TpmPrivateKey.Error is turned into TpmBackEnd.Error (tpm_back_end_file.py:169-171, 196-197). -/
def outer : PrivateKey.Err → Err
  | .tpm => .backEnd
  | _ => .other

/-- `exportKey` (tpm_back_end.py:123-142, tpm_back_end_file.py:143-171); `salt` and `iv` are from the random generator. -/
def exportKey (P : Params) (d : Dir) (name : Name) (password : Option Bytes) (salt iv : Bytes) : Except Err Bytes :=
  match hasKey P d name with
  | .error e => .error e
  | .ok false => .error .backEnd
  | .ok true => match loadKey P d name with
    | .error e => .error e
    | .ok k => match PrivateKey.exportKey P.lib salt iv k password with
      | .ok b => .ok b
      | .error e => .error (outer e)

/-- `importKey` (tpm_back_end.py:144-165, tpm_back_end_file.py:173-199). -/
def importKey (P : Params) (d : Dir) (name : Name) (pkcs8 : Bytes) (password : Option Bytes) : Except Err Dir :=
  match hasKey P d name with
  | .error e => .error e
  | .ok true => .error .backEnd
  | .ok false => match PrivateKey.importKey P.lib pkcs8 password with
    | .error e => .error (outer e)
    | .ok k => saveKey P d name k

/-! ### Histories -/

/-- A call. -/
inductive Op where
  | has (name : Name)
  | get (name : Name)
  | create (identity : Name) (id : KeyChain.KeyId) (generated : Option Key)
  | delete (name : Name)
  | export_ (name : Name) (password : Option Bytes) (salt iv : Bytes)
  | import_ (name : Name) (pkcs8 : Bytes) (password : Option Bytes)

/-- What a call returns. -/
inductive Res where
  | none
  | bool (b : Bool)
  | key (k : Option Key)
  | name (n : Name)
  | bytes (b : Bytes)
  | error (e : Err)
  deriving DecidableEq

/-- A call by a process: there is nothing in the object but the path, so each call may as well be by a new process. -/
def step (P : Params) (d : Dir) : Op → Res × Dir
  | .has n => match hasKey P d n with
    | .ok b => (.bool b, d)
    | .error e => (.error e, d)
  | .get n => match getKeyHandle P d n with
    | .ok k => (.key k, d)
    | .error e => (.error e, d)
  | .create n id g => match createKey P d n id g with
    | .ok (name, d) => (.name name, d)
    | .error e => (.error e, d)
  | .delete n => (.none, deleteKey P d n)
  | .export_ n password salt iv => match exportKey P d n password salt iv with
    | .ok b => (.bytes b, d)
    | .error e => (.error e, d)
  | .import_ n b password => match importKey P d n b password with
    | .ok d => (.none, d)
    | .error e => (.error e, d)

/-- The results of a history and the directory after it. -/
def run (P : Params) : Dir → List Op → List Res × Dir
  | d, [] => ([], d)
  | d, op :: ops => ((step P d op).1 :: (run P (step P d op).2 ops).1, (run P (step P d op).2 ops).2)

/-- The directory after a crash while `_saveKey` writes: the file was truncated by `open`, and some of the text was written. -/
def crashed (P : Params) (d : Dir) (name : Name) (text : List Nat) (written : Nat) : Dir := d.write (filePath P name) (text.take written)

end PyNDN.TpmFile
