import Verif.Model.Name
/-
Model of the URI form of names: `Name.toUri`, `Name.set`, escaping (name.py:130-164, 614-701, 813-836,
1154-1237, 1308-1342).  A Python `str` is a list of characters.
-/
namespace PyNDN

/-- Python's `str.strip()` whitespace. -/
def isPySpace (c : Char) : Bool :=
  let n := c.toNat
  (9 ≤ n && n ≤ 13) || (28 ≤ n && n ≤ 32) || n == 0x85 || n == 0xa0 || n == 0x1680 ||
  (0x2000 ≤ n && n ≤ 0x200a) || n == 0x2028 || n == 0x2029 || n == 0x202f || n == 0x205f ||
  n == 0x3000

/-- `str.strip()`. -/
def strip (s : List Char) : List Char :=
  ((s.dropWhile isPySpace).reverse.dropWhile isPySpace).reverse

/-- The hex digit of `k < 16`, for `"%02X"` (upper) and `"%02x"` (lower). -/
def hexDigit (upper : Bool) (k : Nat) : Char :=
  if k < 10 then Char.ofNat (48 + k) else Char.ofNat ((if upper then 55 else 87) + k)

/-- `"%02X" % x` or `"%02x" % x`. -/
def hex2 (upper : Bool) (x : UInt8) : List Char :=
  [hexDigit upper (x.toNat / 16), hexDigit upper (x.toNat % 16)]

/-- The test at name.py:1225-1227. -/
def isUnreserved (x : UInt8) : Bool :=
  (x ≥ 0x30 && x ≤ 0x39) || (x ≥ 0x41 && x ≤ 0x5a) || (x ≥ 0x61 && x ≤ 0x7a) ||
  x == 0x2b || x == 0x2d || x == 0x2e || x == 0x5f

/-- `Name.toEscapedString` (name.py:1188-1237). -/
def escapeValue (value : Bytes) : List Char :=
  if value.all (fun x => x == 0x2e) then List.replicate (value.length + 3) '.'
  else value.flatMap fun x => if isUnreserved x then [Char.ofNat x.toNat] else '%' :: hex2 true x

/-- `str(n)` for a non-negative int. -/
def strDec (n : Nat) : List Char :=
  if n < 10 then [Char.ofNat (48 + n)] else strDec (n / 10) ++ [Char.ofNat (48 + n % 10)]
termination_by n

/-- `Blob.toHex` (blob.py:261-288). -/
def toHex (b : Bytes) : List Char := b.flatMap (hex2 false)

/-- `"sha256digest="` (name.py:148, 651). -/
def sha256Prefix : List Char := "sha256digest=".toList
/-- `"params-sha256="` (name.py:153, 652). -/
def paramsPrefix : List Char := "params-sha256=".toList

/-- `Name.Component.toEscapedString` (name.py:130-164). -/
def Component.toEscapedString (c : Component) : List Char :=
  match c.type with
  | .implicit => sha256Prefix ++ toHex c.value
  | .params => paramsPrefix ++ toHex c.value
  | .generic => escapeValue c.value
  | .other code => strDec code ++ '=' :: escapeValue c.value

/-- `Name.toUri` (name.py:813-836). -/
def Name.toUri (name : Name) (includeScheme : Bool := false) : List Char :=
  if name.length = 0 then (if includeScheme then "ndn:/".toList else "/".toList)
  else (if includeScheme then "ndn:".toList else []) ++
    name.flatMap fun c => '/' :: c.toEscapedString

/-! ### Parsing -/

/-- The value of a hex digit character. -/
def hexVal (c : Char) : Option Nat :=
  let n := c.toNat
  if 48 ≤ n ∧ n ≤ 57 then some (n - 48)
  else if 65 ≤ n ∧ n ≤ 70 then some (n - 55)
  else if 97 ≤ n ∧ n ≤ 102 then some (n - 87)
  else none

/-- `int(s, 16)` for a two character string, as used at name.py:1325, when the result fits a byte.
Python also accepts a blank or a sign in place of a digit.  Simplification: non-ASCII digits, which
Python accepts too, are not modelled. -/
def parseHex2 (a b : Char) : Option Nat :=
  match hexVal a, hexVal b with
  | some x, some y => some (16 * x + y)
  | some x, none => if isPySpace b then some x else none
  | none, some y =>
    if isPySpace a || a == '+' then some y
    else if a == '-' && y == 0 then some 0 else none
  | none, none => none

/-- `buffer[0] = ord(c)`: ValueError above 255. -/
def ordByte (c : Char) : Except Err UInt8 :=
  if c.toNat < 256 then .ok (UInt8.ofNat c.toNat) else .error .value

/-- `Name._unescape` (name.py:1308-1342). -/
def unescape : List Char → Except Err Bytes
  | '%' :: a :: b :: rest => do
    let v ← match parseHex2 a b with
      | some v => .ok [UInt8.ofNat v]
      | none => do
        let x ← ordByte '%'
        let y ← ordByte a
        let z ← ordByte b
        .ok [x, y, z]
    return v ++ (← unescape rest)
  | c :: rest => do
    let x ← ordByte c
    return x :: (← unescape rest)
  | [] => .ok []

/-- `Name.fromEscapedString` (name.py:1153-1186) on the given substring; `none` is a null Blob. -/
def fromEscapedString (s : List Char) : Except Err (Option Bytes) := do
  let value ← unescape (strip s)
  if value.all (fun x => x == 0x2e) then
    if value.length ≤ 2 then return none
    else return some (value.drop 3)
  else return some value

/-- `bytearray.fromhex`: pairs of hex digits, blanks allowed between pairs. -/
def fromHex : List Char → Except Err Bytes
  | [] => .ok []
  | c :: rest =>
    if c.toNat < 128 && isPySpace c && !(28 ≤ c.toNat && c.toNat ≤ 31) then fromHex rest
    else match rest with
      | [] => .error .value
      | d :: rest' =>
        match hexVal c, hexVal d with
        | some x, some y => do return UInt8.ofNat (16 * x + y) :: (← fromHex rest')
        | _, _ => .error .value

/-- The digits of `int(s)`: single underscores are allowed between digits. -/
def parseDigits (acc : Nat) (needDigit : Bool) : List Char → Option Nat
  | [] => if needDigit then none else some acc
  | c :: cs =>
    if 48 ≤ c.toNat ∧ c.toNat ≤ 57 then parseDigits (acc * 10 + (c.toNat - 48)) false cs
    else if c = '_' ∧ needDigit = false then parseDigits acc true cs
    else none

/-- `int(s)` (name.py:677).  Simplification: non-ASCII digits are not modelled. -/
def parseInt (s : List Char) : Option Int :=
  match strip s with
  | '+' :: ds => (parseDigits 0 true ds).map fun n => (n : Int)
  | '-' :: ds => (parseDigits 0 true ds).map fun n => -(n : Int)
  | ds => (parseDigits 0 true ds).map fun n => (n : Int)

/-- The type of a component made from the decimal code (name.py:682-695, 85-97). -/
def typeOfCode (code : Int) : Except Err CType :=
  if code = 8 then .ok .generic
  else if code = 1 then .ok .implicit
  else if code = 2 then .ok .params
  else if code < 0 then .error .value
  else .ok (.other code.toNat)

/-- The first component of the rest of the URI (name.py:654-699): the component, if it is legal. -/
def parseComponent (rest : List Char) : Except Err (Option Component) :=
  let iComponentEnd := rest.idxOf '/'
  if rest.take sha256Prefix.length = sha256Prefix then do
    let bytes ← fromHex (strip (rest.drop sha256Prefix.length))
    return some (← Component.fromImplicitSha256Digest bytes)
  else if rest.take paramsPrefix.length = paramsPrefix then do
    let bytes ← fromHex (strip (rest.drop paramsPrefix.length))
    return some (← Component.fromParametersSha256Digest bytes)
  else
    let iTypeCodeEnd := rest.idxOf '='
    if iTypeCodeEnd < rest.length ∧ iTypeCodeEnd < iComponentEnd then do
      match parseInt (rest.take iTypeCodeEnd) with
      | none => .error .value
      | some code =>
        let value ← fromEscapedString ((rest.take iComponentEnd).drop (iTypeCodeEnd + 1))
        let type ← typeOfCode code
        return value.map fun v => ⟨type, v⟩
    else do
      let value ← fromEscapedString (rest.take iComponentEnd)
      return value.map fun v => ⟨.generic, v⟩

/-- The loop of `Name.set` (name.py:653-701) on the rest of the URI from `iComponentStart`. -/
def parseComponents (rest : List Char) : Except Err Name :=
  if _h : rest.length = 0 then .ok []
  else do
    let c ← parseComponent rest
    let cs ← parseComponents (rest.drop (rest.idxOf '/' + 1))
    return c.toList ++ cs
termination_by rest.length
decreasing_by simp [List.length_drop]; omega

/-- `Name.set` (name.py:614-701): the new components. -/
def parseUri (uri : List Char) : Except Err Name :=
  let uri := strip uri
  if uri.length = 0 then .ok []
  else
    let iColon := uri.idxOf ':'
    let uri :=
      if iColon < uri.length then
        let iFirstSlash := uri.idxOf '/'
        if ¬ iFirstSlash < uri.length ∨ iColon < iFirstSlash then strip (uri.drop (iColon + 1)) else uri
      else uri
    match uri with
    | [] => .error .index
    | c :: _ =>
      if c = '/' then
        if uri.length ≥ 2 ∧ uri[1]? = some '/' then
          let afterAuthority := (uri.drop 2).idxOf '/'
          if ¬ afterAuthority < (uri.drop 2).length then .ok []
          else parseComponents (strip (uri.drop (2 + afterAuthority + 1)))
        else parseComponents (strip (uri.drop 1))
      else parseComponents uri

end PyNDN
