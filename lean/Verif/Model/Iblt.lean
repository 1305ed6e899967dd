import Verif.Model.Basic
/-
Model of the invertible Bloom lookup table: sync/detail/invertible_bloom_lookup_table.py.

`hash seed key` stands for `Common.murmurHash3Uint32(seed, key)` (util/common.py:197-223).
-/
namespace PyNDN.Iblt

abbrev Hash := Nat → Nat → Nat

/-- `N_HASH` and `N_HASHCHECK` (invertible_bloom_lookup_table.py:315-316). -/
def nHash : Nat := 3
def nHashCheck : Nat := 11

/-- `_HashTableEntry` (invertible_bloom_lookup_table.py:242-251). -/
structure Entry where
  count : Int := 0
  keySum : Nat := 0
  keyCheck : Nat := 0
  deriving DecidableEq

/-- `_hashTable`. -/
abbrev Table := List Entry

/-- The constructor with the expected number of entries (invertible_bloom_lookup_table.py:51-63); the
division by 2 is a float division in Python 3, rounded by `int`. -/
def new (expected : Nat) : Table :=
  let n := expected + expected / 2
  let n := if n % nHash ≠ 0 then n + (nHash - n % nHash) else n
  List.replicate n {}

/-- `isPure` (invertible_bloom_lookup_table.py:253-263). -/
def Entry.isPure (h : Hash) (e : Entry) : Bool :=
  (e.count == 1 || e.count == -1) && e.keyCheck == h nHashCheck e.keySum

/-- `isEmpty` (invertible_bloom_lookup_table.py:265-269). -/
def Entry.isEmpty (e : Entry) : Bool := e.count == 0 && e.keySum == 0 && e.keyCheck == 0

/-- The index of the entry of a key for one of the hash functions
(invertible_bloom_lookup_table.py:278-283). -/
def bucket (h : Hash) (n i key : Nat) : Nat := i * (n / nHash) + h i key % (n / nHash)

/-- The change of one entry (invertible_bloom_lookup_table.py:284-287). -/
def Entry.change (h : Hash) (plusOrMinus : Int) (key : Nat) (e : Entry) : Entry :=
  ⟨e.count + plusOrMinus, e.keySum ^^^ key, e.keyCheck ^^^ h nHashCheck key⟩

/-- `_update` (invertible_bloom_lookup_table.py:271-287): ZeroDivisionError for a table without
entries. -/
def update (h : Hash) (t : Table) (plusOrMinus : Int) (key : Nat) : Except Err Table :=
  if t.length / nHash = 0 then .error .arithmetic
  else .ok ((List.range nHash).foldl (fun t' i => t'.modify (bucket h t.length i key) (Entry.change h plusOrMinus key)) t)

/-- `insert` and `erase` (invertible_bloom_lookup_table.py:87-101). -/
def insert (h : Hash) (t : Table) (key : Nat) : Except Err Table := update h t 1 key
def erase (h : Hash) (t : Table) (key : Nat) : Except Err Table := update h t (-1) key

/-- `difference` (invertible_bloom_lookup_table.py:147-166). -/
def difference (t other : Table) : Except Err Table :=
  if t.length ≠ other.length then .error .runtime
  else .ok (List.zipWith (fun a b => ⟨a.count - b.count, a.keySum ^^^ b.keySum, a.keyCheck ^^^ b.keyCheck⟩) t other)

/-- The state of `listEntries`: the copy of the table, the two sets and `nErased`. -/
structure Peel where
  table : Table
  positive : List Nat := []
  negative : List Nat := []
  erased : Nat := 0
  deriving DecidableEq

/-- `set.add`. -/
def addTo (k : Nat) (s : List Nat) : List Nat := if k ∈ s then s else k :: s

/-- The body of the `for` loop (invertible_bloom_lookup_table.py:127-134). -/
def peelOne (h : Hash) (p : Peel) (j : Nat) : Except Err Peel :=
  match p.table[j]? with
  | none => .ok p
  | some e =>
    if e.isPure h then do
      let table ← update h p.table (-e.count) e.keySum
      return { table := table
               positive := if e.count = 1 then addTo e.keySum p.positive else p.positive
               negative := if e.count = 1 then p.negative else addTo e.keySum p.negative
               erased := p.erased + 1 }
    else .ok p

/-- The `for` loop (invertible_bloom_lookup_table.py:126-134). -/
def peelRound (h : Hash) (p : Peel) : Except Err Peel :=
  (List.range p.table.length).foldlM (peelOne h) { p with erased := 0 }

/-- The `while` loop (invertible_bloom_lookup_table.py:124-137), with at most `fuel` rounds; `none` if
these are not enough. -/
def peelLoop (h : Hash) : Nat → Peel → Except Err (Option Peel)
  | 0, _ => .ok none
  | fuel + 1, p => do
    let p ← peelRound h p
    if p.erased > 0 then peelLoop h fuel p else return some p

/-- `listEntries` (invertible_bloom_lookup_table.py:103-145): the result, the positive and the negative
keys; `none` if it does not end within `fuel` rounds. -/
def listEntries (h : Hash) (fuel : Nat) (t : Table) : Except Err (Option (Bool × List Nat × List Nat)) := do
  match ← peelLoop h fuel { table := t } with
  | none => return none
  | some p => return some (p.table.all Entry.isEmpty, p.positive, p.negative)

/-- The four bytes of a value, with `&` and `>>` on Python's integers
(invertible_bloom_lookup_table.py:192-209). -/
def le4 (v : Int) : Bytes :=
  [UInt8.ofNat (v % 256).toNat, UInt8.ofNat (v / 2 ^ 8 % 256).toNat, UInt8.ofNat (v / 2 ^ 16 % 256).toNat,
   UInt8.ofNat (v / 2 ^ 24 % 256).toNat]

/-- `encode` before the compression (invertible_bloom_lookup_table.py:180-209). -/
def encodeRaw (t : Table) : Bytes :=
  (t.map fun e => le4 e.count ++ le4 e.keySum ++ le4 e.keyCheck).flatten

/-- `encode`; `compress` is `zlib.compress(..., 9)`. -/
def encode (compress : Bytes → Bytes) (t : Table) : Bytes := compress (encodeRaw t)

/-- `_decode` after the decompression (invertible_bloom_lookup_table.py:302-313). -/
def decodeRaw : Bytes → List Nat
  | a :: b :: c :: d :: rest =>
    ((d.toNat <<< 24) + (c.toNat <<< 16) + (b.toNat <<< 8) + a.toNat) :: decodeRaw rest
  | _ => []

/-- The loop of `initialize` (invertible_bloom_lookup_table.py:80-85). -/
def fill : Table → List Nat → Table
  | e :: es, a :: b :: c :: rest => (if a ≠ 0 then ⟨a, b, c⟩ else e) :: fill es rest
  | es, _ => es

/-- `initialize` (invertible_bloom_lookup_table.py:65-85); `decompress` is `zlib.decompress`, which
raises on bad input. -/
def initializeTable (decompress : Bytes → Except Err Bytes) (t : Table) (encoding : Bytes) : Except Err Table := do
  let values := decodeRaw (← decompress encoding)
  if 3 * t.length ≠ values.length then .error .runtime else return fill t values

/-- `equals` (invertible_bloom_lookup_table.py:216-234). -/
def equals (a b : Table) : Bool := a == b

end PyNDN.Iblt
