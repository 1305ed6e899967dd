import Verif.Model.Packet
/-
Model of `InMemoryStorageRetaining` (in_memory_storage/in_memory_storage_retaining.py).

The dictionary is a list of keys and values in the order of insertion.  A Python dictionary finds a key by its hash and then `==`; equal names
have equal hashes (C17), so a key is found if and only if it is equal.
-/
namespace PyNDN
namespace Storage

/-- `_cache` (in_memory_storage_retaining.py:38-40). -/
abbrev Cache := List (Name × Data)

/-- `self._cache[key] = value`: the value is replaced, or the item is put at the end. -/
def assign (key : Name) (d : Data) : Cache → Cache
  | [] => [(key, d)]
  | (k, x) :: c => if k.equals key then (k, d) :: c else (k, x) :: assign key d c

/-- `insert` (in_memory_storage_retaining.py:42-49).  `fullName` is what `data.getFullName()` gives; it may raise. -/
def insert (c : Cache) (fullName : Except Err Name) (d : Data) : Cache :=
  match fullName with
  | .ok key => assign key d c
  | .error _ => c

/-- `find` with a Name (in_memory_storage_retaining.py:51-72); with an Interest it uses only its name. -/
def find (name : Name) : Cache → Option Data
  | [] => none
  | (k, d) :: c => if name.matches k then some d else find name c

/-- `remove` (in_memory_storage_retaining.py:74-87). -/
def remove (pre : Name) (c : Cache) : Cache :=
  let keys := (c.map (·.1)).filter (fun k => pre.matches k)
  keys.foldl (fun c key => c.filter (fun x => !x.1.equals key)) c

inductive Op where
  | insert (fullName : Except Err Name) (d : Data)
  | remove (pre : Name)

def step (c : Cache) : Op → Cache
  | .insert n d => insert c n d
  | .remove p => remove p c

def run (ops : List Op) : Cache := ops.foldl step []

end Storage
end PyNDN
