/-
Basic conventions of the model.
-/
namespace PyNDN

-- So that concrete results can be compared by evaluation.
deriving instance DecidableEq for Except

/-- A Python byte buffer (`bytearray`, `memoryview`, or the array of a non-null `Blob`,
util/blob.py:30-82). -/
abbrev Bytes := List UInt8

/-- The Python exception classes that the modelled code can raise, as values.
`UnicodeDecodeError` is a subclass of `ValueError` in Python and is represented by `value`. -/
inductive Err where
  | value      -- ValueError
  | runtime    -- RuntimeError
  | index      -- IndexError
  | type       -- TypeError
  | attribute  -- AttributeError
  | key        -- KeyError
  | arithmetic -- ZeroDivisionError, OverflowError
  deriving DecidableEq, Repr

/-- `Common.MAX_NDN_PACKET_SIZE` (util/common.py:251). -/
def maxNdnPacketSize : Nat := 8800

/-- A Python byte expression `(v >> k) & 0xff` stored in a bytearray. -/
def byteAtShift (v k : Nat) : UInt8 := UInt8.ofNat ((v >>> k) &&& 0xff)

end PyNDN
