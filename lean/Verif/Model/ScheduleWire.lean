import Verif.Model.Schedule
import Verif.Model.Packet
/-
Model of the encoding of `Schedule` that is stored in the database (encrypt/schedule.py:146-211, 233-288).
-/
namespace PyNDN
namespace Encrypt
namespace Schedule

/-- `_encodeRepetitiveInterval` (schedule.py:233-261).  `Schedule.toIsoString` (schedule.py:316-328) is the same function as that of the wire format. -/
def encodeRepetitiveInterval (r : RepetitiveInterval) (out : Bytes) : Except Err Bytes := do
  let saveLength := out.length
  let out ← writeNonNegativeIntegerTlv 139 r.repeatUnit out
  let out ← writeNonNegativeIntegerTlv 138 r.nRepeats out
  let out ← writeNonNegativeIntegerTlv 137 r.endHour out
  let out ← writeNonNegativeIntegerTlv 136 r.startHour out
  let e ← toIsoString r.endDate
  let out := writeBlobTlv 135 (some (asciiBytes e)) out
  let s ← toIsoString r.startDate
  let out := writeBlobTlv 134 (some (asciiBytes s)) out
  return writeTypeAndLength 140 (out.length - saveLength) out

/-- The loops of `wireEncode` (schedule.py:161-162, 168-169): backwards over the list. -/
def encodeList : List RepetitiveInterval → Bytes → Except Err Bytes
  | [], out => .ok out
  | r :: rs, out => do
    let out ← encodeList rs out
    encodeRepetitiveInterval r out

/-- `wireEncode` (schedule.py:146-176). -/
def wireEncode (s : Schedule) : Except Err Bytes := do
  let out : Bytes := []
  let saveLength := out.length
  let saveLengthForList := out.length
  let out ← encodeList s.black out
  let out := writeTypeAndLength 142 (out.length - saveLengthForList) out
  let saveLengthForList := out.length
  let out ← encodeList s.white out
  let out := writeTypeAndLength 141 (out.length - saveLengthForList) out
  return writeTypeAndLength 143 (out.length - saveLength) out

/-- `_decodeRepetitiveInterval` (schedule.py:263-288). -/
def decodeRepetitiveInterval : Dec RepetitiveInterval := do
  let endOffset ← readNestedTlvsStart 140
  let b ← readBlobTlv 134
  let s ← Dec.lift (utf8Decode b)
  let startDate ← Dec.lift (fromIsoString s)
  let b ← readBlobTlv 135
  let s ← Dec.lift (utf8Decode b)
  let endDate ← Dec.lift (fromIsoString s)
  let startHour ← readNonNegativeIntegerTlv 136
  let endHour ← readNonNegativeIntegerTlv 137
  let nRepeats ← readNonNegativeIntegerTlv 138
  let repeatUnit ← readNonNegativeIntegerTlv 139
  finishNestedTlvs endOffset
  Dec.lift (RepetitiveInterval.make (startDate : ℚ) (endDate : ℚ) startHour endHour (some nRepeats) (some repeatUnit))

/-- One pass of the loops of `wireDecode` (schedule.py:198-200, 206-208). -/
def decodeOne (l : List RepetitiveInterval) : Dec (List RepetitiveInterval) := do
  let r ← decodeRepetitiveInterval
  return sortedSetAdd r l

/-- `wireDecode` (schedule.py:178-211). -/
def wireDecodeFrom : Dec Schedule := do
  let endOffset ← readNestedTlvsStart 143
  let listEndOffset ← readNestedTlvsStart 141
  let white ← whileBefore listEndOffset decodeOne []
  finishNestedTlvs listEndOffset
  let listEndOffset ← readNestedTlvsStart 142
  let black ← whileBefore listEndOffset decodeOne []
  finishNestedTlvs listEndOffset
  finishNestedTlvs endOffset
  return ⟨white, black⟩

def wireDecode (input : Bytes) : Except Err Schedule := runDec wireDecodeFrom input

end Schedule
end Encrypt
end PyNDN
