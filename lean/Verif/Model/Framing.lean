import Verif.Model.Encoder
import Verif.Model.Decoder
/-
Model of `TlvStructureDecoder` (encoding/tlv/tlv_structure_decoder.py) and `ElementReader`
(encoding/element_reader.py).
-/
namespace PyNDN

/-- The states of `TlvStructureDecoder` (tlv_structure_decoder.py:41-45). -/
inductive SDState where
  | readType | readTypeBytes | readLength | readLengthBytes | readValueBytes
  deriving DecidableEq, Repr

/-- `TlvStructureDecoder` (tlv_structure_decoder.py:30-39).  `_firstOctet` does not exist before line 127
sets it; it is only read in the state that line 128 sets. -/
structure SD where
  gotElementEnd : Bool
  offset : Nat
  state : SDState
  headerLength : Nat
  useHeaderBuffer : Bool
  headerBuffer : Bytes
  nBytesToRead : Nat
  firstOctet : Nat
  deriving DecidableEq, Repr

/-- `TlvStructureDecoder()` (tlv_structure_decoder.py:30-39). -/
def SD.new : SD := ⟨false, 0, .readType, 0, false, List.replicate 8 0, 0, 0⟩

/-- The number of bytes after the first octet (tlv_structure_decoder.py:82-88, 118-124). -/
def nExtended (firstOctet : Nat) : Nat :=
  if firstOctet = 253 then 2 else if firstOctet = 254 then 4 else 8

/-- The end of the READ_LENGTH_BYTES case, when the length of the value has been read
(tlv_structure_decoder.py:178-184). -/
def SD.gotLength (s : SD) : SD × Option Bool :=
  if s.nBytesToRead = 0 then ({ s with gotElementEnd := true }, some true)
  else ({ s with state := .readValueBytes }, none)

/-- One pass of the `while True` loop of `findElementEnd` (tlv_structure_decoder.py:67-199): the new
state, and `some b` when the method returns `b`. -/
def SD.pass (s : SD) (input : Bytes) : Except Err (SD × Option Bool) :=
  if s.offset ≥ input.length then .ok (s, some false)
  else
    match s.state with
    | .readType =>
      match input[s.offset]? with
      | none => .error .index
      | some b =>
        let firstOctet := b.toNat
        let s := { s with offset := s.offset + 1 }
        if firstOctet < 253 then .ok ({ s with state := .readLength }, none)
        else .ok ({ s with nBytesToRead := nExtended firstOctet, state := .readTypeBytes }, none)
    | .readTypeBytes =>
      let nRemainingBytes := input.length - s.offset
      if nRemainingBytes < s.nBytesToRead then
        .ok ({ s with offset := s.offset + nRemainingBytes,
                      nBytesToRead := s.nBytesToRead - nRemainingBytes }, some false)
      else .ok ({ s with offset := s.offset + s.nBytesToRead, state := .readLength }, none)
    | .readLength =>
      match input[s.offset]? with
      | none => .error .index
      | some b =>
        let firstOctet := b.toNat
        let s := { s with offset := s.offset + 1 }
        if firstOctet < 253 then
          let s := { s with nBytesToRead := firstOctet }
          if s.nBytesToRead = 0 then .ok ({ s with gotElementEnd := true }, some true)
          else .ok ({ s with state := .readValueBytes }, none)
        else
          .ok ({ s with nBytesToRead := nExtended firstOctet, firstOctet := firstOctet,
                        state := .readLengthBytes }, none)
    | .readLengthBytes =>
      let nRemainingBytes := input.length - s.offset
      if !s.useHeaderBuffer && nRemainingBytes ≥ s.nBytesToRead then
        match (readExtendedVarNumber s.firstOctet).run input s.offset with
        | .error e => .error e
        | .ok (n, off) => .ok (SD.gotLength { s with nBytesToRead := n, offset := off })
      else
        let s := { s with useHeaderBuffer := true }
        let nNeededBytes := s.nBytesToRead - s.headerLength
        if nNeededBytes > nRemainingBytes then
          if s.headerLength + nRemainingBytes > s.headerBuffer.length then .error .runtime
          else
            .ok ({ s with
              headerBuffer := sliceAssign s.headerBuffer s.headerLength
                ((input.drop s.offset).take nRemainingBytes),
              offset := s.offset + nRemainingBytes,
              headerLength := s.headerLength + nRemainingBytes }, some false)
        else if s.headerLength + nNeededBytes > s.headerBuffer.length then .error .runtime
        else
          let s := { s with
            headerBuffer := sliceAssign s.headerBuffer s.headerLength
              ((input.drop s.offset).take nNeededBytes),
            offset := s.offset + nNeededBytes }
          match (readExtendedVarNumber s.firstOctet).run s.headerBuffer 0 with
          | .error e => .error e
          | .ok (n, _) => .ok (SD.gotLength { s with nBytesToRead := n })
    | .readValueBytes =>
      let nRemainingBytes := input.length - s.offset
      if nRemainingBytes < s.nBytesToRead then
        .ok ({ s with offset := s.offset + nRemainingBytes,
                      nBytesToRead := s.nBytesToRead - nRemainingBytes }, some false)
      else
        .ok ({ s with offset := s.offset + s.nBytesToRead, gotElementEnd := true }, some true)

/-- The loop of `findElementEnd` (tlv_structure_decoder.py:67-199).  Each pass that does not return goes
to a later state, so five passes are enough; running out of fuel is reported as the error `runtime`,
which is proved unreachable. -/
def SD.loop (input : Bytes) : Nat → SD → Except Err (SD × Bool)
  | 0, _ => .error .runtime
  | fuel + 1, s =>
    match s.pass input with
    | .error e => .error e
    | .ok (s, some b) => .ok (s, b)
    | .ok (s, none) => SD.loop input fuel s

/-- `TlvStructureDecoder.findElementEnd` (tlv_structure_decoder.py:47-199). -/
def SD.findElementEnd (s : SD) (input : Bytes) : Except Err (SD × Bool) :=
  if s.gotElementEnd then .ok (s, true) else SD.loop input 6 s

/-- `ElementReader` (element_reader.py:38-43). -/
structure Reader where
  decoder : SD
  usePartialData : Bool
  partialData : DynArray
  partialDataLength : Nat
  deriving DecidableEq, Repr

/-- `ElementReader(listener)` (element_reader.py:38-43). -/
def Reader.new : Reader := ⟨SD.new, false, List.replicate 1000 0, 0⟩

/-- What a call does: the reader afterwards, the elements given to the listener in order, and the
exception raised, if any. -/
structure ReaderOut where
  reader : Reader
  delivered : List Bytes
  result : Except Err Unit
  deriving Repr

/-- The `while True` loop of `onReceivedData` (element_reader.py:60-129).  `listener e` is the exception
that `onReceivedElement(e)` raises, if any.  Each pass that does not return consumes at least one byte;
running out of fuel is reported as the error `runtime`, which is proved unreachable. -/
def Reader.loop (listener : Bytes → Option Err) : Nat → Reader → Bytes → ReaderOut
  | 0, r, _ => ⟨r, [], .error .runtime⟩
  | fuel + 1, r, data =>
    if !r.usePartialData && data.length == 0 then ⟨r, [], .ok ()⟩
    else
      match SD.findElementEnd { r.decoder with offset := 0 } data with
      | .error e =>
        if e = .value then ⟨{ r with usePartialData := false, decoder := SD.new }, [], .error e⟩
        else ⟨r, [], .error e⟩
      | .ok (sd, gotElementEnd) =>
        let offset := sd.offset
        if gotElementEnd then
          let (element, r) :=
            if r.usePartialData then
              let a := dynCopy r.partialData (data.take offset) r.partialDataLength
              let n := r.partialDataLength + offset
              (a.take n, { r with partialData := a, partialDataLength := n, usePartialData := false })
            else (data.take offset, r)
          let data := data.drop offset
          let r := { r with decoder := SD.new }
          match listener element with
          | some e => ⟨r, [element], .error e⟩
          | none =>
            if data.length = 0 then ⟨r, [element], .ok ()⟩
            else
              let out := Reader.loop listener fuel r data
              { out with delivered := element :: out.delivered }
        else
          let r := { r with decoder := sd }
          let r := if !r.usePartialData then { r with usePartialData := true, partialDataLength := 0 } else r
          if r.partialDataLength + data.length > maxNdnPacketSize then
            ⟨{ r with usePartialData := false, decoder := SD.new }, [], .error .value⟩
          else
            ⟨{ r with partialData := dynCopy r.partialData data r.partialDataLength,
                      partialDataLength := r.partialDataLength + data.length }, [], .ok ()⟩

/-- `ElementReader.onReceivedData` (element_reader.py:45-129). -/
def Reader.onReceivedData (r : Reader) (listener : Bytes → Option Err) (data : Bytes) : ReaderOut :=
  Reader.loop listener (data.length + 1) r data

/-- A history of calls, with the elements given to the listener and the results of the calls.  The caller
keeps using the reader after an exception. -/
def Reader.feed (listener : Bytes → Option Err) : Reader → List Bytes → Reader × List Bytes × List (Except Err Unit)
  | r, [] => (r, [], [])
  | r, d :: ds =>
    let out := r.onReceivedData listener d
    let (r', es, rs) := Reader.feed listener out.reader ds
    (r', out.delivered ++ es, out.result :: rs)

end PyNDN
