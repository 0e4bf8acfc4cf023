import Verif.Model.Legacy
/-
Model of the small helpers of src/ot/apricot.rs and src/ot/common.rs that the models of the protocols leave out or
write more directly.
-/
namespace FP

/-- `zero_inplace` (src/ot/apricot.rs:536-541): `destination[i] ^= 0` for every `i`. -/
def zeroInplace (destination : Bytes) : R Bytes :=
  (List.range destination.length).foldlM (fun d i => do setR d i ((← idxR d i) ^^^ 0)) destination

/-- `unpack_bits_to_vec` (src/ot/apricot.rs:483-494): the vector grows by one element at a time. -/
def unpackBitsToVec (bytes : Bytes) : R (List Bool) :=
  (List.range bytes.length).foldlM (fun (bits : List Bool) i => do
    let s ← idxR bytes i
    (List.range 8).foldlM (fun (bits : List Bool) i => return bits ++ [(s >>> i) &&& 1 == 1]) bits) []

/-- `Message::from_zipped` (src/ot/common.rs:44-50). -/
def messageFromZipped (msg : List (Bytes × Bytes)) : List (Bytes × Bytes) :=
  msg.foldl (fun vec m => vec ++ [(m.1, m.2)]) []

/-- `Message::from_unzipped` (src/ot/common.rs:52-59). -/
def messageFromUnzipped (m0 m1 : List Bytes) : R (List (Bytes × Bytes)) := do
  assertR (m0.length = m1.length)
  (List.range m0.length).foldlM (fun (m : List (Bytes × Bytes)) i => return m ++ [(← idxR m0 i, ← idxR m1 i)]) []

/-- `Message::len` (src/ot/common.rs:61-63). -/
def messageLen (m : List (Bytes × Bytes)) : Nat := m.length

/-- `Message::is_empty` (src/ot/common.rs:65-67). -/
def messageIsEmpty (m : List (Bytes × Bytes)) : Bool := m.isEmpty

/-- One row of "Randomize" with the buffer the worker keeps between rows (src/ot/apricot.rs:163-190): the
buffer is passed through `zero_inplace` and then written by `xor`. -/
def apRandomizeRowBuffer (X : Crypto) (delta qT : Bytes) (msg : List (Bytes × Bytes)) (msgSize rowIdx i : Nat)
    (state : Bytes × Bytes) : R (Bytes × Bytes) := do
  let (chunk, qBuffer) := state
  let qRow ← vectorRow qT rowIdx 16
  let v0 := X.sha256 (beBytes 8 rowIdx ++ qRow)
  let m ← idxR msg rowIdx
  let chunk ← updateSlice chunk (i * (msgSize * 2)) msgSize fun plain =>
    apXorInplace X.dbg (X.fill v0 plain.length) m.1
  let qBuffer ← zeroInplace qBuffer
  let qBuffer ← apXor X.dbg qBuffer qRow delta
  let v1 := X.sha256 (beBytes 8 rowIdx ++ qBuffer)
  let chunk ← updateSlice chunk (i * (msgSize * 2) + msgSize) msgSize fun plain =>
    apXorInplace X.dbg (X.fill v1 plain.length) m.2
  return (chunk, qBuffer)

/-- The worker of "Randomize" as it is written (src/ot/apricot.rs:159-197): one buffer of 16 bytes for all rows of
the chunk. -/
def apRandomizeBuffer (X : Crypto) (cores : Nat) (sched : Nat → List Nat) (delta qT : Bytes)
    (msg : List (Bytes × Bytes)) (msgSize : Nat) : R Bytes := do
  let msgCount := msg.length
  let d := List.replicate (msgCount * (msgSize * 2)) (0 : Byte)
  let rowsInChunk ← divR msgCount (pickThreads cores msgCount)
  let chunks ← chunksR d (rowsInChunk * (msgSize * 2))
  let chunks ← runJobs (sched chunks.length) (fun c chunk => do
    let rows ← divR chunk.length (msgSize * 2)
    let (chunk, _) ← (List.range rows).foldlM (fun s i =>
      apRandomizeRowBuffer X delta qT msg msgSize (c * rowsInChunk + i) i s) (chunk, List.replicate 16 0)
    return chunk) chunks
  return chunks.flatten

end FP
