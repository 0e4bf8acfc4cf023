import Verif.Model.OT
import Verif.Model.BitMatrix
import Verif.Model.GF128
/-
Model of src/ot/apricot.rs.  `K = S = 128`, `K_BYTES = 16`.  Lengths and indices are natural numbers:
`usize` overflow is not modelled here (every length is that of a buffer in memory).
-/
namespace FP

/-- `a / b`: panics when `b = 0` (src/ot/apricot.rs:152, 371, 417 and 421). -/
def divR (a b : Nat) : R Nat := if b = 0 then panicR else .ok (a / b)

/-- `array_from_slice::<32>` (src/ot/apricot.rs:496-499): reads 32 bytes from the start of the slice,
whatever its length. -/
def arrayFromSlice (v : Bytes) : R WireBytes :=
  if h : 32 ≤ v.length then .ok ⟨(v.take 32).toArray, by simp [h]⟩ else ubR

/-- `xor` (src/ot/apricot.rs:517-525). -/
def apXor (dbg : Bool) (destination left right : Bytes) : R Bytes := do
  debugAssertR dbg (left.length = right.length)
  debugAssertR dbg (left.length = destination.length)
  (List.range left.length).foldlM
    (fun d i => do setR d i ((← idxR left i) ^^^ (← idxR right i))) destination

/-- `xor_inplace` (src/ot/apricot.rs:527-534): the loop runs over the right operand. -/
def apXorInplace (dbg : Bool) (destination right : Bytes) : R Bytes := do
  debugAssertR dbg (right.length = destination.length)
  (List.range right.length).foldlM
    (fun d i => do setR d i ((← idxR d i) ^^^ (← idxR right i))) destination

/-- The loop of `eq` (src/ot/apricot.rs:547-553): it runs over the left operand and indexes the right
one. -/
def apEqLoop : Bytes → Bytes → R Bool
  | [], _ => .ok true
  | _ :: _, [] => panicR
  | a :: left, b :: right => if a ≠ b then .ok false else apEqLoop left right

/-- `eq` (src/ot/apricot.rs:543-554). -/
def apEq (dbg : Bool) (left right : Bytes) : R Bool := do
  debugAssertR dbg (left.length = right.length)
  apEqLoop left right

/-- `pick_suitable_thread_count` (src/ot/apricot.rs:581-594) with `num_cpus::get() = cores`. -/
def pickThreads (cores rows : Nat) : Nat :=
  if rows < cores then rows else if rows % cores = 0 then cores else rows / cores

/-- `vector_slice(v, offset, length)` (src/util.rs:135-140): a raw pointer, undefined behaviour out of
range. -/
def vectorSlice (v : Bytes) (offset length : Nat) : R Bytes :=
  if offset + length ≤ v.length then .ok ((v.drop offset).take length) else ubR

/-- `vector_slice_mut(v, offset, length)` (src/util.rs:141-146) and an update of that slice. -/
def updateSlice (v : Bytes) (offset length : Nat) (f : Bytes → R Bytes) : R Bytes :=
  if offset + length ≤ v.length then do
    let r ← f ((v.drop offset).take length)
    return v.take offset ++ r ++ v.drop (offset + length)
  else ubR

/-- "Compute t" of the sender and "Compute t0", "Compute t1" of the receiver (src/ot/apricot.rs:75-79 and
284-296): row `i` of 128 rows of `w` bytes is the stream of seed `i`.  The receiver's seeds are arrays of
32 bytes, for which `array_from_slice` is the identity. -/
def apRows (X : Crypto) (w : Nat) (seeds : List Bytes) : R Bytes :=
  (List.range 128).foldlM (fun t i => updateRow t i w fun row => do
    let seed ← arrayFromSlice (← idxR seeds i)
    return X.fill seed row.length) (List.replicate (128 * w) 0)

/-- "Compute q" (src/ot/apricot.rs:97-107). -/
def apQ (dbg : Bool) (w : Nat) (delta t u : Bytes) : R Bytes :=
  (List.range 128).foldlM (fun q i => updateRow q i w fun row => do
    let d := ((← idxR delta (i / 8)) >>> (i % 8)) &&& 1
    let row ← if d = 1 then do apXorInplace dbg row (← vectorRow u i w) else pure row
    apXorInplace dbg row (← vectorRow t i w)) (List.replicate (128 * w) 0)

/-- "Compute q_sum" (src/ot/apricot.rs:121-127): the sum of the products of the rows of two matrices of
`l` rows of 16 bytes. -/
def apSum (arm : Bool) (l : Nat) (rows chi : Bytes) : R Bytes :=
  (List.range l).foldlM (fun acc j => do
    let row ← vectorRow rows j 16
    let chiRow ← vectorRow chi j 16
    apricotMulAcc arm acc row chiRow) (List.replicate 16 0)

/-- One row of "Randomize" (src/ot/apricot.rs:170-190): both ciphertexts of pair `rowIdx`, written at row
`i` of the chunk.  `q_buffer` is completely overwritten in every row, so it is local here. -/
def apRandomizeRow (X : Crypto) (delta qT : Bytes) (msg : List (Bytes × Bytes)) (msgSize rowIdx i : Nat)
    (chunk : Bytes) : R Bytes := do
  let qRow ← vectorRow qT rowIdx 16
  let v0 := X.sha256 (beBytes 8 rowIdx ++ qRow)
  let m ← idxR msg rowIdx
  let chunk ← updateSlice chunk (i * (msgSize * 2)) msgSize fun plain =>
    apXorInplace X.dbg (X.fill v0 plain.length) m.1
  let qBuffer ← apXor X.dbg (List.replicate 16 0) qRow delta
  let v1 := X.sha256 (beBytes 8 rowIdx ++ qBuffer)
  updateSlice chunk (i * (msgSize * 2) + msgSize) msgSize fun plain =>
    apXorInplace X.dbg (X.fill v1 plain.length) m.2

/-- "Randomize" (src/ot/apricot.rs:147-197).  `sched n` is the order in which rayon runs `n` jobs. -/
def apRandomize (X : Crypto) (cores : Nat) (sched : Nat → List Nat) (delta qT : Bytes)
    (msg : List (Bytes × Bytes)) (msgSize : Nat) : R Bytes := do
  let msgCount := msg.length
  let d := List.replicate (msgCount * (msgSize * 2)) (0 : Byte)
  let rowsInChunk ← divR msgCount (pickThreads cores msgCount)
  let chunks ← chunksR d (rowsInChunk * (msgSize * 2))
  let chunks ← runJobs (sched chunks.length) (fun c chunk => do
    let rows ← divR chunk.length (msgSize * 2)
    (List.range rows).foldlM (fun chunk i =>
      apRandomizeRow X delta qT msg msgSize (c * rowsInChunk + i) i chunk) chunk) chunks
  return chunks.flatten

/-- `Sender::exchange` after the bootstrap (src/ot/apricot.rs:74-231). -/
def apricotSenderExtend (X : Crypto) (arm : Bool) (cores : Nat) (sched : Nat → List Nat) (delta : Bytes)
    (seed : WireBytes) (msg : List (Bytes × Bytes)) (msgSize : Nat) (payloads : List Bytes) : Proc Unit := do
  let l := msg.length + 256
  let w := l / 8
  let t ← apRows X w payloads
  let chi := X.fill seed (16 * l)
  let u ← recvP
  let q ← apQ X.dbg w delta t u
  let qT ← transposeMatrix q (List.replicate (16 * l) 0) 128 w 16
  -- correlation check
  let qSum ← apSum arm l qT chi
  let xSum ← recvP
  let tSum ← recvP
  debugAssertR X.dbg (16 = xSum.length)
  debugAssertR X.dbg (16 = tSum.length)
  let qSum ← apricotMulAcc arm qSum xSum delta
  let equal ← apEq X.dbg tSum qSum
  if equal then do
    let d ← apRandomize X cores sched delta qT msg msgSize
    sendP d
  else
    errR .polychromatic

/-- `Sender::exchange` (src/ot/apricot.rs:30-232).  `coin` and `delta` are the random draws, `inner` the
bootstrap receiver. -/
def apricotSender (X : Crypto) (arm : Bool) (cores : Nat) (sched : Nat → List Nat) (coin : WireBytes)
    (delta : Vector Byte 16) (inner : List Bool → Proc (List Bytes)) (msg : List (Bytes × Bytes)) :
    Proc Unit := do
  debugAssertR X.dbg (msg.length % 8 = 0)
  validateProperties ⟨msg.length, "Apricot"⟩
  let seed ← coinflipReceiver X.toEnv coin.toList
  let seed ← toArray32 seed
  let m0 ← idxR msg 0
  let msgSize := m0.1.length
  sendP (beBytes 2 (msgSize % 2 ^ 16))
  let payloads ← inner (u8VecToBoolVec delta.toList)
  apricotSenderExtend X arm cores sched delta.toList seed msg msgSize payloads

/-- "Pack choices" (src/ot/apricot.rs:300-310). -/
def apPack (padded : List Bool) : R Bytes :=
  (List.range (padded.length / 8)).foldlM (fun packed i =>
    (List.range 8).foldlM (fun packed b => do
      if (← idxR padded (i * 8 + b)) then orAt packed i ((1 : Byte) <<< b) else pure packed) packed)
    (List.replicate (padded.length / 8) 0)

/-- "Compute u" (src/ot/apricot.rs:314-323). -/
def apU (dbg : Bool) (w : Nat) (t0 t1 packed : Bytes) : R Bytes :=
  (List.range 128).foldlM (fun u i => updateRow u i w fun row => do
    let t0Row ← vectorRow t0 i w
    let t1Row ← vectorRow t1 i w
    let row ← apXor dbg row t0Row t1Row
    apXorInplace dbg row packed) (List.replicate (128 * w) 0)

/-- "Check Correlation" of the receiver (src/ot/apricot.rs:346-356): `x_sum` and `t_sum`. -/
def apReceiverSums (dbg arm : Bool) (l : Nat) (padded : List Bool) (t chi : Bytes) : R (Bytes × Bytes) :=
  (List.range l).foldlM (fun (s : Bytes × Bytes) j => do
    let chiRow ← vectorRow chi j 16
    let xSum ← if (← idxR padded j) then apXorInplace dbg s.1 chiRow else pure s.1
    let tRow ← vectorRow t j 16
    let tSum ← apricotMulAcc arm s.2 tRow chiRow
    return (xSum, tSum)) (List.replicate 16 0, List.replicate 16 0)

/-- "Compute v" (src/ot/apricot.rs:369-395). -/
def apV (X : Crypto) (cores : Nat) (sched : Nat → List Nat) (l : Nat) (t : Bytes) : R Bytes := do
  let v := List.replicate (l * 32) (0 : Byte)
  let rowsInChunk ← divR l (pickThreads cores l)
  let chunks ← chunksR v (rowsInChunk * 32)
  let chunks ← runJobs (sched chunks.length) (fun c chunk =>
    (List.range (chunk.length / 32)).foldlM (fun chunk i => updateRow chunk i 32 fun row => do
      let tRow ← vectorRow t (c * rowsInChunk + i) 16
      apXorInplace X.dbg row (X.sha256 (beBytes 8 (c * rowsInChunk + i) ++ tRow)).toList) chunk) chunks
  return chunks.flatten

/-- One row of "De-randomize" (src/ot/apricot.rs:434-448): the new contents of a row of `y`. -/
def apDerandomizeRow (X : Crypto) (v d packed : Bytes) (msgSize j : Nat) (row : Bytes) : R Bytes := do
  let b := j % 8
  let vRow ← vectorRow v j 32
  let seed ← arrayFromSlice vRow
  let choice := (((← idxR packed ((j - b) / 8)) >>> b) &&& 1).toNat
  let dRow ← vectorSlice d (j * msgSize * 2 + choice * msgSize) msgSize
  apXorInplace X.dbg (X.fill seed row.length) dRow

/-- "De-randomize" (src/ot/apricot.rs:415-455). -/
def apDerandomize (X : Crypto) (cores : Nat) (sched : Nat → List Nat) (v d packed : Bytes) (n : Nat)
    (y : List Bytes) : R (List Bytes) := do
  let msgSize ← divR (d.length / 2) n
  let rowsInChunk ← divR n (pickThreads cores n)
  let chunks ← chunksR y rowsInChunk
  let chunks ← runJobs (sched chunks.length) (fun c chunk =>
    (List.range chunk.length).foldlM (fun chunk i => do
      setR chunk i (← apDerandomizeRow X v d packed msgSize (c * rowsInChunk + i) (← idxR chunk i))) chunk)
    chunks
  return chunks.flatten

/-- `Receiver::exchange` after the bootstrap (src/ot/apricot.rs:282-477).  `sched1`, `sched2`: the orders of
the jobs of "Compute v" and "De-randomize". -/
def apricotReceiverExtend (X : Crypto) (arm : Bool) (cores : Nat) (sched1 sched2 : Nat → List Nat)
    (seed : WireBytes) (seeds0 seeds1 : List Bytes) (bonus choices : List Bool) (msgSize : Nat) :
    Proc (List Bytes) := do
  let l := choices.length + 256
  let w := l / 8
  let t0 ← apRows X w seeds0
  let t1 ← apRows X w seeds1
  let padded := choices ++ bonus
  let packed ← apPack padded
  let u ← apU X.dbg w t0 t1 packed
  sendP u
  let t ← transposeMatrix t0 (List.replicate (16 * l) 0) 128 w 16
  let chi := X.fill seed (16 * l)
  let sums ← apReceiverSums X.dbg arm l padded t chi
  sendP sums.1
  sendP sums.2
  let v ← apV X cores sched1 l t
  let y := List.replicate choices.length (List.replicate msgSize (0 : Byte))
  let d ← recvP
  apDerandomize X cores sched2 v d packed choices.length y

/-- `Receiver::exchange` (src/ot/apricot.rs:239-478).  `coin`, `bonus`, `seed0`, `seed1` are the random draws,
`inner` the bootstrap sender. -/
def apricotReceiver (X : Crypto) (arm : Bool) (cores : Nat) (sched1 sched2 : Nat → List Nat) (coin : WireBytes)
    (bonus : Vector Bool 256) (seed0 seed1 : Vector WireBytes 128)
    (inner : List (Bytes × Bytes) → Proc Unit) (choices : List Bool) : Proc (List Bytes) := do
  debugAssertR X.dbg (choices.length % 8 = 0)
  validateProperties ⟨choices.length, "Apricot"⟩
  let seed ← coinflipSender X.toEnv coin.toList
  let seed ← toArray32 seed
  let sizeBytes ← recvP
  let hi ← idxR sizeBytes 0
  let lo ← idxR sizeBytes 1
  let msgSize := (hi.toNat <<< 8) ||| lo.toNat
  inner (List.zipWith (fun a b => (a.toList, b.toList)) seed0.toList seed1.toList)
  apricotReceiverExtend X arm cores sched1 sched2 seed (seed0.toList.map (·.toList)) (seed1.toList.map (·.toList))
    bonus.toList choices msgSize

end FP
