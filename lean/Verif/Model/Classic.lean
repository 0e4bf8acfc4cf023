import Verif.Model.OT
import Verif.Model.BitMatrix
import Verif.Model.GF128
/-
Model of src/ot/apricot_classic.rs.  `K = COMP_SEC = 128`, `S = STAT_SEC = 64`, `Block = u8`.  The
parallel maps are maps: their items are independent.
-/
namespace FP

/-- The seeds of the sender (src/ot/apricot_classic.rs:53-56): `copy_from_slice` panics unless the payload
item has 32 bytes; more than 128 items are out of range. -/
def clSeeds (payload : List Bytes) : R (List WireBytes) :=
  payload.zipIdx.foldlM (fun seed p => do setR seed p.2 (← toArray32 p.1))
    (List.replicate 128 (Vector.replicate 32 0))

/-- `t`, `t0`, `t1` (src/ot/apricot_classic.rs:59-66, 189-205): one row of `w` bytes for each seed. -/
def clRows (X : Crypto) (w : Nat) (seeds : List WireBytes) : BitMatrix :=
  seeds.map fun s => X.genBytes s w

/-- `q` before the transposition (src/ot/apricot_classic.rs:71-75). -/
def clQ (delta : Bytes) (t u : BitMatrix) : R BitMatrix :=
  (u8VecToBoolVec delta).zipIdx.mapM fun p => do
    if p.1 then return bitVectorXor (← idxR u p.2) (← idxR t p.2) else idxR t p.2

/-- `chi` (src/ot/apricot_classic.rs:94-99, 231-236): `prg.gen::<[u8; 16]>()` draws each byte with
`gen::<u8>()`, which keeps one byte of four. -/
def clChi (X : Crypto) (seed : WireBytes) (l : Nat) : BitMatrix :=
  (List.range l).map fun j => (List.range 16).map fun k => X.chacha20 seed (4 * (16 * j + k))

/-- `<&Polynomial>::from(v)` (src/ot/polynomial.rs:32-38). -/
def asPolynomial (dbg : Bool) (v : Bytes) : R Bytes := do
  debugAssertR dbg (v.length * 8 = 128)
  return v

/-- `q_sum` (src/ot/apricot_classic.rs:100-106). -/
def clSum (arch : Arch) (dbg : Bool) (q chi : BitMatrix) : R Bytes :=
  (q.zip chi).foldlM (fun acc p => do
    let q ← asPolynomial dbg p.1
    let chi ← asPolynomial dbg p.2
    gf128MulAcc arch dbg acc q chi) (bitVectorZeros 128)

/-- "Randomize" and "DeROT" of the sender for pair `j` (src/ot/apricot_classic.rs:127-155). -/
def clEncrypt (X : Crypto) (delta q : Bytes) (m : Bytes × Bytes) (j : Nat) : R (Bytes × Bytes) := do
  let v0 := X.sha256 (leBytes 8 j ++ q)
  let v1 := X.sha256 (leBytes 8 j ++ bitVectorXor q delta)
  let c0 ← xorBytes X.dbg m.1 (X.gen8 v0 m.1.length)
  let c1 ← xorBytes X.dbg m.2 (X.gen8 v1 m.2.length)
  return (c0, c1)

/-- The ciphertexts of all pairs (src/ot/apricot_classic.rs:127-155). -/
def clEncryptAll (X : Crypto) (delta : Bytes) (q : BitMatrix) (msg : List (Bytes × Bytes)) :
    R (List (Bytes × Bytes)) :=
  (msg.zip q).zipIdx.mapM fun p => clEncrypt X delta p.1.2 p.1.1 p.2

/-- `Sender::de_rot` (src/ot/apricot_classic.rs:119-164). -/
def clSenderDeRot (X : Crypto) (delta : Bytes) (q : BitMatrix) (msg : List (Bytes × Bytes)) : Proc Unit := do
  let q ← sliceR q 0 msg.length
  let d ← clEncryptAll X delta q msg
  sendP (Codec.bytesList.enc (d.map Prod.fst))
  sendP (Codec.bytesList.enc (d.map Prod.snd))

/-- `Sender::correlation_check` (src/ot/apricot_classic.rs:82-116). -/
def clSenderCheck (X : Crypto) (arch : Arch) (coin : WireBytes) (l : Nat) (q : BitMatrix) (delta : Bytes) :
    Proc Unit := do
  let seed ← coinflipReceiver X.toEnv coin.toList
  let seed ← toArray32 seed
  let chi := clChi X seed l
  let qSum ← clSum arch X.dbg q chi
  let x ← recvP
  let xSum ← Codec.bytes.deserialize x
  let t ← recvP
  let tSum ← Codec.bytes.deserialize t
  let delta ← asPolynomial X.dbg delta
  let qSum ← gf128MulAcc arch X.dbg qSum xSum delta
  if tSum ≠ qSum then
    errR .polychromatic
  else
    pure ()

/-- `Sender::exchange` after the bootstrap: the rest of `cote`, the check and `de_rot`
(src/ot/apricot_classic.rs:53-78 and 305-306). -/
def classicSenderExtend (X : Crypto) (arch : Arch) (coin : WireBytes) (delta : Bytes)
    (msg : List (Bytes × Bytes)) (payload : List Bytes) : Proc Unit := do
  let l := msg.length + 128 + 64
  let seed ← clSeeds payload
  let t := clRows X (l / 8) seed
  let u ← recvP
  let u ← Codec.bytesList.deserialize u
  let q ← clQ delta t u
  let q ← q.transpose
  clSenderCheck X arch coin l q delta
  clSenderDeRot X delta q msg

/-- `Sender::exchange` (src/ot/apricot_classic.rs:285-307).  `coin` and `delta` are the random draws,
`inner` the bootstrap receiver. -/
def classicSender (X : Crypto) (arch : Arch) (coin : WireBytes) (delta : Vector Byte 16)
    (inner : List Bool → Proc (List Bytes)) (msg : List (Bytes × Bytes)) : Proc Unit := do
  assertR (8 ≤ msg.length)
  assertR (msg.length % 8 = 0)
  validateProperties ⟨msg.length, "Apricot"⟩
  let payload ← inner (u8VecToBoolVec delta.toList)
  classicSenderExtend X arch coin delta.toList msg payload

/-- `u` (src/ot/apricot_classic.rs:207-214). -/
def clU (dbg : Bool) (x t0 t1 : BitMatrix) : R BitMatrix :=
  (x.zip (t0.zip t1)).mapM fun p => do
    let u ← bitVectorXorAssign dbg p.1 p.2.1
    bitVectorXorAssign dbg u p.2.2

/-- `x_sum` and `t_sum` (src/ot/apricot_classic.rs:238-250). -/
def clReceiverSums (arch : Arch) (dbg : Bool) (choices : List Bool) (t chi : BitMatrix) : R (Bytes × Bytes) :=
  (choices.zip (t.zip chi)).foldlM (fun (s : Bytes × Bytes) p => do
    let t ← asPolynomial dbg p.2.1
    let chi ← asPolynomial dbg p.2.2
    let xSum ← if p.1 then bitVectorXorAssign dbg s.1 chi else pure s.1
    let tSum ← gf128MulAcc arch dbg s.2 t chi
    return (xSum, tSum)) (bitVectorZeros 128, bitVectorZeros 128)

/-- `Receiver::correlation_check` (src/ot/apricot_classic.rs:225-255). -/
def clReceiverCheck (X : Crypto) (arch : Arch) (coin : WireBytes) (t : BitMatrix) (choices : List Bool) :
    Proc Unit := do
  let seed ← coinflipSender X.toEnv coin.toList
  let seed ← toArray32 seed
  let chi := clChi X seed choices.length
  let sums ← clReceiverSums arch X.dbg choices t chi
  sendP (Codec.bytes.enc sums.1)
  sendP (Codec.bytes.enc sums.2)

/-- "DeROT" of the receiver (src/ot/apricot_classic.rs:271-279). -/
def clDecryptAll (X : Crypto) (v : List WireBytes) (choices : List Bool) (d0 d1 : List Bytes) : R (List Bytes) :=
  (v.zip (choices.zip (d0.zip d1))).mapM fun p => do
    let d := if p.2.1 then p.2.2.2 else p.2.2.1
    xorBytes X.dbg d (X.gen8 p.1 d.length)

/-- `Receiver::de_rot` (src/ot/apricot_classic.rs:258-281). -/
def clReceiverDeRot (X : Crypto) (choices : List Bool) (t : BitMatrix) : Proc (List Bytes) := do
  let v := t.zipIdx.map fun p => X.sha256 (leBytes 8 p.2 ++ p.1)
  let m0 ← recvP
  let d0 ← Codec.bytesList.deserialize m0
  let m1 ← recvP
  let d1 ← Codec.bytesList.deserialize m1
  clDecryptAll X v choices d0 d1

/-- `Receiver::exchange` after the bootstrap (src/ot/apricot_classic.rs:187-221 and 332-333). -/
def classicReceiverExtend (X : Crypto) (arch : Arch) (coin : WireBytes) (seed0 seed1 : List WireBytes)
    (bonus choices : List Bool) : Proc (List Bytes) := do
  let padded := choices ++ bonus
  let l := padded.length
  let x ← monochrome padded 128
  let t0 := clRows X (l / 8) seed0
  let t1 := clRows X (l / 8) seed1
  let u ← clU X.dbg x t0 t1
  sendP (Codec.bytesList.enc u)
  let t ← t0.transpose
  clReceiverCheck X arch coin t padded
  clReceiverDeRot X choices t

/-- `Receiver::exchange` (src/ot/apricot_classic.rs:311-334).  `coin`, `bonus`, `seed0`, `seed1` are the
random draws, `inner` the bootstrap sender. -/
def classicReceiver (X : Crypto) (arch : Arch) (coin : WireBytes) (bonus : Vector Bool 192)
    (seed0 seed1 : Vector WireBytes 128) (inner : List (Bytes × Bytes) → Proc Unit) (choices : List Bool) :
    Proc (List Bytes) := do
  validateProperties ⟨choices.length, "Apricot"⟩
  assertR (8 ≤ choices.length)
  assertR (choices.length % 8 = 0)
  inner (List.zipWith (fun a b => (a.toList, b.toList)) seed0.toList seed1.toList)
  classicReceiverExtend X arch coin seed0.toList seed1.toList bonus.toList choices

end FP
