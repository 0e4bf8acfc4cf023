import Verif.Model.Apricot
import Verif.Model.Garble
/-
Model of src/fpake.rs.
-/
namespace FP

/-- The iteration orders of the two hash maps of a garbled circuit when it is serialised (a Rust
`HashMap` iterates in an order that depends on its random state) (src/fpake.rs:52). -/
structure MapOrder where
  f : HMap Nat (List Wire) → List (Nat × List Wire)
  h : HMap Nat (Wire × Wire) → List (Nat × (Wire × Wire))

/-- `bincode::serialize(&gc)` for one choice of the iteration orders (src/fpake.rs:52). -/
def sendGarbled (ord : MapOrder) (gc : GarbledCircuit) : Bytes :=
  serializeGarbled gc (ord.f gc.f) (ord.h gc.fHalf)

/-- `garble` followed by `BinaryEncodingKey::from(e).zipped()` (src/fpake.rs:34-36, the same at
src/many_fpake.rs:82-83 and src/legacy_fpake.rs:83-84). -/
def garbleBinary (E : Env) (rnd : GarbleRand) (c : Circuit) :
    R (GarbledCircuit × List (Wire × Wire) × DecodingKey) := do
  let (gc, e, d) ← garble E rnd c
  let z ← (← BinaryEncodingKey.ofKey E.dbg e).zipped
  return (gc, z, d)

/-- `d.hashes[0][1]` (src/fpake.rs:60). -/
def outputKey (d : DecodingKey) : R WireBytes := do idxR (← idxR d.hashes 0) 1

/-- `evaluate` and the hash of the output label (src/fpake.rs:89-96). -/
def evaluatedKey (E : Env) (gc : GarbledCircuit) (input : List Wire) : R WireBytes := do
  let output ← evaluate E gc input
  let o ← subR E.dbg (2 ^ 64) gc.circuit.numWires 1
  return hashOut E o 1 (← idxR output 0)

/-- The byte pairs handed to the oblivious transfer (src/fpake.rs:38-44). -/
def bytePairs (e : List (Wire × Wire)) : List (Bytes × Bytes) := e.map fun p => (p.1.bytes, p.2.bytes)

/-- Labels from the transferred byte strings (src/fpake.rs:73-77). -/
def labelsOf (dbg : Bool) (l : List Bytes) : R (List Wire) :=
  l.mapM fun b => do Wire.fromArray dbg (← toArray32 b) .binary

/-- `HalfKey::garbler` (src/fpake.rs:26-61).  `rnd` are the random draws of `garble`, `ot` is the
sender of the oblivious transfer. -/
def halfGarbler (E : Env) (rnd : GarbleRand) (ord : MapOrder) (ot : List (Bytes × Bytes) → Proc Unit)
    (password : Bytes) (threshold : Nat) : Proc WireBytes := do
  let password := u8VecToBoolVec password
  let n := password.length
  let circuit ← buildCircuit E.dbg n threshold
  let g ← garbleBinary E rnd circuit
  let own ← sliceR g.2.1 0 n
  let theirs ← sliceR g.2.1 n g.2.1.length
  ot (bytePairs theirs)
  sendP (sendGarbled ord g.1)
  let encPassword ← (BinaryEncodingKey.unzipped own).encode password
  sendP (Codec.wires.enc encPassword)
  outputKey g.2.2

/-- `HalfKey::evaluator` (src/fpake.rs:63-97).  `ot` is the receiver of the oblivious transfer. -/
def halfEvaluator (E : Env) (ot : List Bool → Proc (List Bytes)) (password : Bytes) :
    Proc WireBytes := do
  let password := u8VecToBoolVec password
  let encPassword ← ot password
  let ourPassword ← labelsOf E.dbg encPassword
  let gc ← deserializeGarbled (← recvP)
  let theirPassword ← Codec.wires.deserialize (← recvP)
  evaluatedKey E gc (theirPassword ++ ourPassword)

/-- Everything the sender of one OT extension draws or depends on: word size of the multiplication
back end, cores, scheduling, its random draws, and the scalars of the bootstrap receiver
(src/fpake.rs:45-48). -/
structure OTSend where
  arm : Bool
  cores : Nat
  sched : Nat → List Nat
  coin : WireBytes
  delta : Vector Byte 16
  base : Nat → Nat

/-- The same for the receiver (src/fpake.rs:67-70). -/
structure OTRecv where
  arm : Bool
  cores : Nat
  sched1 : Nat → List Nat
  sched2 : Nat → List Nat
  coin : WireBytes
  bonus : Vector Bool 256
  seed0 : Vector WireBytes 128
  seed1 : Vector WireBytes 128
  base : Nat → Nat

/-- `apricot::Sender { bootstrap: chou_orlandi::Receiver }` (src/fpake.rs:45-48). -/
def OTSend.run (C : Curve) (X : Crypto) (o : OTSend) : List (Bytes × Bytes) → Proc Unit :=
  apricotSender X o.arm o.cores o.sched o.coin o.delta (coReceiver C X o.base)

/-- `apricot::Receiver { bootstrap: chou_orlandi::Sender }` (src/fpake.rs:67-70). -/
def OTRecv.run (C : Curve) (X : Crypto) (o : OTRecv) : List Bool → Proc (List Bytes) :=
  apricotReceiver X o.arm o.cores o.sched1 o.sched2 o.coin o.bonus o.seed0 o.seed1 (coSender C X o.base)

/-- All random and scheduling choices behind one call of `HalfKey::garbler` (src/fpake.rs:26-61). -/
structure GarblerDraws where
  rnd : GarbleRand
  ord : MapOrder
  ot : OTSend

/-- `HalfKey::garbler` with the transfer it uses (src/fpake.rs:26-61). -/
def HalfKey.garbler (C : Curve) (X : Crypto) (g : GarblerDraws) (password : Bytes) (threshold : Nat) :
    Proc WireBytes :=
  halfGarbler X.toEnv g.rnd g.ord (g.ot.run C X) password threshold

/-- `HalfKey::evaluator` with the transfer it uses (src/fpake.rs:63-97). -/
def HalfKey.evaluator (C : Curve) (X : Crypto) (o : OTRecv) (password : Bytes) : Proc WireBytes :=
  halfEvaluator X.toEnv (o.run C X) password

/-- The party that garbles first (src/main.rs:37-39). -/
def fpakeFirst (C : Curve) (X : Crypto) (g : GarblerDraws) (o : OTRecv) (password : Bytes) (threshold : Nat) :
    Proc WireBytes := do
  let k1 ← HalfKey.garbler C X g password threshold
  let k2 ← HalfKey.evaluator C X o password
  return combine k1 k2

/-- The party that evaluates first (src/main.rs:44-46). -/
def fpakeSecond (C : Curve) (X : Crypto) (o : OTRecv) (g : GarblerDraws) (password : Bytes) (threshold : Nat) :
    Proc WireBytes := do
  let k2 ← HalfKey.evaluator C X o password
  let k1 ← HalfKey.garbler C X g password threshold
  return combine k1 k2

end FP
