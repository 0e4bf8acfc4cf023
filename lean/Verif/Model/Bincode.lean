import Verif.Model.Garble
/-
The part of the wire format (bincode 1.x, default configuration: fixed-size little-endian
integers, 64-bit lengths, trailing bytes allowed) that the code relies on.  bincode and serde are
external; this is a model of what the derived implementations of the types in /repo produce.
-/
namespace FP

/-- A serialiser and a deserialiser that returns the rest of the input
(derived at src/circuit.rs:8-54, src/garble.rs:288, src/wires.rs:9-15, src/ot/common.rs:6). -/
structure Codec (α : Type) where
  enc : α → Bytes
  dec : Bytes → Option (α × Bytes)

namespace Codec

/-- Little-endian value of bytes (bincode, used at src/fpake.rs:81). -/
def leNat : Bytes → Nat
  | [] => 0
  | b :: bs => b.toNat + 256 * leNat bs

/-- `u16`, `u32`, `u64`, `usize` (as `u64`): `k` little-endian bytes
(fields of src/circuit.rs:9-16, src/wires.rs:15-22, src/ot/common.rs:8). -/
def uint (k : Nat) : Codec Nat where
  enc x := leBytes k x
  dec s := if k ≤ s.length then some (leNat (s.take k), s.drop k) else none

/-- `u8` as a byte (elements of src/ot/bitmatrix.rs:25). -/
def byte : Codec Byte where
  enc x := [x]
  dec
    | [] => none
    | b :: s => some (b, s)

/-- `u8` as a number (src/wires.rs:18). -/
def u8 : Codec Nat := uint 1
/-- `u16` (src/wires.rs:20, src/circuit.rs:14). -/
def u16 : Codec Nat := uint 2
/-- `u32`, also the variant index of an enum (variants of src/circuit.rs:27-35). -/
def u32 : Codec Nat := uint 4
/-- `usize` / `u64`, also the length of a sequence (src/circuit.rs:9-16, src/ot/common.rs:8). -/
def usize : Codec Nat := uint 8

/-- Structs, tuples: the fields in order (e.g. src/ot/common.rs:7-10). -/
def pair {α β} (a : Codec α) (b : Codec β) : Codec (α × β) where
  enc x := a.enc x.1 ++ b.enc x.2
  dec s := do
    let (x, s) ← a.dec s
    let (y, s) ← b.dec s
    return ((x, y), s)

/-- Change of representation (e.g. src/ot/common.rs:7-10). -/
def iso {α β} (a : Codec α) (to : α → β) (from' : β → α) : Codec β where
  enc x := a.enc (from' x)
  dec s := do
    let (x, s) ← a.dec s
    return (to x, s)

/-- `n` values without a length prefix (arrays) (src/wires.rs:12). -/
def decRep {α} (a : Codec α) : Nat → Bytes → Option (List α × Bytes)
  | 0, s => some ([], s)
  | n + 1, s => do
    let (x, s) ← a.dec s
    let (xs, s) ← decRep a n s
    return (x :: xs, s)

/-- `Vec<T>`: length, then the elements (src/circuit.rs:9-25, src/garble.rs:145). -/
def vec {α} (a : Codec α) : Codec (List α) where
  enc xs := usize.enc xs.length ++ xs.flatMap a.enc
  dec s := do
    let (n, s) ← usize.dec s
    decRep a n s

/-- `[u8; 32]` (src/wires.rs:12). -/
def wireBytes : Codec WireBytes where
  enc v := v.toList
  dec s := if h : 32 ≤ s.length then some (⟨(s.take 32).toArray, by simp; omega⟩, s.drop 32) else none

end Codec

/-- `bincode::deserialize` (used at src/ot/common.rs:17 and everywhere else): trailing bytes are
ignored. -/
def Codec.deserialize {α} (c : Codec α) (s : Bytes) : R α :=
  match c.dec s with
  | some (x, _) => .ok x
  | none => errR .bincode

/-- UTF-8 bytes of a string (src/ot/common.rs:9). -/
def stringBytes (s : String) : Bytes := s.toUTF8.data.toList.map UInt8.toBitVec

/-- `String`: length and UTF-8 bytes; invalid UTF-8 is an error (src/ot/common.rs:9). -/
def Codec.string : Codec String where
  enc x := (Codec.vec Codec.byte).enc (stringBytes x)
  dec s := do
    let (x, s) ← (Codec.vec Codec.byte).dec s
    let y ← String.fromUTF8? ⟨(x.map UInt8.ofBitVec).toArray⟩
    return (y, s)

/-- `struct TransactionProperties` (src/ot/common.rs:6-10). -/
structure TransactionProperties where
  msgSize : Nat
  protocol : String
  deriving DecidableEq

/-- `TransactionProperties` on the wire (src/ot/common.rs:6-10 and 13-15). -/
def Codec.properties : Codec TransactionProperties :=
  (Codec.pair Codec.usize Codec.string).iso (fun p => ⟨p.1, p.2⟩) (fun p => (p.msgSize, p.protocol))

/-- `enum Domain` (src/wires.rs:15-22). -/
def Codec.domain : Codec Domain where
  enc
    | .binary => Codec.u32.enc 0
    | .u8 m => Codec.u32.enc 1 ++ Codec.u8.enc m
    | .u16 m => Codec.u32.enc 2 ++ Codec.u16.enc m
    | .u8max => Codec.u32.enc 3
    | .u16max => Codec.u32.enc 4
  dec s := do
    let (t, s) ← Codec.u32.dec s
    match t with
    | 0 => return (.binary, s)
    | 1 => let (m, s) ← Codec.u8.dec s; return (.u8 m, s)
    | 2 => let (m, s) ← Codec.u16.dec s; return (.u16 m, s)
    | 3 => return (.u8max, s)
    | 4 => return (.u16max, s)
    | _ => none

/-- `struct Wire` (src/wires.rs:9-13). -/
def Codec.wire : Codec Wire :=
  (Codec.pair Codec.domain Codec.wireBytes).iso (fun p => ⟨p.1, p.2⟩) (fun w => (w.domain, w.values))

/-- `enum ProjKind` (src/circuit.rs:50-54). -/
def Codec.projKind : Codec ProjKind where
  enc
    | .map m => Codec.u32.enc 0 ++ Codec.u16.enc m
    | .less t => Codec.u32.enc 1 ++ Codec.u16.enc t
  dec s := do
    let (t, s) ← Codec.u32.dec s
    match t with
    | 0 => let (m, s) ← Codec.u16.dec s; return (.map m, s)
    | 1 => let (m, s) ← Codec.u16.dec s; return (.less m, s)
    | _ => none

/-- `enum GateKind` (src/circuit.rs:27-35). -/
def Codec.gateKind : Codec GateKind where
  enc
    | .add => Codec.u32.enc 0
    | .mul c => Codec.u32.enc 1 ++ Codec.u16.enc c
    | .proj p => Codec.u32.enc 2 ++ Codec.projKind.enc p
    | .and => Codec.u32.enc 3
  dec s := do
    let (t, s) ← Codec.u32.dec s
    match t with
    | 0 => return (.add, s)
    | 1 => let (m, s) ← Codec.u16.dec s; return (.mul m, s)
    | 2 => let (p, s) ← Codec.projKind.dec s; return (.proj p, s)
    | 3 => return (.and, s)
    | _ => none

/-- `struct Gate` (src/circuit.rs:19-25). -/
def Codec.gate : Codec Gate :=
  (Codec.pair Codec.usize (Codec.pair Codec.u16 (Codec.pair (Codec.vec Codec.usize) Codec.gateKind))).iso
    (fun p => ⟨p.1, p.2.1, p.2.2.1, p.2.2.2⟩) (fun g => (g.output, g.domain, g.inputs, g.kind))

/-- `struct Circuit` (src/circuit.rs:8-16). -/
def Codec.circuit : Codec Circuit :=
  (Codec.pair Codec.usize (Codec.pair Codec.usize (Codec.pair Codec.usize
    (Codec.pair (Codec.vec Codec.gate) (Codec.vec Codec.u16))))).iso
    (fun p => ⟨p.1, p.2.1, p.2.2.1, p.2.2.2.1, p.2.2.2.2⟩)
    (fun c => (c.numWires, c.numInputs, c.numOutputs, c.gates, c.inputDomains))

/-- The entries of a `HashMap` in the order of one iteration over it: every key once, with its
current value (src/garble.rs:291-292). -/
def IsIteration {V : Type} (m : HMap Nat V) (l : List (Nat × V)) : Prop :=
  (l.map Prod.fst).Nodup ∧ ∀ k v, (k, v) ∈ l ↔ List.lookup k m = some v

/-- `HashMap` from a sequence of entries: insert them one after the other (src/garble.rs:291-292). -/
def hmapOfEntries {V : Type} (l : List (Nat × V)) : HMap Nat V :=
  l.foldl (fun m p => HMap.insert m p.1 p.2) []

/-- What goes over the wire for a `GarbledCircuit` (src/garble.rs:288-293): the circuit and the
entries of the two tables, each as a sequence of key/value pairs in iteration order. -/
def Codec.garbled : Codec (Circuit × List (Nat × List Wire) × List (Nat × (Wire × Wire))) :=
  Codec.pair Codec.circuit (Codec.pair (Codec.vec (Codec.pair Codec.usize (Codec.vec Codec.wire)))
    (Codec.vec (Codec.pair Codec.usize (Codec.pair Codec.wire Codec.wire))))

/-- `bincode::serialize(&gc)`; `lf` and `lh` are the iteration orders of the two hash maps
(src/fpake.rs:52, src/many_fpake.rs:87 and 310, src/legacy_fpake.rs:88). -/
def serializeGarbled (gc : GarbledCircuit) (lf : List (Nat × List Wire))
    (lh : List (Nat × (Wire × Wire))) : Bytes :=
  Codec.garbled.enc (gc.circuit, lf, lh)

/-- `bincode::deserialize` to a `GarbledCircuit`
(src/fpake.rs:81, src/many_fpake.rs:194 and 371, src/legacy_fpake.rs:164). -/
def deserializeGarbled (s : Bytes) : R GarbledCircuit := do
  let (c, lf, lh) ← Codec.garbled.deserialize s
  return ⟨c, hmapOfEntries lf, hmapOfEntries lh⟩

/-- `Vec<u8>`, `BitVector` (src/ot/bitmatrix.rs:23-25), `Polynomial`
(src/ot/polynomial.rs:8-10): newtypes around `Vec<u8>`. -/
def Codec.bytes : Codec Bytes := Codec.vec Codec.byte

/-- `Vec<Vec<u8>>` (`Payload`, src/ot/common.rs:74) and `BitMatrix` (src/ot/bitmatrix.rs:171-174). -/
def Codec.bytesList : Codec (List Bytes) := Codec.vec Codec.bytes

/-- `EncryptedPayload` (src/ot/chou_orlandi.rs:243-245): a `Vec` of `[Vec<u8>; 2]`. -/
def Codec.payload : Codec (List (Bytes × Bytes)) := Codec.vec (Codec.pair Codec.bytes Codec.bytes)

/-- `Vec<Wire>` (src/fpake.rs:57 and 83, src/many_fpake.rs:314 and 375). -/
def Codec.wires : Codec (List Wire) := Codec.vec Codec.wire

/-- `CompressedEdwardsY::from_slice(p)`: copies into a `[u8; 32]`, so it panics on any other
length (src/ot/chou_orlandi.rs:60 and 122). -/
def fromSlice (p : Bytes) : R WireBytes :=
  if h : p.length = 32 then .ok ⟨p.toArray, by simpa using h⟩ else panicR

/-- `PublicVisitor::visit_bytes` (src/ot/chou_orlandi.rs:196-206): a point for every full group of
32 bytes. -/
def visitBytes (v : Bytes) : R (List WireBytes) :=
  (List.range (v.length / 32)).mapM fun i => do fromSlice (← sliceR v (i * 32) ((i + 1) * 32))

/-- `bincode::serialize` of a `Public` (src/ot/chou_orlandi.rs:180-191): the concatenated points
through `serialize_bytes`. -/
def serializePublic (ps : List WireBytes) : Bytes :=
  Codec.bytes.enc (ps.flatMap (·.toList))

/-- `bincode::deserialize` to a `Public` (src/ot/chou_orlandi.rs:193-241). -/
def deserializePublic (s : Bytes) : R (List WireBytes) := do
  let v ← Codec.bytes.deserialize s
  visitBytes v

end FP
