import Verif.Model.Basic
/-
Model of src/wires.rs.
-/
namespace FP

/-- `enum Domain` (src/wires.rs:15-22).  The payloads are the Rust `u8`/`u16` values. -/
inductive Domain where
  | binary
  | u8 (m : Nat)
  | u16 (m : Nat)
  | u8max
  | u16max
  deriving DecidableEq, Repr

/-- `Domain::num` (src/wires.rs:25-33). -/
def Domain.num : Domain → Nat
  | .binary => 2
  | .u8 m => m
  | .u16 m => m
  | .u8max => 256
  | .u16max => 0

/-- `Domain::new` (src/wires.rs:35-51); the argument is a `u16`. -/
def Domain.new (m : Nat) : R Domain :=
  if m = 0 then .ok .u16max
  else if m = 2 then .ok .binary
  else if m < 255 then .ok (.u8 m)
  else if m = 256 then .ok .u8max
  else if m < 65535 then .ok (.u16 m)
  else panicR

/-- `struct Wire` (src/wires.rs:10-13). -/
structure Wire where
  domain : Domain
  values : WireBytes
  deriving DecidableEq

/-- `bytemuck::cast::<[u8; 32], [u16; 16]>` on a little-endian machine
(src/wires.rs:143, 176-177, 207, 228 and 242). -/
def toU16 (v : WireBytes) : Vector (BitVec 16) 16 :=
  Vector.ofFn fun i => v[2 * i.val + 1] ++ v[2 * i.val]

/-- `bytemuck::cast::<[u16; 16], [u8; 32]>` on a little-endian machine (src/wires.rs:154, 189, 211 and 230). -/
def ofU16 (w : Vector (BitVec 16) 16) : WireBytes :=
  Vector.ofFn fun i => (w[i.val / 2] >>> (8 * (i.val % 2))).setWidth 8

/-- `Wire::domain` (src/wires.rs:249-251). -/
def Wire.dom (w : Wire) : Nat := w.domain.num

/-- `Wire::map` (src/wires.rs:125-136). -/
def Wire.map (w : Wire) (op : Nat → R Nat) : R Wire := do
  let values ← Vector.ofFnM fun i : Fin 32 => return BitVec.ofNat 8 (← op w.values[i].toNat)
  return ⟨w.domain, values⟩

/-- `Wire::map_as_u16` (src/wires.rs:138-156). -/
def Wire.mapAsU16 (dbg : Bool) (w : Wire) (op : Nat → R Nat) : R Wire := do
  let input := toU16 w.values
  let output ← Vector.ofFnM fun i : Fin 16 => return BitVec.ofNat 16 (← op input[i].toNat)
  debugAssertR dbg (output.all fun x => x.toNat < w.dom)
  return ⟨w.domain, ofU16 output⟩

/-- `Wire::map_with` (src/wires.rs:158-169). -/
def Wire.mapWith (dbg : Bool) (a b : Wire) (op : Nat → Nat → R Nat) : R Wire := do
  debugAssertR dbg (a.domain = b.domain)
  let values ← Vector.ofFnM fun i : Fin 32 =>
    return BitVec.ofNat 8 (← op a.values[i].toNat b.values[i].toNat)
  return ⟨a.domain, values⟩

/-- `Wire::map_with_as_u16` (src/wires.rs:171-192). -/
def Wire.mapWithAsU16 (dbg : Bool) (a b : Wire) (op : Nat → Nat → R Nat) : R Wire := do
  debugAssertR dbg (a.domain = b.domain)
  let l1 := toU16 a.values
  let l2 := toU16 b.values
  let output ← Vector.ofFnM fun i : Fin 16 =>
    return BitVec.ofNat 16 (← op l1[i].toNat l2[i].toNat)
  debugAssertR dbg (output.all fun x => x.toNat < a.dom)
  return ⟨a.domain, ofU16 output⟩

/-- `impl Add for &Wire` (src/wires.rs:54-65). -/
def Wire.add (dbg : Bool) (a b : Wire) : R Wire :=
  match a.domain with
  | .binary => a.mapWith dbg b fun x y => .ok (x ^^^ y)
  | .u8 m => a.mapWith dbg b fun x y => remR ((x + y) % 256) m
  | .u8max => a.mapWith dbg b fun x y => .ok ((x + y) % 256)
  | .u16 m => a.mapWithAsU16 dbg b fun x y => remR ((x + y) % 65536) m
  | .u16max => a.mapWithAsU16 dbg b fun x y => .ok ((x + y) % 65536)

/-- `impl Sub for &Wire` (src/wires.rs:67-78). -/
def Wire.sub (dbg : Bool) (a b : Wire) : R Wire :=
  match a.domain with
  | .binary => a.mapWith dbg b fun x y => .ok (x ^^^ y)
  | .u8 m => a.mapWith dbg b fun x y => do
      remR (← addR dbg 256 x (← subR dbg 256 m y)) m
  | .u8max => a.mapWith dbg b fun x y => .ok ((x + 256 - y) % 256)
  | .u16 m => a.mapWithAsU16 dbg b fun x y => do
      remR (← addR dbg 65536 x (← subR dbg 65536 m y)) m
  | .u16max => a.mapWithAsU16 dbg b fun x y => .ok ((x + 65536 - y) % 65536)

/-- `impl Neg for &Wire` (src/wires.rs:80-91). -/
def Wire.neg (dbg : Bool) (a : Wire) : R Wire :=
  match a.domain with
  | .binary => a.map fun x => .ok (0xFF ^^^ x)
  | .u8 m => a.map fun x => do remR (← subR dbg 256 m x) m
  | .u8max => a.map fun x => .ok ((256 - x) % 256)
  | .u16 m => a.mapAsU16 dbg fun x => do remR (← subR dbg 65536 m x) m
  | .u16max => a.mapAsU16 dbg fun x => .ok ((65536 - x) % 65536)

/-- `impl Mul<u16> for &Wire` (src/wires.rs:93-108). -/
def Wire.mul (dbg : Bool) (a : Wire) (rhs : Nat) : R Wire := do
  debugAssertR dbg (rhs < a.dom)
  match a.domain with
  | .binary => a.map fun b => .ok (if rhs = 0 then 0 else b)
  | .u8 m => a.map fun x => do remR (← mulR dbg 65536 x rhs) m
  | .u16 m => a.mapAsU16 dbg fun x => do remR (← mulR dbg 4294967296 x rhs) m
  | .u8max => a.map fun x => .ok (rhs * x % 65536)
  | .u16max => a.mapAsU16 dbg fun x => .ok (rhs * x % 65536)

/-- `impl Sum for Wire` (src/wires.rs:110-115): `unwrap` on an empty iterator panics. -/
def Wire.sum (dbg : Bool) : List Wire → R Wire
  | [] => panicR
  | init :: rest => rest.foldlM (fun acc w => Wire.add dbg acc w) init

/-- `Wire::empty` (src/wires.rs:118-123). -/
def Wire.empty : Wire := ⟨.binary, Vector.replicate 32 0⟩

/-- `Wire::new` (src/wires.rs:194-215).  The random choice is the argument `raw`; a draw of
`gen_range(0..m)` is modelled by reducing the raw digit mod `m`, which ranges over exactly
the values `gen_range` can return. -/
def Wire.new (domain : Nat) (raw : WireBytes) : R Wire := do
  match ← Domain.new domain with
  | .u8 m =>
    return ⟨.u8 m, Vector.ofFn fun i : Fin 32 => BitVec.ofNat 8 (raw[i].toNat % m)⟩
  | .u16 m =>
    return ⟨.u16 m, ofU16 (Vector.ofFn fun i : Fin 16 =>
      BitVec.ofNat 16 ((toU16 raw)[i].toNat % m))⟩
  | d => return ⟨d, raw⟩

/-- `Wire::delta` (src/wires.rs:217-234). -/
def Wire.delta (domain : Nat) (raw : WireBytes) : R Wire := do
  let wire ← Wire.new domain raw
  match wire.domain with
  | .binary => return { wire with values := wire.values.set 31 (wire.values[31] ||| 1) }
  | .u8 _ | .u8max => return { wire with values := wire.values.set 31 1 }
  | .u16 _ | .u16max => return { wire with values := ofU16 ((toU16 wire.values).set 15 1) }

/-- `Wire::color` (src/wires.rs:237-246). -/
def Wire.color (w : Wire) : Nat :=
  match w.domain with
  | .binary => (w.values[31] &&& 1).toNat
  | .u8 _ | .u8max => w.values[31].toNat
  | .u16 _ | .u16max => (toU16 w.values)[15].toNat

/-- `Wire::from_array` (src/wires.rs:253-260).  `Wire::from_bytes` (262-272) is the same after
`try_into().unwrap()` on the length. -/
def Wire.fromArray (dbg : Bool) (values : WireBytes) (domain : Domain) : R Wire :=
  let wire : Wire := ⟨domain, values⟩
  match domain with
  | .binary | .u8max | .u16max => .ok wire
  | .u8 m => wire.map fun x => remR x m
  | .u16 m => wire.mapAsU16 dbg fun x => remR x m

/-- `Wire::from_bytes` (src/wires.rs:262-272). -/
def Wire.fromBytes (dbg : Bool) (values : Bytes) (domain : Domain) : R Wire :=
  if h : values.length = 32 then
    Wire.fromArray dbg ⟨values.toArray, by simpa using h⟩ domain
  else panicR

/-- `AsRef<[u8]> for Wire` / `as_bytes` (src/wires.rs:274-283). -/
def Wire.bytes (w : Wire) : Bytes := w.values.toList

/-- `hash_wire` (src/wires.rs:285-296). -/
def hashWire (E : Env) (index : Nat) (wire target : Wire) : R Wire :=
  Wire.fromArray E.dbg (E.sha256 (beBytes 8 index ++ wire.bytes)) target.domain

/-- `hash` (src/wires.rs:298-300). -/
def hashOut (E : Env) (index x : Nat) (wire : Wire) : WireBytes :=
  E.sha256 (beBytes 8 index ++ beBytes 2 x ++ wire.bytes)

end FP
