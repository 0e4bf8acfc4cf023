import Verif.Model.Basic
/-
Model of src/util.rs.
-/
namespace FP

/-- `log2` (src/util.rs:20-22) for an unsigned type of `bits` bits: `bits` minus the leading
zeros of `x - 1`, i.e. the bit length of `x - 1`; `x - 1` underflows at `x = 0`. -/
def log2R (dbg : Bool) (bits x : Nat) : R Nat := do
  let y ← subR dbg (2 ^ bits) x 1
  return if y = 0 then 0 else y.log2 + 1

/-- `u8_vec_to_bool_vec` (src/util.rs:24-32); the same function is `unpack_bits_to_vec`
(src/ot/apricot.rs). -/
def u8VecToBoolVec (str : Bytes) : List Bool :=
  str.flatMap fun s => (List.range 8).map fun i => (s >>> i) &&& 1 == 1

/-- Loop body of `bool_vec_to_u8_vec` (src/util.rs:37-45). -/
def boolVecStep (s : Bytes × Byte) (p : Bool × Nat) : Bytes × Byte :=
  let byte := if p.1 then s.2 ||| (1 <<< (7 - p.2 % 8)) else s.2
  if p.2 % 8 = 7 then (s.1 ++ [byte], 0) else (s.1, byte)

/-- `bool_vec_to_u8_vec` (src/util.rs:34-47). -/
def boolVecToU8Vec (str : List Bool) : Bytes :=
  (str.zipIdx.foldl boolVecStep ([], 0)).1

/-- `to_array` (src/util.rs:49-54): `copy_from_slice` panics on a length mismatch. -/
def toArray32 (bytes : Bytes) : R WireBytes :=
  if h : bytes.length = 32 then .ok ⟨bytes.toArray, by simpa using h⟩ else panicR

/-- `xor` (src/util.rs:90-96). -/
def xor32 (a b : WireBytes) : WireBytes := Vector.ofFn fun i : Fin 32 => a[i] ^^^ b[i]

/-- `HalfKey::combine` (src/fpake.rs:99-101) and `OneOfManyKey::combine`
(src/many_fpake.rs:423-425): the first argument is `self`. -/
def combine (self other : WireBytes) : WireBytes := xor32 self other

/-- `xor_bytes` (src/util.rs:98-107): indexes `right` by the positions of `left`. -/
def xorBytes (dbg : Bool) (left right : Bytes) : R Bytes := do
  debugAssertR dbg (left.length = right.length)
  (List.range left.length).mapM fun i => return (← idxR left i) ^^^ (← idxR right i)

/-- `xor_bytes_inplace` (src/util.rs:109-115). -/
def xorBytesInplace (dbg : Bool) (left right : Bytes) : R Bytes := do
  debugAssertR dbg (left.length = right.length)
  (List.range left.length).foldlM
    (fun l i => do setR l i ((← idxR l i) ^^^ (← idxR right i))) left

/-- `index_1d` (src/util.rs:120-122). -/
def index1d (row column width : Nat) : Nat := width * row + column

/-- `vector_row` (src/util.rs:124-128): `get_unchecked`, undefined behaviour out of range. -/
def vectorRow (v : Bytes) (row width : Nat) : R Bytes :=
  if width * row + width ≤ v.length then .ok ((v.drop (width * row)).take width) else ubR

end FP
