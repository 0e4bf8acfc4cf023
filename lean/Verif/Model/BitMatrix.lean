import Verif.Model.Util
/-
Model of src/ot/bitmatrix.rs and of `transpose_matrix` in src/ot/apricot.rs.
`Block = u8`, so `BitVector` is a byte string and `BLOCK_SIZE = 8`.
-/
namespace FP

/-- `BitMatrix` (src/ot/bitmatrix.rs:170-174): a list of rows. -/
abbrev BitMatrix := List Bytes

/-- `BitVector::zeros` (src/ot/bitmatrix.rs:29-31). -/
def bitVectorZeros (size : Nat) : Bytes := List.replicate (size / 8) 0x00

/-- `BitVector::ones` (src/ot/bitmatrix.rs:34-36). -/
def bitVectorOnes (size : Nat) : Bytes := List.replicate (size / 8) 0xFF

/-- `BitXor` for `BitVector` and `&BitVector`, and `BitXorAssign` by value
(src/ot/bitmatrix.rs:95-123, 140-147).  The operators stop at the shorter operand; the assigning
one keeps the rest of its left operand, which for operands of equal length is the same. -/
def bitVectorXor (a b : Bytes) : Bytes := List.zipWith (· ^^^ ·) a b

/-- `BitXorAssign<&Self>` (src/ot/bitmatrix.rs:149-159). -/
def bitVectorXorAssign (dbg : Bool) (lhs rhs : Bytes) : R Bytes := do
  debugAssertR dbg (lhs.length = rhs.length)
  (List.range lhs.length).foldlM
    (fun l i => do setR l i ((← idxR l i) ^^^ (← idxR rhs i))) lhs

/-- `v[i] |= x` (src/ot/apricot.rs:575). -/
def orAt (v : Bytes) (i : Nat) (x : Byte) : R Bytes := do
  setR v i ((← idxR v i) ||| x)

/-- The packed choices of `BitMatrix::monochrome` (src/ot/bitmatrix.rs:184-190). -/
def packChoices (choices : List Bool) : R Bytes :=
  (List.range (choices.length / 8)).foldlM (fun packed i =>
    (List.range 8).foldlM (fun packed b => do
      orAt packed i (((if (← idxR choices (i * 8 + b)) then 1 else 0) : Byte) <<< b)) packed)
    (List.replicate (choices.length / 8) 0)

/-- `BitMatrix::monochrome` (src/ot/bitmatrix.rs:183-196): every row is the packed choices. -/
def monochrome (choices : List Bool) (size : Nat) : R BitMatrix := do
  let packed ← packChoices choices
  return List.replicate size packed

/-- `BitMatrix::dims` (src/ot/bitmatrix.rs:199-201): `rows[0]` panics on an empty matrix; `len()`
counts bits. -/
def BitMatrix.dims (m : BitMatrix) : R (Nat × Nat) := do
  return (m.length, (← idxR m 0).length * 8)

/-- `raw[row][col] |= x` (src/ot/bitmatrix.rs:220). -/
def orAt2 (raw : List Bytes) (row col : Nat) (x : Byte) : R (List Bytes) := do
  setR raw row (← orAt (← idxR raw row) col x)

/-- `BitMatrix::transpose` (src/ot/bitmatrix.rs:206-227). -/
def BitMatrix.transpose (m : BitMatrix) : R BitMatrix := do
  let (rows, cols) ← m.dims
  (List.range rows).foldlM (fun raw rowIdx =>
    (List.range (cols / 8)).foldlM (fun raw colIdx => do
      let sourceByte ← idxR (← idxR m rowIdx) colIdx
      (List.range 8).foldlM (fun raw b =>
        let sourceBit := (sourceByte >>> b) &&& 1
        orAt2 raw (colIdx * 8 + b) (rowIdx / 8) (sourceBit <<< (rowIdx % 8))) raw) raw)
    (List.replicate cols (List.replicate (rows / 8) 0))

/-- `transpose_matrix` (src/ot/apricot.rs:556-579). -/
def transposeMatrix (source target : Bytes) (transposedHeight transposedWidth originalWidth : Nat) : R Bytes :=
  (List.range transposedHeight).foldlM (fun target rowIdx =>
    (List.range transposedWidth).foldlM (fun target colIdx => do
      let sourceByte ← idxR source (index1d rowIdx colIdx transposedWidth)
      (List.range 8).foldlM (fun target b =>
        let sourceBit := (sourceByte >>> b) &&& 1
        orAt target (index1d (colIdx * 8 + b) (rowIdx / 8) originalWidth) (sourceBit <<< (rowIdx % 8)))
        target) target) target

end FP
