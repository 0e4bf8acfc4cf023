import Verif.Model.BitMatrix
import Verif.Model.GF128
/-
Model of the operators of `BitVector` (src/ot/bitmatrix.rs) and `Polynomial` (src/ot/polynomial.rs) that no
protocol uses, and of the unused `tranpose_64`.  `Block = u8`, so `align_to` has empty ends and a bit vector is
a byte string.
-/
namespace FP

/-- `BitVector::len` (src/ot/bitmatrix.rs:39-41): the number of bits. -/
def bitVectorLen (v : Bytes) : Nat := v.length * 8

/-- `BitVector::is_empty` (src/ot/bitmatrix.rs:44-46). -/
def bitVectorIsEmpty (v : Bytes) : Bool := v.isEmpty

/-- `BitAnd` for `BitVector` (src/ot/bitmatrix.rs:125-138): stops at the shorter operand. -/
def bitVectorAnd (a b : Bytes) : Bytes := List.zipWith (· &&& ·) a b

/-- The loop of `BitXorAssign` and `BitAndAssign` by value (src/ot/bitmatrix.rs:140-147 and 161-168): the
elements both operands have are combined, the rest of the left operand stays. -/
def zipAssign (op : Byte → Byte → Byte) : Bytes → Bytes → Bytes
  | l :: ls, r :: rs => op l r :: zipAssign op ls rs
  | ls, _ => ls

/-- `BitXorAssign` by value (src/ot/bitmatrix.rs:140-147). -/
def bitVectorXorAssignV (a b : Bytes) : Bytes := zipAssign (· ^^^ ·) a b

/-- `BitAndAssign` by value (src/ot/bitmatrix.rs:161-168). -/
def bitVectorAndAssign (a b : Bytes) : Bytes := zipAssign (· &&& ·) a b

/-- `Polynomial::new` and `Default` (src/ot/polynomial.rs:14-16 and 40-45). -/
def polynomialNew : Bytes := bitVectorZeros 128

/-- `From<BitVector> for Polynomial` (src/ot/polynomial.rs:24-30). -/
def polynomialFrom (dbg : Bool) (v : Bytes) : R Bytes := do
  debugAssertR dbg (bitVectorLen v = 128)
  return v

/-- `Add for Polynomial` (src/ot/polynomial.rs:47-54). -/
def polynomialAdd (a b : Bytes) : Bytes := bitVectorXor a b

/-- `AddAssign<&Self> for Polynomial` (src/ot/polynomial.rs:56-61). -/
def polynomialAddAssign (dbg : Bool) (a b : Bytes) : R Bytes := bitVectorXorAssign dbg a b

/-- `AddAssign<Self> for Polynomial` (src/ot/polynomial.rs:63-68). -/
def polynomialAddAssignV (a b : Bytes) : Bytes := bitVectorXorAssignV a b

/-- `Polynomial::mul_add_assign` (src/ot/polynomial.rs:18-21). -/
def polynomialMulAddAssign (arch : Arch) (dbg : Bool) (acc a b : Bytes) : R Bytes := gf128MulAcc arch dbg acc a b

/-- `Mul for Polynomial`, `Mul for &Polynomial` and `MulAssign for Polynomial`
(src/ot/polynomial.rs:70-98): all three are `todo!()`. -/
def polynomialMul (_a _b : Bytes) : R Bytes := panicR

/-- `x >> j` and `x << j` on `u64` for `j < 64`, the inner step of `tranpose_64`
(src/ot/bitmatrix.rs:235-237).  In Rust `&` binds tighter than `^`. -/
def transpose64Step (j : Nat) (m : BitVec 64) (k : Nat) (matrix : List (BitVec 64)) : R (List (BitVec 64)) := do
  let t := (← idxR matrix k) ^^^ (((← idxR matrix (k + j)) >>> j) &&& m)
  let matrix ← setR matrix k ((← idxR matrix k) ^^^ t)
  setR matrix (k + j) ((← idxR matrix (k + j)) ^^^ (t <<< j))

/-- The inner loop `while k < 64` (src/ot/bitmatrix.rs:234-239); `k` grows in every round, so 64 rounds are
enough.  `(k + j + 1) & !j` for `j` a power of two. -/
def transpose64Inner : Nat → Nat → BitVec 64 → Nat → List (BitVec 64) → R (List (BitVec 64))
  | 0, _, _, _, matrix => .ok matrix
  | n + 1, j, m, k, matrix =>
    if k < 64 then do
      let matrix ← transpose64Step j m k matrix
      transpose64Inner n j m ((k + j + 1) - ((k + j + 1) &&& j)) matrix
    else .ok matrix

/-- `tranpose_64` (src/ot/bitmatrix.rs:229-243), private and unused.  `j` runs through 16, 8, 4, 2, 1. -/
def transpose64 (matrix : List (BitVec 64)) : R (List (BitVec 64)) := do
  let (_, matrix) ← [16, 8, 4, 2, 1].foldlM (fun (s : BitVec 64 × List (BitVec 64)) (j : Nat) => do
    let matrix ← transpose64Inner 64 j s.1 0 s.2
    return (s.1 ^^^ (s.1 <<< j), matrix)) ((0x00000000FFFFFFFF : BitVec 64), matrix)
  return matrix

end FP
