import Verif.Model.Basic
/-
Model of src/ot/polynomial.rs and of the polynomial part of src/ot/apricot.rs: multiplication in
GF(2^128), in its portable, x86-64 and aarch64 versions.
-/
namespace FP

/-! ### Memory access -/

/-- `*(p as *const u128)` for a pointer to the start of `bs` (little endian).  Reading past the end
is undefined behaviour.  Alignment is not modelled (src/ot/polynomial.rs:154-155 and 256-257). -/
def loadU128 (bs : Bytes) : R (BitVec 128) :=
  if 16 ≤ bs.length then
    .ok ((bs.take 16).foldr (fun b v => (v <<< 8) ||| b.setWidth 128) 0)
  else ubR

/-- The 16 bytes of a `u128` in memory (little endian) (src/ot/polynomial.rs:171-172 and 273). -/
def storeBytes (v : BitVec 128) : Bytes :=
  (List.range 16).map fun i => v.extractLsb' (8 * i) 8

/-- `*(p as *mut u128) ^= v` for a pointer to the start of `bs` (src/ot/polynomial.rs:171-172, 273 and 311). -/
def xorU128 (bs : Bytes) (v : BitVec 128) : R Bytes := do
  let old ← loadU128 bs
  return storeBytes (old ^^^ v) ++ bs.drop 16

/-- `*p.offset(i)` for a `*const u64` to the start of the 16 bytes of `v` (src/ot/polynomial.rs:141-142). -/
def lane (v : BitVec 128) (i : Nat) : BitVec 64 := v.extractLsb' (64 * i) 64

/-! ### Portable version -/

/-- `gf128_reduce` (src/ot/polynomial.rs:115-133, and its copy in src/ot/apricot.rs:689-707).
`x as u64` keeps the low half. -/
def gf128Reduce (x32 x10 : BitVec 128) : BitVec 128 :=
  let x2 := x32.setWidth 64
  let x3 := (x32 >>> 64).setWidth 64
  let a := x3 >>> 63
  let b := x3 >>> 62
  let c := x3 >>> 57
  let d := x2 ^^^ a ^^^ b ^^^ c
  let x3d := (x3.setWidth 128 <<< 64) ||| d.setWidth 128
  let e := x3d <<< 1
  let f := x3d <<< 2
  let g := x3d <<< 7
  let h := x3d ^^^ e ^^^ f ^^^ g
  h ^^^ x10

/-- The loop of `clmul` (src/ot/polynomial.rs:144-150), at most `n` rounds of it. -/
def clmulLoop : Nat → BitVec 128 → BitVec 128 → BitVec 128 → BitVec 128
  | 0, _, _, r => r
  | n + 1, a, b, r =>
    if b ≠ 0 then
      let r := if a &&& 1 = 1 then r ^^^ b else r
      clmulLoop n (a >>> 1) (b <<< 1) r
    else r

/-- `clmul` (src/ot/polynomial.rs:139-152).  `b` is shifted left in 128 bits in each round, so the
loop stops within 128 rounds (`clmulLoop_fuel` in Proof/GF128.lean: more rounds change nothing). -/
def clmulGeneric (a b : BitVec 64) : BitVec 128 :=
  clmulLoop 128 (a.setWidth 128) (b.setWidth 128) 0

/-- `polynomial_mul_acc_generic` (src/ot/polynomial.rs:135-175).  `len()` counts bits. -/
def mulAccGeneric (dbg : Bool) (result left right : Bytes) : R Bytes := do
  debugAssertR dbg (left.length * 8 = 128)
  debugAssertR dbg (right.length * 8 = 128)
  let a ← loadU128 left
  let b ← loadU128 right
  let c := clmulGeneric (lane a 0) (lane b 0)
  let d := clmulGeneric (lane a 1) (lane b 1)
  let e := clmulGeneric (lane a 0) (lane b 1)
  let f := clmulGeneric (lane a 1) (lane b 0)
  let ef := e ^^^ f
  let lower := ef <<< 64
  let upper := ef >>> 64
  let left := d ^^^ upper
  let right := c ^^^ lower
  xorU128 result (gf128Reduce left right)

/-! ### Instruction semantics (Intel and Arm manuals) -/

/-- Carry-less product of two 64-bit operands: `PCLMULQDQ` and `PMULL` (src/ot/polynomial.rs:259-262 and 285). -/
def clmul64 (a b : BitVec 64) : BitVec 128 :=
  (List.range 64).foldl (fun r i => if a.getLsbD i then r ^^^ (b.setWidth 128 <<< i) else r) 0

/-- `_mm_set_epi64x(hi, lo)` (src/ot/polynomial.rs:235). -/
def mmSet (hi lo : BitVec 64) : BitVec 128 := hi ++ lo

/-- `_mm_clmulepi64_si128(a, b, imm)`: bit 0 of `imm` selects the half of `a`, bit 4 the half of
`b` (src/ot/polynomial.rs:259-262). -/
def mmClmul (a b : BitVec 128) (imm : BitVec 8) : BitVec 128 :=
  clmul64 (lane a (if imm.getLsbD 0 then 1 else 0)) (lane b (if imm.getLsbD 4 then 1 else 0))

/-- `_mm_slli_si128(a, n)` and `_mm_bslli_si128(a, n)`: left by `n` bytes (src/ot/polynomial.rs:199 and 265). -/
def mmBslli (a : BitVec 128) (n : Nat) : BitVec 128 := a <<< (8 * n)

/-- `_mm_srli_si128(a, n)`: right by `n` bytes (src/ot/polynomial.rs:266). -/
def mmBsrli (a : BitVec 128) (n : Nat) : BitVec 128 := a >>> (8 * n)

/-- `_mm_srli_epi64(a, n)`: each half right by `n` bits (src/ot/polynomial.rs:200). -/
def mmSrli64 (a : BitVec 128) (n : Nat) : BitVec 128 := mmSet (lane a 1 >>> n) (lane a 0 >>> n)

/-- `_mm_slli_epi64(a, n)`: each half left by `n` bits (src/ot/polynomial.rs:201). -/
def mmSlli64 (a : BitVec 128) (n : Nat) : BitVec 128 := mmSet (lane a 1 <<< n) (lane a 0 <<< n)

/-- `vextq_p64(a, b, 1)`: the high half of `a` followed by the low half of `b` (src/ot/polynomial.rs:305-306). -/
def vext1 (a b : BitVec 128) : BitVec 128 := mmSet (lane b 0) (lane a 1)

/-! ### x86-64 version -/

/-- `_mm_slli_si128_1`, `_2`, `_7` (src/ot/polynomial.rs:195-221, src/ot/apricot.rs:599-625), which
differ in `SHIFT`. -/
def slliSi128 (shift : Nat) (value : BitVec 128) : BitVec 128 :=
  let carry := mmBslli value 8
  let carry := mmSrli64 carry (64 - shift)
  let value := mmSlli64 value shift
  value ||| carry

/-- `polynomial_gf128_reduce` (src/ot/polynomial.rs:223-246, src/ot/apricot.rs:626-648). -/
def gf128ReduceX86 (x32 x10 : BitVec 128) : BitVec 128 :=
  let x2 := lane x32 0
  let x3 := lane x32 1
  let a := x3 >>> 63
  let b := x3 >>> 62
  let c := x3 >>> 57
  let d := x2 ^^^ a ^^^ b ^^^ c
  let x3d := mmSet x3 d
  let e := slliSi128 1 x3d
  let f := slliSi128 2 x3d
  let g := slliSi128 7 x3d
  let h := x3d ^^^ e
  let h := h ^^^ f
  let h := h ^^^ g
  h ^^^ x10

/-- `m128i_to_u128` (src/ot/polynomial.rs:187-193). -/
def m128iToU128 (a : BitVec 128) : BitVec 128 :=
  ((lane a 1).setWidth 128 <<< 64) ||| (lane a 0).setWidth 128

/-- `polynomial_mul_acc_x86` (src/ot/polynomial.rs:248-275). -/
def mulAccX86 (destination left right : Bytes) : R Bytes := do
  let a ← loadU128 left
  let b ← loadU128 right
  let c := mmClmul a b 0x00#8
  let d := mmClmul a b 0x11#8
  let e := mmClmul a b 0x01#8
  let f := mmClmul a b 0x10#8
  let ef := e ^^^ f
  let lower := mmBslli ef (64 / 8)
  let upper := mmBsrli ef (64 / 8)
  let left := d ^^^ upper
  let right := c ^^^ lower
  xorU128 destination (m128iToU128 (gf128ReduceX86 left right))

/-- `polynomial_mul_acc` of src/ot/apricot.rs:650-677 (x86-64): as above, but the result is XORed as
a vector. -/
def mulAccApricotX86 (destination left right : Bytes) : R Bytes := do
  let a ← loadU128 left
  let b ← loadU128 right
  let c := mmClmul a b 0x00#8
  let d := mmClmul a b 0x11#8
  let e := mmClmul a b 0x01#8
  let f := mmClmul a b 0x10#8
  let ef := e ^^^ f
  let lower := mmBslli ef (64 / 8)
  let upper := mmBsrli ef (64 / 8)
  let left := d ^^^ upper
  let right := c ^^^ lower
  xorU128 destination (gf128ReduceX86 left right)

/-! ### aarch64 version -/

/-- `polynomial_mul_acc_arm64` (src/ot/polynomial.rs:277-313). -/
def mulAccArm64 (dbg : Bool) (destination left right : Bytes) : R Bytes := do
  debugAssertR dbg (left.length * 8 = 128)
  debugAssertR dbg (right.length * 8 = 128)
  let a ← loadU128 left
  let b ← loadU128 right
  let z : BitVec 128 := mmSet 0 0
  let c := clmul64 (lane a 0) (lane b 0)
  let d := clmul64 (lane a 1) (lane b 1)
  let e := clmul64 (lane a 0) (lane b 1)
  let f := clmul64 (lane a 1) (lane b 0)
  let ef := e ^^^ f
  let lower := vext1 z ef
  let upper := vext1 ef z
  let left := d ^^^ upper
  let right := c ^^^ lower
  xorU128 destination (gf128Reduce left right)

/-- `polynomial_mul_acc` of src/ot/apricot.rs:679-734 (aarch64): no length assertions. -/
def mulAccApricotArm64 (destination left right : Bytes) : R Bytes :=
  mulAccArm64 false destination left right

/-- The processor the code was compiled for (src/ot/polynomial.rs:100-113). -/
inductive Arch where
  | x86_64
  | aarch64
  | other
  deriving DecidableEq

/-- `gf128_mul_acc` (src/ot/polynomial.rs:100-113), which is `Polynomial::mul_add_assign`
(src/ot/polynomial.rs:18-21). -/
def gf128MulAcc (arch : Arch) (dbg : Bool) (result left right : Bytes) : R Bytes :=
  match arch with
  | .x86_64 => mulAccX86 result left right
  | .aarch64 => mulAccArm64 dbg result left right
  | .other => mulAccGeneric dbg result left right

/-- `polynomial_mul_acc` of src/ot/apricot.rs, which exists for x86-64 and for aarch64 (`arm`)
only (src/ot/apricot.rs:650-734). -/
def apricotMulAcc (arm : Bool) (destination left right : Bytes) : R Bytes :=
  if arm then mulAccApricotArm64 destination left right else mulAccApricotX86 destination left right

end FP
