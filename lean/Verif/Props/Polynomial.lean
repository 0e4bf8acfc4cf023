import Verif.Proof.Witness
import Verif.Model.Polynomial
import Verif.Props.GF128
import Verif.Proof.Bits
import Verif.Proof.Classic
import Verif.Proof.Transpose64
/-
C59: the operators of bit vectors and polynomials.
-/
namespace FP.Props
open FP FP.Spec

attribute [local irreducible] Spec.modulus

private theorem bitAt_cons (x : Byte) (xs : Bytes) (k : Nat) :
    bitAt (x :: xs) k = if k < 8 then x.getLsbD k else bitAt xs (k - 8) := by
  unfold bitAt
  split
  · next h => rw [Nat.div_eq_of_lt h, Nat.mod_eq_of_lt h]; rfl
  · next h =>
    have h1 : k / 8 = (k - 8) / 8 + 1 := by omega
    have h2 : k % 8 = (k - 8) % 8 := by omega
    rw [h1, h2]; rfl

private theorem bitAt_nil (k : Nat) : bitAt [] k = false := by simp [bitAt]

private theorem zip_bits (op : Byte → Byte → Byte) (f : Bool → Bool → Bool)
    (h : ∀ x y i, i < 8 → (op x y).getLsbD i = f (x.getLsbD i) (y.getLsbD i)) (a b : Bytes) (k : Nat)
    (ha : k < 8 * a.length) (hb : k < 8 * b.length) :
    bitAt (List.zipWith op a b) k = f (bitAt a k) (bitAt b k) := by
  induction a generalizing b k with
  | nil => simp at ha
  | cons x xs ih =>
    cases b with
    | nil => simp at hb
    | cons y ys =>
      simp only [List.length_cons] at ha hb
      rw [List.zipWith_cons_cons, bitAt_cons, bitAt_cons, bitAt_cons]
      split
      · next hk => exact h x y k hk
      · exact ih ys (k - 8) (by omega) (by omega)

private theorem assign_length (op : Byte → Byte → Byte) (a b : Bytes) : (zipAssign op a b).length = a.length := by
  induction a generalizing b with
  | nil => cases b <;> rfl
  | cons x xs ih => cases b <;> simp [zipAssign, ih]

private theorem assign_bits (op : Byte → Byte → Byte) (f : Bool → Bool → Bool)
    (h : ∀ x y i, i < 8 → (op x y).getLsbD i = f (x.getLsbD i) (y.getLsbD i)) (a b : Bytes) (k : Nat)
    (ha : k < 8 * a.length) :
    bitAt (zipAssign op a b) k = if k < 8 * b.length then f (bitAt a k) (bitAt b k) else bitAt a k := by
  induction a generalizing b k with
  | nil => simp at ha
  | cons x xs ih =>
    cases b with
    | nil => simp [zipAssign]
    | cons y ys =>
      simp only [List.length_cons] at ha ⊢
      rw [zipAssign, bitAt_cons, bitAt_cons, bitAt_cons]
      by_cases hk : k < 8
      · rw [if_pos hk, if_pos hk, if_pos hk, if_pos (by omega)]; exact h x y k hk
      · rw [if_neg hk, if_neg hk, if_neg hk, ih ys (k - 8) (by omega)]
        by_cases hy : k < 8 * (ys.length + 1)
        · rw [if_pos hy, if_pos (by omega)]
        · rw [if_neg hy, if_neg (by omega)]

/-- C59.  `^` on bit vectors: the result has the length of the shorter operand and each of its bits is the
exclusive or of the operands' bits. -/
theorem C59_xor (a b : Bytes) : (bitVectorXor a b).length = min a.length b.length ∧
    ∀ k < 8 * min a.length b.length, bitAt (bitVectorXor a b) k = (bitAt a k ^^ bitAt b k) :=
  ⟨by simp [bitVectorXor], fun k hk => zip_bits _ _ (fun x y i _ => BitVec.getLsbD_xor) a b k (by omega) (by omega)⟩

/-- C59.  `&` on bit vectors, likewise. -/
theorem C59_and (a b : Bytes) : (bitVectorAnd a b).length = min a.length b.length ∧
    ∀ k < 8 * min a.length b.length, bitAt (bitVectorAnd a b) k = (bitAt a k && bitAt b k) :=
  ⟨by simp [bitVectorAnd], fun k hk => zip_bits _ _ (fun x y i _ => BitVec.getLsbD_and) a b k (by omega) (by omega)⟩

/-- C59.  `^=` by value keeps the length of the left operand; bits the right operand lacks are unchanged. -/
theorem C59_xor_assign_value (a b : Bytes) : (bitVectorXorAssignV a b).length = a.length ∧
    ∀ k < 8 * a.length, bitAt (bitVectorXorAssignV a b) k =
      if k < 8 * b.length then (bitAt a k ^^ bitAt b k) else bitAt a k :=
  ⟨assign_length _ a b, fun k hk => assign_bits _ _ (fun x y i _ => BitVec.getLsbD_xor) a b k hk⟩

/-- C59.  `&=` by value, likewise: bits the right operand lacks are unchanged, not cleared. -/
theorem C59_and_assign (a b : Bytes) : (bitVectorAndAssign a b).length = a.length ∧
    ∀ k < 8 * a.length, bitAt (bitVectorAndAssign a b) k =
      if k < 8 * b.length then (bitAt a k && bitAt b k) else bitAt a k :=
  ⟨assign_length _ a b, fun k hk => assign_bits _ _ (fun x y i _ => BitVec.getLsbD_and) a b k hk⟩

/-- The loop of `^=` by reference. -/
private def xorLoop (a b : Bytes) : R Bytes :=
  (List.range a.length).foldlM (fun l i => do setR l i ((← idxR l i) ^^^ (← idxR b i))) a

private theorem xorLoop_ok (a b : Bytes) (hl : a.length ≤ b.length) : xorLoop a b = .ok (bitVectorXor a b) := by
  have h1 : xorLoop a b = xorLoop a (b.take a.length) := by
    refine foldlM_congr' _ _ _ _ ?_
    intro i hi l
    have : i < a.length := by simpa using hi
    have : idxR (b.take a.length) i = idxR b i := by simp [idxR, List.getElem?_take, this]
    rw [this]
  have h2 := xorAssign_ok false (a := a) (b := b.take a.length) (by simp [hl])
  rw [h1]
  refine Eq.trans ?_ (h2.trans ?_)
  · rfl
  · congr 1
    unfold bitVectorXor
    apply List.ext_getElem
    · simp [hl]
    · intro i p q; simp

private theorem xorLoop_panics (a b : Bytes) (hl : b.length < a.length) : xorLoop a b = .error .panic := by
  refine foldlM_fails _ _ (fun l => l.length = a.length) .panic a rfl ?_ b.length (by simpa using hl) ?_
  · intro i hi l h
    have hi' : i < l.length := by rw [h]; simpa using hi
    by_cases hb : i < b.length
    · right
      refine ⟨l.set i (l.getD i 0 ^^^ b.getD i 0), ?_, by simp [h]⟩
      rw [idxR_getD hi', okb, idxR_getD hb, okb, setR_ok _ hi']
    · left
      have : idxR b i = .error .panic := by simp [idxR, List.getElem?_eq_none (Nat.le_of_not_lt hb), panicR]
      rw [idxR_getD hi', okb, this]; rfl
  · intro l h
    have : idxR b b.length = .error .panic := by simp [idxR, panicR]
    rw [idxR_getD (by omega), okb, this]; rfl

/-- C59.  `^=` by reference agrees with `^` on operands of equal length; a longer left operand panics; a
shorter one panics in a debug build and in a release build drops the rest of the right operand. -/
theorem C59_xor_assign (dbg : Bool) (a b : Bytes) :
    (a.length = b.length → bitVectorXorAssign dbg a b = .ok (bitVectorXor a b)) ∧
    (b.length < a.length → bitVectorXorAssign dbg a b = .error .panic) ∧
    (a.length < b.length →
      bitVectorXorAssign dbg a b = if dbg then .error .panic else .ok (bitVectorXor a b)) := by
  refine ⟨fun h => xorAssign_ok dbg h, fun h => ?_, fun h => ?_⟩
  · cases dbg
    · exact xorLoop_panics a b h
    · have : decide (a.length = b.length) = false := by simp; omega
      unfold bitVectorXorAssign debugAssertR; rw [this]; rfl
  · cases dbg
    · exact xorLoop_ok a b (by omega)
    · have : decide (a.length = b.length) = false := by simp; omega
      unfold bitVectorXorAssign debugAssertR; rw [this]; rfl

example := (C59_xor_assign true [1, 2] [3, 4]).1 rfl

/-- C59.  `zeros(n)` and `ones(n)` have `n` bits rounded down to whole bytes, all clear or all set. -/
theorem C59_constants (n : Nat) :
    bitVectorLen (bitVectorZeros n) = 8 * (n / 8) ∧ bitVectorLen (bitVectorOnes n) = 8 * (n / 8) ∧
    (∀ k < 8 * (n / 8), bitAt (bitVectorZeros n) k = false) ∧
    (∀ k < 8 * (n / 8), bitAt (bitVectorOnes n) k = true) := by
  refine ⟨by simp [bitVectorLen, bitVectorZeros]; omega, by simp [bitVectorLen, bitVectorOnes]; omega,
    fun k _ => bitAt_replicate _ k, fun k hk => ?_⟩
  have h1 : k / 8 < n / 8 := by omega
  have h2 : ∀ i < 8, (0xFF : Byte).getLsbD i = true := by decide
  unfold bitAt bitVectorOnes
  rw [List.getD_eq_getElem?_getD, List.getElem?_replicate, if_pos h1]
  exact h2 _ (Nat.mod_lt _ (by decide))

/-- C59.  A bit vector has eight bits per byte and is empty exactly if it has none. -/
theorem C59_len (v : Bytes) : bitVectorLen v = 8 * v.length ∧ (bitVectorIsEmpty v = true ↔ bitVectorLen v = 0) := by
  refine ⟨by unfold bitVectorLen; omega, ?_⟩
  unfold bitVectorIsEmpty bitVectorLen
  cases v <;> simp

private theorem assign_zip (a b : Bytes) (h : a.length = b.length) : bitVectorXorAssignV a b = bitVectorXor a b := by
  induction a generalizing b with
  | nil => cases b <;> rfl
  | cons x xs ih =>
    cases b with
    | nil => simp at h
    | cons y ys => exact congrArg (_ :: ·) (ih ys (by simpa using h))

/-- C59.  On polynomials of 128 bits, `+` and both forms of `+=` give the sum in GF(2^128), and
`mul_add_assign` adds the product, on every processor and in every build. -/
theorem C59_polynomial (arch : Arch) (dbg : Bool) (a b acc : Bytes) (ha : a.length = 16) (hb : b.length = 16)
    (hacc : acc.length = 16) :
    elt (polynomialAdd a b) = elt a + elt b ∧
    polynomialAddAssign dbg a b = .ok (polynomialAdd a b) ∧
    polynomialAddAssignV a b = polynomialAdd a b ∧
    ∃ out, polynomialMulAddAssign arch dbg acc a b = .ok out ∧ out.length = 16 ∧
      elt out = elt acc + elt a * elt b := by
  refine ⟨elt_xor a b (by omega), xorAssign_ok dbg (by omega), assign_zip a b (by omega), ?_⟩
  exact C14_mul_acc_field arch dbg acc a b hacc ha hb

example := C59_polynomial .aarch64 true (List.replicate 16 7) (List.replicate 16 9) (List.replicate 16 3) (by meets) (by meets)
    (by meets)

/-- C59.  `Polynomial::new()` is the zero of the field, and conversion from a bit vector changes nothing; a
debug build accepts exactly vectors of 128 bits, a release build accepts all. -/
theorem C59_polynomial_new (dbg : Bool) (v : Bytes) :
    polynomialNew.length = 16 ∧ elt polynomialNew = 0 ∧
    polynomialFrom dbg v = if dbg = true ∧ v.length ≠ 16 then .error .panic else .ok v := by
  refine ⟨by simp [polynomialNew, bitVectorZeros], elt_zero _, ?_⟩
  have e : decide (bitVectorLen v = 128) = decide (v.length = 16) := by
    unfold bitVectorLen; exact decide_eq_decide.mpr (by omega)
  unfold polynomialFrom
  rw [e]
  by_cases h : v.length = 16
  · simp [h, debugAssertR, assertR, okb, purek]
  · cases dbg <;> simp [h, debugAssertR, assertR, okb, errb, purek, panicR]

/-- C59 fails for multiplication: `*` and `*=` on polynomials never return. -/
theorem C59_fails_mul (a b : Bytes) : ¬ ∃ out, polynomialMul a b = .ok out := by
  rintro ⟨_, h⟩; cases h

/-- The 64 by 64 matrix whose only bit is the last one of its first row. -/
def corner : List (BitVec 64) := 0x8000000000000000 :: List.replicate 63 0

/-- C59 fails for the unused 64 by 64 transposition: it maps a matrix with one bit set to the zero matrix, as
it does the zero matrix, so it is no rearrangement of bits under any numbering of rows and columns. -/
theorem C59_fails_transpose64 :
    transpose64 corner = .ok (List.replicate 64 0) ∧
    transpose64 (List.replicate 64 0) = .ok (List.replicate 64 0) := by
  constructor <;> decide +kernel

/-- C59: what the unused transposition computes instead, for every matrix of 64 rows: five rounds of masked shifts
(Spec/Transpose64). -/
theorem C59_transpose64 (rows : List (BitVec 64)) (h : rows.length = 64) :
    ∃ out, transpose64 rows = .ok out ∧ out.length = 64 ∧
      ∀ r < 64, out[r]? = some (transposeRounds (fun i => rows.getD i 0) r) :=
  transpose64_rounds (M := fun i => rows.getD i 0)
    ⟨h, fun i hi => by simp [List.getD, List.getElem?_eq_getElem (show i < rows.length by omega)]⟩

/-- The first row of the result for the matrix with all bits set. -/
example : (List.replicate 64 (0xFFFFFFFFFFFFFFFF : BitVec 64)).length = 64 ∧
    transposeRounds (fun i => (List.replicate 64 (0xFFFFFFFFFFFFFFFF : BitVec 64)).getD i 0) 0 = 0x0000000000000003 := by
  decide +kernel

/-- The operators on operands of different lengths. -/
example : bitVectorXor [0x0F, 1] [0xFF] = [0xF0] ∧ bitVectorAndAssign [0x0F, 1] [0xF1] = [0x01, 1] ∧
    bitVectorXorAssign false [1] [3, 4] = .ok [2] ∧ bitVectorXorAssign true [1] [3, 4] = .error .panic ∧
    bitVectorXorAssign false [1, 2] [3] = .error .panic := by decide +kernel

/-- Polynomials of 128 bits meet the hypotheses of `C59_polynomial`. -/
example : (polynomialNew.length = 16) ∧ ((1 : Byte) :: List.replicate 15 7).length = 16 := by decide

end FP.Props
