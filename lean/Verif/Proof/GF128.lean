import Verif.Model.GF128
import Verif.Spec.GF128
import Verif.Proof.Monad
import Verif.Proof.Util
import Mathlib.Tactic.Ring
import Mathlib.Tactic.Abel
import Mathlib.Tactic.LinearCombination
import Mathlib.FieldTheory.Finite.Extension
import Mathlib.Tactic.ComputeDegree
/-
GF(2^128): the code against polynomials over GF(2).
-/
namespace FP
open Polynomial

/-! ### Bit vectors as polynomials -/

/-- The polynomial whose coefficients are the bits. -/
noncomputable def toPoly {n : Nat} (v : BitVec n) : (ZMod 2)[X] :=
  ∑ i ∈ Finset.range n, if v.getLsbD i then X ^ i else 0

theorem coeff_sum_ite (n : Nat) (f : Nat → Bool) (i : Nat) :
    (∑ j ∈ Finset.range n, (if f j then X ^ j else 0 : (ZMod 2)[X])).coeff i =
      if i < n ∧ f i = true then 1 else 0 := by
  rw [finset_sum_coeff]
  have : ∀ j ∈ Finset.range n, (if f j then X ^ j else 0 : (ZMod 2)[X]).coeff i =
      if j = i then (if f i then 1 else 0) else 0 := by
    intro j _
    by_cases hji : j = i
    · subst hji
      by_cases hf : f j <;> simp [hf]
    · by_cases hf : f j <;> simp [hf, hji, coeff_X_pow, Ne.symm hji]
  rw [Finset.sum_congr rfl this, Finset.sum_ite_eq']
  by_cases h1 : i < n <;> by_cases h2 : f i <;> simp [h1, h2]

theorem coeff_toPoly {n : Nat} (v : BitVec n) (i : Nat) :
    (toPoly v).coeff i = if v.getLsbD i then 1 else 0 := by
  unfold toPoly
  rw [coeff_sum_ite]
  by_cases h : i < n
  · simp [h]
  · simp [h, BitVec.getLsbD_of_ge v i (by omega)]

theorem toPoly_inj {n : Nat} {v w : BitVec n} (h : toPoly v = toPoly w) : v = w := by
  apply BitVec.eq_of_getLsbD_eq
  intro i _
  have := congrArg (fun p => p.coeff i) h
  simp only [coeff_toPoly] at this
  cases h1 : v.getLsbD i <;> cases h2 : w.getLsbD i <;> simp_all

theorem toPoly_zero (n : Nat) : toPoly (0 : BitVec n) = 0 := by
  ext i; rw [coeff_toPoly]; simp

theorem toPoly_zero' (n : Nat) : toPoly (BitVec.ofNat n 0) = 0 := toPoly_zero n

theorem toPoly_xor {n : Nat} (v w : BitVec n) : toPoly (v ^^^ w) = toPoly v + toPoly w := by
  ext i
  rw [coeff_add, coeff_toPoly, coeff_toPoly, coeff_toPoly, BitVec.getLsbD_xor]
  cases v.getLsbD i <;> cases w.getLsbD i <;> simp <;> decide

theorem toPoly_setWidth {n m : Nat} (v : BitVec n) (h : n ≤ m) : toPoly (v.setWidth m) = toPoly v := by
  ext i
  rw [coeff_toPoly, coeff_toPoly, BitVec.getLsbD_setWidth]
  by_cases hi : i < m
  · simp [hi]
  · simp [hi, BitVec.getLsbD_of_ge v i (by omega)]

/-- A left shift drops the bits above the width. -/
theorem toPoly_shl {n : Nat} (v : BitVec n) (k : Nat) (hk : k ≤ n) :
    toPoly (v <<< k) = X ^ k * toPoly v + X ^ n * toPoly (v >>> (n - k)) := by
  ext i
  rw [coeff_add, coeff_toPoly, BitVec.getLsbD_shiftLeft, coeff_X_pow_mul', coeff_X_pow_mul', coeff_toPoly,
    coeff_toPoly, BitVec.getLsbD_ushiftRight]
  by_cases h1 : i < n
  · rw [if_neg (by omega : ¬ n ≤ i)]
    by_cases h2 : i < k
    · simp [h1, h2]
    · simp [h1, h2, show k ≤ i by omega]
  · rw [if_pos (by omega : n ≤ i), if_pos (by omega : k ≤ i)]
    simp only [h1, decide_false, Bool.false_and, Bool.false_eq_true, if_false]
    rw [show n - k + (i - n) = i - k by omega]
    cases v.getLsbD (i - k) <;> simp <;> decide

theorem toPoly_shl_lt {n : Nat} (v : BitVec n) (k : Nat) (h : ∀ i, n ≤ i + k → v.getLsbD i = false) :
    toPoly (v <<< k) = X ^ k * toPoly v := by
  ext i
  rw [coeff_toPoly, BitVec.getLsbD_shiftLeft, coeff_X_pow_mul', coeff_toPoly]
  by_cases h2 : i < k
  · simp [h2]
  · by_cases h1 : i < n
    · simp [h1, h2, show k ≤ i by omega]
    · simp [h1, h (i - k) (by omega)]

/-! ### Carry-less multiplication -/

theorem clmul64_poly_aux (a b : BitVec 64) (n : Nat) (hn : n ≤ 64) :
    toPoly ((List.range n).foldl
      (fun r i => if a.getLsbD i then r ^^^ (b.setWidth 128 <<< i) else r) (0 : BitVec 128)) =
    (∑ i ∈ Finset.range n, if a.getLsbD i then X ^ i else 0) * toPoly b := by
  induction n with
  | zero => simp [toPoly_zero']
  | succ n ih =>
    rw [List.range_succ, List.foldl_append, List.foldl_cons, List.foldl_nil, Finset.sum_range_succ, add_mul,
      ← ih (by omega)]
    by_cases h : a.getLsbD n
    · rw [if_pos h, if_pos h, toPoly_xor, toPoly_shl_lt, toPoly_setWidth _ (by omega)]
      intro i hi
      rw [BitVec.getLsbD_setWidth, BitVec.getLsbD_of_ge b i (by omega)]
      simp
    · rw [if_neg h, if_neg h, zero_mul, add_zero]

theorem clmul64_poly (a b : BitVec 64) : toPoly (clmul64 a b) = toPoly a * toPoly b :=
  clmul64_poly_aux a b 64 (Nat.le_refl _)

theorem clmulLoop_zero (n : Nat) (a r : BitVec 128) : clmulLoop n a 0 r = r := by
  cases n <;> simp [clmulLoop]

/-- More rounds than 128 change nothing: the loop has ended. -/
theorem clmulLoop_fuel (n m : Nat) (a b r : BitVec 128) (hb : ∀ i, i + n < 128 → b.getLsbD i = false) :
    clmulLoop (n + m) a b r = clmulLoop n a b r := by
  induction n generalizing a b r with
  | zero =>
    have : b = 0 := by
      apply BitVec.eq_of_getLsbD_eq
      intro i hi
      rw [hb i (by omega)]; simp
    rw [this, clmulLoop_zero, clmulLoop_zero]
  | succ n ih =>
    rw [show n + 1 + m = n + m + 1 by omega]
    unfold clmulLoop
    by_cases h : b = 0
    · simp [h]
    · simp only [ne_eq, h, not_false_eq_true, if_true]
      apply ih
      intro i hi
      rw [BitVec.getLsbD_shiftLeft]
      by_cases h0 : i < 1
      · simp [h0]
      · rw [hb (i - 1) (by omega)]; simp

theorem and_one_eq (a : BitVec 128) : (a &&& 1 = 1) ↔ a.getLsbD 0 = true := by
  constructor
  · intro h
    have := congrArg (fun v => v.getLsbD 0) h
    simpa using this
  · intro h
    apply BitVec.eq_of_getLsbD_eq
    intro i hi
    rw [BitVec.getLsbD_and]
    rcases i with _ | i
    · simp [h]
    · simp [BitVec.getLsbD_one]

theorem clmulLoop_poly (n : Nat) (a b r : BitVec 128) (hn : n ≤ 64)
    (ha : ∀ i, n ≤ i → a.getLsbD i = false) (hb : ∀ i, 128 ≤ i + n → b.getLsbD i = false) :
    ∀ m, toPoly (clmulLoop (n + m) a b r) = toPoly r + toPoly a * toPoly b := by
  induction n generalizing a b r with
  | zero =>
    intro m
    have h0 : a = 0 := by
      apply BitVec.eq_of_getLsbD_eq
      intro i hi
      rw [ha i (by omega)]; simp
    subst h0
    rw [toPoly_zero, zero_mul, add_zero]
    congr 1
    generalize 0 + m = k
    induction k generalizing b with
    | zero => rfl
    | succ k ih =>
      unfold clmulLoop
      by_cases h : b = 0
      · simp [h]
      · have := ih (b <<< 1) (by
          intro i hi; exact BitVec.getLsbD_of_ge _ _ (by omega))
        simp only [ne_eq, h, not_false_eq_true, if_true]
        simpa using this
  | succ n ih =>
    intro m
    rw [show n + 1 + m = n + m + 1 by omega]
    unfold clmulLoop
    by_cases h : b = 0
    · subst h; simp [toPoly_zero']
    · simp only [ne_eq, h, not_false_eq_true, if_true]
      rw [ih _ _ _ (by omega) (by
          intro i hi
          rw [BitVec.getLsbD_ushiftRight]; exact ha _ (by omega)) (by
          intro i hi
          rw [BitVec.getLsbD_shiftLeft]
          by_cases h1 : i < 1
          · omega
          · rw [hb (i - 1) (by omega)]; simp) m]
      rw [toPoly_shl_lt b 1 (fun i hi => hb i (by omega))]
      have hsplit : toPoly a = (if a &&& 1 = 1 then (1 : (ZMod 2)[X]) else 0) + X * toPoly (a >>> 1) := by
        ext i
        rw [coeff_add, coeff_toPoly]
        rcases i with _ | i
        · rw [coeff_X_mul_zero, add_zero]
          by_cases h1 : a &&& 1 = 1
          · rw [if_pos h1]; rw [and_one_eq] at h1; simp [h1]
          · rw [if_neg h1, coeff_zero]; rw [and_one_eq] at h1; rw [if_neg h1]
        · rw [coeff_X_mul, coeff_toPoly, BitVec.getLsbD_ushiftRight, Nat.add_comm 1 i]
          by_cases h1 : a &&& 1 = 1
          · rw [if_pos h1, coeff_one]; simp
          · rw [if_neg h1]; simp
      rw [hsplit]
      by_cases h1 : a &&& 1 = 1
      · rw [if_pos h1, if_pos h1, toPoly_xor]; ring
      · rw [if_neg h1, if_neg h1]; ring

theorem clmulGeneric_poly (a b : BitVec 64) : toPoly (clmulGeneric a b) = toPoly a * toPoly b := by
  unfold clmulGeneric
  have := clmulLoop_poly 64 (a.setWidth 128) (b.setWidth 128) 0 (Nat.le_refl _) (by
    intro i hi
    rw [BitVec.getLsbD_setWidth, BitVec.getLsbD_of_ge a i hi]; simp) (by
    intro i hi
    rw [BitVec.getLsbD_setWidth, BitVec.getLsbD_of_ge b i (by omega)]; simp) 64
  rw [this, toPoly_zero, zero_add, toPoly_setWidth _ (by omega), toPoly_setWidth _ (by omega)]

theorem clmulGeneric_eq (a b : BitVec 64) : clmulGeneric a b = clmul64 a b :=
  toPoly_inj (by rw [clmulGeneric_poly, clmul64_poly])

/-! ### The 256-bit product -/

theorem toPoly_lanes (a : BitVec 128) : toPoly a = toPoly (lane a 0) + X ^ 64 * toPoly (lane a 1) := by
  ext i
  rw [coeff_add, coeff_toPoly, coeff_toPoly, coeff_X_pow_mul', coeff_toPoly]
  unfold lane
  rw [BitVec.getLsbD_extractLsb', BitVec.getLsbD_extractLsb']
  by_cases h : i < 64
  · simp [h, show ¬ 64 ≤ i by omega]
  · rw [if_pos (by omega : 64 ≤ i)]
    by_cases h2 : i < 128
    · simp [h, show i - 64 < 64 by omega, show 64 + (i - 64) = i by omega]
    · simp [h, show ¬ i - 64 < 64 by omega, BitVec.getLsbD_of_ge a i (by omega)]

/-- The high and low halves of the product. -/
theorem product_poly (a b : BitVec 128) :
    let ef := clmul64 (lane a 0) (lane b 1) ^^^ clmul64 (lane a 1) (lane b 0)
    X ^ 128 * toPoly (clmul64 (lane a 1) (lane b 1) ^^^ (ef >>> 64)) +
      toPoly (clmul64 (lane a 0) (lane b 0) ^^^ (ef <<< 64)) = toPoly a * toPoly b := by
  intro ef
  have hef : toPoly ef = toPoly (lane a 0) * toPoly (lane b 1) + toPoly (lane a 1) * toPoly (lane b 0) := by
    rw [toPoly_xor, clmul64_poly, clmul64_poly]
  rw [toPoly_xor, toPoly_xor, clmul64_poly, clmul64_poly, toPoly_shl ef 64 (by omega), hef, toPoly_lanes a,
    toPoly_lanes b]
  have h2 : (2 : (ZMod 2)[X]) = 0 := by
    have : ((2 : ZMod 2)) = 0 := by decide
    rw [← C_ofNat, this, C_0]
  linear_combination (X ^ 128 * toPoly (ef >>> 64)) * h2

/-! ### Reduction -/

theorem two_poly : (2 : (ZMod 2)[X]) = 0 := by
  have : ((2 : ZMod 2)) = 0 := by decide
  rw [← C_ofNat, this, C_0]

theorem reduce_poly (x32 x10 : BitVec 128) :
    ∃ w, toPoly (gf128Reduce x32 x10) = X ^ 128 * toPoly x32 + toPoly x10 + Spec.modulus * w := by
  -- the seven bits that wrap around
  have hx3d : (((x32 >>> 64).setWidth 64).setWidth 128 <<< 64) |||
      (x32.setWidth 64 ^^^ ((x32 >>> 64).setWidth 64) >>> 63 ^^^ ((x32 >>> 64).setWidth 64) >>> 62 ^^^
        ((x32 >>> 64).setWidth 64) >>> 57).setWidth 128 =
      x32 ^^^ (x32 >>> 127 ^^^ x32 >>> 126 ^^^ x32 >>> 121) := by
    apply BitVec.eq_of_getLsbD_eq
    intro i hi
    have key : ∀ k, (decide (k + i < 64) && x32.getLsbD (64 + (k + i))) = x32.getLsbD (64 + k + i) := by
      intro k
      rw [Nat.add_assoc]
      by_cases hk : k + i < 64
      · simp [hk]
      · simp [hk, BitVec.getLsbD_of_ge x32 (64 + (k + i)) (by omega)]
    simp only [BitVec.getLsbD_or, BitVec.getLsbD_shiftLeft, BitVec.getLsbD_setWidth, BitVec.getLsbD_xor,
      BitVec.getLsbD_ushiftRight, key]
    by_cases h : i < 64
    · simp [h, hi]
    · simp [h, hi, show i - 64 < 64 by omega, show i - 64 < 128 by omega, show 64 + (i - 64) = i by omega,
        BitVec.getLsbD_of_ge x32 (127 + i) (by omega), BitVec.getLsbD_of_ge x32 (126 + i) (by omega),
        BitVec.getLsbD_of_ge x32 (121 + i) (by omega)]
  have hw : ∀ k, 121 ≤ k → (x32 ^^^ (x32 >>> 127 ^^^ x32 >>> 126 ^^^ x32 >>> 121)) >>> k = x32 >>> k := by
    intro k hk
    apply BitVec.eq_of_getLsbD_eq
    intro i hi
    simp only [BitVec.getLsbD_ushiftRight, BitVec.getLsbD_xor]
    rw [BitVec.getLsbD_of_ge x32 (127 + (k + i)) (by omega), BitVec.getLsbD_of_ge x32 (126 + (k + i)) (by omega),
      BitVec.getLsbD_of_ge x32 (121 + (k + i)) (by omega)]
    simp
  refine ⟨toPoly x32 + toPoly (x32 >>> 127 ^^^ x32 >>> 126 ^^^ x32 >>> 121), ?_⟩
  unfold gf128Reduce
  dsimp only
  rw [hx3d]
  generalize hy : x32 ^^^ (x32 >>> 127 ^^^ x32 >>> 126 ^^^ x32 >>> 121) = y at hw
  have hyp : toPoly y = toPoly x32 + toPoly (x32 >>> 127 ^^^ x32 >>> 126 ^^^ x32 >>> 121) := by
    rw [← hy, toPoly_xor]
  simp only [toPoly_xor, toPoly_shl y _ (show 1 ≤ 128 by omega), toPoly_shl y _ (show 2 ≤ 128 by omega),
    toPoly_shl y _ (show 7 ≤ 128 by omega)]
  rw [hw (128 - 1) (by omega), hw (128 - 2) (by omega), hw (128 - 7) (by omega), hyp]
  simp only [toPoly_xor]
  unfold Spec.modulus
  linear_combination (-X ^ 128 * toPoly x32) * two_poly

/-! ### Multiplication of 128-bit values -/

/-- Product and reduction. -/
def gfMul (a b : BitVec 128) : BitVec 128 :=
  let ef := clmul64 (lane a 0) (lane b 1) ^^^ clmul64 (lane a 1) (lane b 0)
  gf128Reduce (clmul64 (lane a 1) (lane b 1) ^^^ (ef >>> 64)) (clmul64 (lane a 0) (lane b 0) ^^^ (ef <<< 64))

theorem gfMul_poly (a b : BitVec 128) : ∃ w, toPoly (gfMul a b) = toPoly a * toPoly b + Spec.modulus * w := by
  have h := product_poly a b
  dsimp only at h
  unfold gfMul
  dsimp only
  obtain ⟨w, hw⟩ := reduce_poly
    (clmul64 (lane a 1) (lane b 1) ^^^ ((clmul64 (lane a 0) (lane b 1) ^^^ clmul64 (lane a 1) (lane b 0)) >>> 64))
    (clmul64 (lane a 0) (lane b 0) ^^^ ((clmul64 (lane a 0) (lane b 1) ^^^ clmul64 (lane a 1) (lane b 0)) <<< 64))
  exact ⟨w, by rw [hw, h]⟩

theorem modulus_monic : Spec.modulus.Monic := by
  unfold Spec.modulus; monicity!

theorem modulus_natDegree : Spec.modulus.natDegree = 128 := by
  unfold Spec.modulus; compute_degree!

theorem modulus_degree : Spec.modulus.degree = 128 := by
  unfold Spec.modulus; compute_degree!

theorem degree_toPoly (v : BitVec 128) : (toPoly v).degree < Spec.modulus.degree := by
  rw [modulus_degree]
  apply (degree_lt_iff_coeff_zero _ _).mpr
  intro m hm
  rw [coeff_toPoly, BitVec.getLsbD_of_ge v m hm]
  simp

theorem toPoly_eq_mod {v : BitVec 128} {p w : (ZMod 2)[X]} (h : toPoly v = p + Spec.modulus * w) :
    toPoly v = p %ₘ Spec.modulus := by
  have := (div_modByMonic_unique (f := p) (q := -w) (r := toPoly v) modulus_monic
    ⟨by rw [h]; ring, degree_toPoly v⟩).2
  exact this.symm

/-! ### Irreducibility of the modulus (Rabin's test, with certificates checked by the kernel) -/

/-- `n` squarings. -/
def gfSquares : Nat → BitVec 128 → BitVec 128
  | 0, a => a
  | n + 1, a => gfSquares n (gfMul a a)

theorem gfSquares_poly (n : Nat) (a : BitVec 128) :
    Spec.modulus ∣ toPoly a ^ 2 ^ n - toPoly (gfSquares n a) := by
  induction n generalizing a with
  | zero => simp [gfSquares]
  | succ n ih =>
    obtain ⟨w, hw⟩ := gfMul_poly a a
    have h1 := ih (gfMul a a)
    rw [gfSquares]
    have h2 : Spec.modulus ∣ toPoly a ^ 2 ^ (n + 1) - toPoly (gfMul a a) ^ 2 ^ n := by
      have h3 : Spec.modulus ∣ toPoly a ^ 2 - toPoly (gfMul a a) := ⟨-w, by rw [hw]; ring⟩
      rw [Nat.pow_succ', pow_mul]
      exact h3.trans (sub_dvd_pow_sub_pow _ _ _)
    have := dvd_add h2 h1
    simpa using this

theorem squares_64 : gfSquares 64 2 = (0x61651fea6b5832b944e598a795a299f6#128) := by decide +kernel

theorem squares_128 : gfSquares 64 (0x61651fea6b5832b944e598a795a299f6#128) = 2 := by decide +kernel

theorem inverse_64 : gfMul ((0x61651fea6b5832b944e598a795a299f6#128) ^^^ 2) (0x9e4af928ddbc838a41a8cafd2c95b018#128) = 1 := by decide +kernel

/-- The certificates: `r = x^(2^64)`, and `t` is the inverse of `r - x`. -/
theorem certificates : ∃ r t : BitVec 128,
    gfSquares 64 2 = r ∧ gfSquares 64 r = 2 ∧ gfMul (r ^^^ 2) t = 1 :=
  ⟨_, _, squares_64, squares_128, inverse_64⟩

theorem toPoly_two : toPoly (2 : BitVec 128) = X := by
  ext i
  rw [coeff_toPoly, coeff_X]
  by_cases h : i < 128
  · have : (2 : BitVec 128).getLsbD i = decide (1 = i) := by
      have : ∀ i : Fin 128, (2 : BitVec 128).getLsbD i = decide (1 = i.val) := by decide +kernel
      exact this ⟨i, h⟩
    rw [this]; by_cases h1 : 1 = i <;> simp [h1]
  · rw [BitVec.getLsbD_of_ge _ _ (by omega), if_neg (by omega : ¬ 1 = i)]; simp

theorem toPoly_one : toPoly (1 : BitVec 128) = 1 := by
  ext i
  rw [coeff_toPoly, coeff_one]
  rcases i with _ | i
  · simp
  · simp [BitVec.getLsbD_one]

theorem gfSquares_add (m n : Nat) (a : BitVec 128) : gfSquares (m + n) a = gfSquares n (gfSquares m a) := by
  induction m generalizing a with
  | zero => simp [gfSquares]
  | succ m ih => rw [show m + 1 + n = (m + n) + 1 by omega, gfSquares, ih, gfSquares]

theorem modulus_irreducible : Irreducible Spec.modulus := by
  have hnu : ¬ IsUnit Spec.modulus := by
    intro h
    have := natDegree_eq_zero_of_isUnit h
    rw [modulus_natDegree] at this
    omega
  obtain ⟨Q, hQ, c, hc⟩ := WfDvdMonoid.exists_irreducible_factor hnu modulus_monic.ne_zero
  have hdvd : Q ∣ Spec.modulus := Dvd.intro c hc.symm
  obtain ⟨r, t, hr, hr2, hrt⟩ := certificates
  have key : ∀ (n : Nat) (a : BitVec 128), gfSquares n 2 = a → Q ∣ X ^ (Nat.card (ZMod 2)) ^ n - toPoly a := by
    intro n a h
    have := gfSquares_poly n 2
    rw [h, toPoly_two] at this
    rw [show Nat.card (ZMod 2) = 2 by simp]
    exact dvd_trans hdvd this
  -- X^(2^128) = X
  have h128 : Q ∣ X ^ (Nat.card (ZMod 2)) ^ (64 + 64) - X := by
    have := key (64 + 64) 2 (by rw [gfSquares_add, hr, hr2])
    rwa [toPoly_two] at this
  have hd : Q.natDegree ∣ 2 ^ 7 := hQ.natDegree_dvd_of_dvd_X_pow_card_pow_sub_X h128
  have hn64 : ¬ Q.natDegree ∣ 64 := by
    intro h
    have h64 := hQ.natDegree_dvd_iff_dvd_X_pow_card_pow_sub_X.mp h
    have h1 := key 64 _ hr
    have h2 : Q ∣ toPoly (r ^^^ 2) := by
      rw [toPoly_xor, toPoly_two]
      generalize (X ^ Nat.card (ZMod 2) ^ 64 : (ZMod 2)[X]) = z at h64 h1
      have := dvd_sub h64 h1
      have e : (z - X - (z - toPoly r) : (ZMod 2)[X]) = toPoly r + X := by
        linear_combination (-X) * two_poly
      rwa [e] at this
    obtain ⟨w, hw⟩ := gfMul_poly (r ^^^ 2) t
    rw [hrt, toPoly_one] at hw
    have h3 : Q ∣ 1 := by
      rw [hw]
      obtain ⟨d, hd⟩ := h2
      exact Dvd.intro (d * toPoly t + c * w) (by rw [hd, hc]; ring)
    exact hQ.not_isUnit (isUnit_of_dvd_one h3)
  have hdeg : Q.natDegree = 128 := by
    rw [Nat.dvd_prime_pow Nat.prime_two] at hd
    obtain ⟨k, hk, he⟩ := hd
    rcases Nat.lt_or_ge k 7 with h | h
    · exact absurd (by rw [he, show 64 = 2 ^ 6 by decide]; exact Nat.pow_dvd_pow 2 (by omega)) hn64
    · rw [he, show k = 7 by omega]; rfl
  have hc0 : c ≠ 0 := by rintro rfl; exact modulus_monic.ne_zero (by rw [hc, mul_zero])
  have hu : IsUnit c := by
    have := modulus_natDegree
    rw [hc, natDegree_mul hQ.ne_zero hc0, hdeg] at this
    rw [isUnit_iff_degree_eq_zero, degree_eq_natDegree hc0, show c.natDegree = 0 by omega]
    rfl
  have : Associated Q Spec.modulus := ⟨hu.unit, by rw [IsUnit.unit_spec]; exact hc.symm⟩
  exact this.irreducible hQ

/-! ### Bytes -/

attribute [local irreducible] Spec.modulus

theorem getD_ge {l : Bytes} {i : Nat} (h : l.length ≤ i) : l.getD i 0 = 0 := by
  simp [List.getD, List.getElem?_eq_none h]

theorem foldr_bits (bs : Bytes) (n : Nat) (hn : bs.length = n) (h16 : n ≤ 16) (i : Nat) :
    (bs.foldr (fun (b : Byte) (v : BitVec 128) => (v <<< 8) ||| b.setWidth 128) (0 : BitVec 128)).getLsbD i =
      (bs.getD (i / 8) 0).getLsbD (i % 8) := by
  induction bs generalizing n i with
  | nil => simp
  | cons b bs ih =>
    rw [List.foldr_cons, BitVec.getLsbD_or, BitVec.getLsbD_shiftLeft, BitVec.getLsbD_setWidth]
    simp only [List.length_cons] at hn
    by_cases h8 : i < 8
    · have e1 : i / 8 = 0 := by omega
      have e2 : i % 8 = i := by omega
      rw [e1, e2]
      simp [h8, show i < 128 by omega]
    · rw [ih (n - 1) (by omega) (by omega), BitVec.getLsbD_of_ge b i (by omega)]
      have e1 : i / 8 = (i - 8) / 8 + 1 := by omega
      have e2 : i % 8 = (i - 8) % 8 := by omega
      rw [e1, e2, List.getD_cons_succ]
      by_cases h : i < 128
      · simp [h, h8]
      · simp only [h, decide_false, Bool.false_and, Bool.and_false, Bool.or_self]
        rw [getD_ge (by omega)]
        simp

theorem getLsbD_load (bs : Bytes) (h : 16 ≤ bs.length) :
    ∃ v, loadU128 bs = .ok v ∧ ∀ i < 128, v.getLsbD i = (bs.getD (i / 8) 0).getLsbD (i % 8) := by
  refine ⟨_, by unfold loadU128; rw [if_pos h], ?_⟩
  intro i hi
  rw [foldr_bits _ 16 (by simp; omega) (Nat.le_refl _)]
  have : (bs.take 16).getD (i / 8) 0 = bs.getD (i / 8) 0 := by
    simp [List.getD, List.getElem?_take, show i / 8 < 16 by omega]
  rw [this]

theorem coeff_poly (bs : Bytes) (i : Nat) :
    (Spec.poly bs).coeff i = if (bs.getD (i / 8) 0).getLsbD (i % 8) then 1 else 0 := by
  unfold Spec.poly
  rw [coeff_sum_ite _ fun i => (bs.getD (i / 8) 0).getLsbD (i % 8)]
  by_cases h : i < 8 * bs.length
  · simp [h]
  · rw [getD_ge (by omega)]; simp

theorem load_poly (bs : Bytes) (h : bs.length = 16) :
    ∃ v, loadU128 bs = .ok v ∧ toPoly v = Spec.poly bs := by
  obtain ⟨v, h1, h2⟩ := getLsbD_load bs (by omega)
  refine ⟨v, h1, ?_⟩
  ext i
  rw [coeff_toPoly, coeff_poly]
  by_cases hi : i < 128
  · rw [h2 i hi]
  · rw [BitVec.getLsbD_of_ge v i (by omega), getD_ge (by omega)]; simp

theorem storeBytes_length (v : BitVec 128) : (storeBytes v).length = 16 := by simp [storeBytes]

theorem storeBytes_poly (v : BitVec 128) : Spec.poly (storeBytes v) = toPoly v := by
  ext i
  rw [coeff_toPoly, coeff_poly]
  by_cases hi : i < 128
  · have : (storeBytes v).getD (i / 8) 0 = v.extractLsb' (8 * (i / 8)) 8 := by
      simp [storeBytes, List.getD, show i / 8 < 16 by omega]
    rw [this, BitVec.getLsbD_extractLsb', show 8 * (i / 8) + i % 8 = i by omega]
    simp [show i % 8 < 8 by omega]
  · rw [BitVec.getLsbD_of_ge v i (by omega), getD_ge (by rw [storeBytes_length]; omega)]; simp

theorem poly_inj {a b : Bytes} (hl : a.length = b.length) (h : Spec.poly a = Spec.poly b) : a = b := by
  apply List.ext_getElem hl
  intro k h1 h2
  apply BitVec.eq_of_getLsbD_eq
  intro j hj
  have := congrArg (fun p => p.coeff (8 * k + j)) h
  simp only [coeff_poly, show (8 * k + j) / 8 = k by omega, show (8 * k + j) % 8 = j by omega] at this
  rw [show a.getD k 0 = a[k] by simp [h1], show b.getD k 0 = b[k] by simp [h2]] at this
  cases e1 : a[k].getLsbD j <;> cases e2 : b[k].getLsbD j <;> simp_all

theorem poly_xor (a b : Bytes) (hl : a.length = b.length) :
    Spec.poly (List.zipWith (· ^^^ ·) a b) = Spec.poly a + Spec.poly b := by
  ext i
  rw [coeff_add, coeff_poly, coeff_poly, coeff_poly]
  by_cases h : i / 8 < a.length
  · have h' : i / 8 < b.length := by omega
    rw [show (List.zipWith (· ^^^ ·) a b).getD (i / 8) 0 = a[i / 8] ^^^ b[i / 8] by simp [h, h'],
      show a.getD (i / 8) 0 = a[i / 8] by simp [h], show b.getD (i / 8) 0 = b[i / 8] by simp [h'],
      BitVec.getLsbD_xor]
    cases a[i / 8].getLsbD (i % 8) <;> cases b[i / 8].getLsbD (i % 8) <;> simp <;> decide
  · rw [getD_ge (by simp; omega), getD_ge (by omega),
      getD_ge (by omega)]
    simp

theorem poly_zero (n : Nat) : Spec.poly (List.replicate n 0) = 0 := by
  ext i
  rw [coeff_poly]
  by_cases h : i / 8 < n
  · simp [List.getD, h]
  · rw [getD_ge (by simp; omega)]; simp

theorem poly_degree (a : Bytes) (h : a.length = 16) : (Spec.poly a).degree < Spec.modulus.degree := by
  rw [modulus_degree]
  apply (degree_lt_iff_coeff_zero _ _).mpr
  intro m hm
  have hm' : 128 ≤ m := hm
  rw [coeff_poly, getD_ge (by omega)]
  simp

theorem elt_inj {a b : Bytes} (ha : a.length = 16) (hb : b.length = 16) (h : Spec.elt a = Spec.elt b) :
    a = b := by
  apply poly_inj (by omega)
  have : Spec.modulus ∣ Spec.poly a - Spec.poly b := AdjoinRoot.mk_eq_mk.mp h
  have h0 := eq_zero_of_dvd_of_degree_lt this
    (lt_of_le_of_lt (degree_sub_le _ _) (max_lt (poly_degree a ha) (poly_degree b hb)))
  exact sub_eq_zero.mp h0

theorem elt_xor (a b : Bytes) (hl : a.length = b.length) :
    Spec.elt (List.zipWith (· ^^^ ·) a b) = Spec.elt a + Spec.elt b := by
  unfold Spec.elt; rw [poly_xor a b hl, map_add]

theorem elt_zero (n : Nat) : Spec.elt (List.replicate n 0) = 0 := by
  unfold Spec.elt; rw [poly_zero, map_zero]

/-! ### The back ends -/

/-- What every back end does after loading. -/
def mulAccCore (dbg : Bool) (chk : Bool) (acc left right : Bytes) : R Bytes := do
  debugAssertR dbg (!chk || left.length * 8 = 128)
  debugAssertR dbg (!chk || right.length * 8 = 128)
  let a ← loadU128 left
  let b ← loadU128 right
  xorU128 acc (gfMul a b)

theorem mmSet_lanes (v : BitVec 128) : mmSet (lane v 1) (lane v 0) = v := by
  apply BitVec.eq_of_getLsbD_eq
  intro i hi
  unfold mmSet lane
  rw [BitVec.getLsbD_append, BitVec.getLsbD_extractLsb', BitVec.getLsbD_extractLsb']
  by_cases h : i < 64
  · simp [h]
  · simp [h, show i - 64 < 64 by omega, show 64 + (i - 64) = i by omega]

theorem m128i_eq (v : BitVec 128) : m128iToU128 v = v := by
  apply BitVec.eq_of_getLsbD_eq
  intro i hi
  unfold m128iToU128 lane
  rw [BitVec.getLsbD_or, BitVec.getLsbD_shiftLeft, BitVec.getLsbD_setWidth, BitVec.getLsbD_setWidth,
    BitVec.getLsbD_extractLsb', BitVec.getLsbD_extractLsb']
  by_cases h : i < 64
  · simp [h, hi]
  · simp [h, hi, show i - 64 < 64 by omega, show i - 64 < 128 by omega, show 64 + (i - 64) = i by omega]

theorem slliSi128_eq (s : Nat) (hs0 : 0 < s) (hs : s < 64) (v : BitVec 128) : slliSi128 s v = v <<< s := by
  apply BitVec.eq_of_getLsbD_eq
  intro i hi
  unfold slliSi128 mmSlli64 mmSrli64 mmBslli mmSet lane
  simp only [BitVec.getLsbD_or, BitVec.getLsbD_append, BitVec.getLsbD_extractLsb', BitVec.getLsbD_shiftLeft,
    BitVec.getLsbD_ushiftRight]
  by_cases h : i < 64
  · simp only [h, hi, if_true, decide_true, Bool.true_and]
    by_cases h2 : i < s
    · simp [h2]
      intro h3; omega
    · simp [h2, show i - s < 64 by omega, show ¬ 64 - s + i < 64 by omega]
  · simp only [h, hi, if_false, decide_true, Bool.true_and]
    have h1 : i - 64 < 64 := by omega
    by_cases h2 : i - 64 < s
    · simp [h2, h1, show ¬ i < s by omega, show 64 - s + (i - 64) < 64 by omega,
        show 64 + (64 - s + (i - 64)) < 128 by omega, show 64 + (64 - s + (i - 64)) - 64 = i - s by omega]
    · simp [h2, h1, show ¬ i < s by omega, show i - 64 - s < 64 by omega,
        show ¬ 64 - s + (i - 64) < 64 by omega, show 64 + (i - 64 - s) = i - s by omega]

theorem reduceX86_eq (x32 x10 : BitVec 128) : gf128ReduceX86 x32 x10 = gf128Reduce x32 x10 := by
  have h0 : lane x32 0 = x32.setWidth 64 := by
    apply BitVec.eq_of_getLsbD_eq
    intro i hi
    simp [lane, BitVec.getLsbD_extractLsb', hi]
  have h1 : lane x32 1 = (x32 >>> 64).setWidth 64 := by
    apply BitVec.eq_of_getLsbD_eq
    intro i hi
    simp [lane, BitVec.getLsbD_extractLsb', hi]
  have h2 : ∀ a b : BitVec 64, mmSet a b = (a.setWidth 128 <<< 64) ||| b.setWidth 128 := by
    intro a b
    apply BitVec.eq_of_getLsbD_eq
    intro i hi
    unfold mmSet
    rw [BitVec.getLsbD_append, BitVec.getLsbD_or, BitVec.getLsbD_shiftLeft, BitVec.getLsbD_setWidth,
      BitVec.getLsbD_setWidth]
    by_cases h : i < 64
    · simp [h, hi]
    · simp [h, hi, show i - 64 < 128 by omega, BitVec.getLsbD_of_ge b i (by omega)]
  unfold gf128ReduceX86 gf128Reduce
  dsimp only
  rw [h0, h1, h2, slliSi128_eq 1 (by omega) (by omega), slliSi128_eq 2 (by omega) (by omega),
    slliSi128_eq 7 (by omega) (by omega)]

theorem vext1_lower (v : BitVec 128) : vext1 (mmSet 0 0) v = v <<< 64 := by
  apply BitVec.eq_of_getLsbD_eq
  intro i hi
  unfold vext1 mmSet lane
  rw [BitVec.getLsbD_append, BitVec.getLsbD_shiftLeft, BitVec.getLsbD_extractLsb', BitVec.getLsbD_extractLsb']
  by_cases h : i < 64
  · simp [h]
  · simp [h, hi, show i - 64 < 64 by omega]

theorem vext1_upper (v : BitVec 128) : vext1 v (mmSet 0 0) = v >>> 64 := by
  apply BitVec.eq_of_getLsbD_eq
  intro i hi
  unfold vext1 mmSet lane
  rw [BitVec.getLsbD_append, BitVec.getLsbD_ushiftRight, BitVec.getLsbD_extractLsb', BitVec.getLsbD_extractLsb']
  by_cases h : i < 64
  · simp [h]
  · simp [h, BitVec.getLsbD_of_ge v (64 + i) (by omega)]

theorem mulAccGeneric_core (dbg : Bool) (acc left right : Bytes) :
    mulAccGeneric dbg acc left right = mulAccCore dbg true acc left right := by
  unfold mulAccGeneric mulAccCore gfMul
  simp only [clmulGeneric_eq, Bool.not_true, Bool.false_or]

theorem mulAccArm64_core (dbg : Bool) (acc left right : Bytes) :
    mulAccArm64 dbg acc left right = mulAccCore dbg true acc left right := by
  unfold mulAccArm64 mulAccCore gfMul
  simp only [vext1_lower, vext1_upper, Bool.not_true, Bool.false_or]

theorem mulAccX86_core (dbg : Bool) (acc left right : Bytes) :
    mulAccX86 acc left right = mulAccCore dbg false acc left right := by
  unfold mulAccX86 mulAccCore gfMul
  rw [show debugAssertR dbg (!false || decide (left.length * 8 = 128)) = .ok () from debugAssertR_true (by simp), okb,
    show debugAssertR dbg (!false || decide (right.length * 8 = 128)) = .ok () from debugAssertR_true (by simp), okb]
  have c0 : ∀ a b, mmClmul a b 0x00#8 = clmul64 (lane a 0) (lane b 0) := fun _ _ => rfl
  have c1 : ∀ a b, mmClmul a b 0x11#8 = clmul64 (lane a 1) (lane b 1) := fun _ _ => rfl
  have c2 : ∀ a b, mmClmul a b 0x01#8 = clmul64 (lane a 1) (lane b 0) := fun _ _ => rfl
  have c3 : ∀ a b, mmClmul a b 0x10#8 = clmul64 (lane a 0) (lane b 1) := fun _ _ => rfl
  have e : ∀ a b : BitVec 128, clmul64 (lane a 1) (lane b 0) ^^^ clmul64 (lane a 0) (lane b 1) =
      clmul64 (lane a 0) (lane b 1) ^^^ clmul64 (lane a 1) (lane b 0) := fun a b => BitVec.xor_comm _ _
  simp only [m128i_eq, reduceX86_eq, mmBslli, mmBsrli, c0, c1, c2, c3, e]

theorem mulAccApricotX86_eq (acc left right : Bytes) :
    mulAccApricotX86 acc left right = mulAccX86 acc left right := by
  unfold mulAccApricotX86 mulAccX86
  simp only [m128i_eq]

theorem mulAccCore_ok (dbg chk : Bool) (acc left right : Bytes) (h1 : acc.length = 16)
    (h2 : left.length = 16) (h3 : right.length = 16) :
    ∃ out, mulAccCore dbg chk acc left right = .ok out ∧ out.length = 16 ∧
      Spec.poly out = (Spec.poly acc + Spec.poly left * Spec.poly right) %ₘ Spec.modulus := by
  obtain ⟨va, ea, pa⟩ := load_poly acc h1
  obtain ⟨vl, el, pl⟩ := load_poly left h2
  obtain ⟨vr, er, pr⟩ := load_poly right h3
  refine ⟨storeBytes (va ^^^ gfMul vl vr) ++ acc.drop 16, ?_, by simp [storeBytes_length, h1], ?_⟩
  · unfold mulAccCore xorU128
    rw [debugAssertR_true (by simp [h2]), okb, debugAssertR_true (by simp [h3]), okb, el, okb, er, okb, ea, okb]
    rfl
  · rw [List.drop_of_length_le (by omega), List.append_nil, storeBytes_poly]
    obtain ⟨w, hw⟩ := gfMul_poly vl vr
    apply toPoly_eq_mod (w := w)
    rw [toPoly_xor, hw, pa, pl, pr]
    ring

end FP
