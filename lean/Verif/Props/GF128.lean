import Verif.Proof.GF128
import Verif.Proof.Witness
/-
C14: multiplication in GF(2^128).  C15: the back ends agree.
-/
namespace FP.Props
open FP Polynomial

attribute [local irreducible] Spec.modulus

private theorem gf_core (arch : Arch) (dbg : Bool) (acc a b : Bytes) :
    ∃ chk, gf128MulAcc arch dbg acc a b = mulAccCore dbg chk acc a b := by
  cases arch
  · exact ⟨false, mulAccX86_core dbg acc a b⟩
  · exact ⟨true, mulAccArm64_core dbg acc a b⟩
  · exact ⟨true, mulAccGeneric_core dbg acc a b⟩

private theorem apricot_core (arm : Bool) (acc a b : Bytes) :
    ∃ chk, apricotMulAcc arm acc a b = mulAccCore false chk acc a b := by
  cases arm
  · exact ⟨false, (mulAccApricotX86_eq acc a b).trans (mulAccX86_core false acc a b)⟩
  · exact ⟨true, mulAccArm64_core false acc a b⟩

/-- C14: on every processor and in every build, multiply-accumulate leaves `acc + a * b` modulo
x^128 + x^7 + x^2 + x + 1 in the accumulator. -/
theorem C14_mul_acc (arch : Arch) (dbg : Bool) (acc a b : Bytes) (hacc : acc.length = 16)
    (ha : a.length = 16) (hb : b.length = 16) :
    ∃ out, gf128MulAcc arch dbg acc a b = .ok out ∧ out.length = 16 ∧
      Spec.poly out = (Spec.poly acc + Spec.poly a * Spec.poly b) %ₘ Spec.modulus := by
  obtain ⟨chk, h⟩ := gf_core arch dbg acc a b
  rw [h]
  exact mulAccCore_ok dbg chk acc a b hacc ha hb

example := C14_mul_acc .x86_64 true (List.replicate 16 7) (List.replicate 16 7) (List.replicate 16 200) (by meets) (by meets) (by meets)

/-- C14 for the copy of the function in apricot.rs. -/
theorem C14_mul_acc_apricot (arm : Bool) (acc a b : Bytes) (hacc : acc.length = 16)
    (ha : a.length = 16) (hb : b.length = 16) :
    ∃ out, apricotMulAcc arm acc a b = .ok out ∧ out.length = 16 ∧
      Spec.poly out = (Spec.poly acc + Spec.poly a * Spec.poly b) %ₘ Spec.modulus := by
  obtain ⟨chk, h⟩ := apricot_core arm acc a b
  rw [h]
  exact mulAccCore_ok false chk acc a b hacc ha hb

example := C14_mul_acc_apricot true (List.replicate 16 7) (List.replicate 16 7) (List.replicate 16 200) (by meets) (by meets) (by meets)

/-- C14: the modulus is irreducible over GF(2). -/
theorem C14_irreducible : Irreducible Spec.modulus := modulus_irreducible

/-- C14: so the arithmetic is that of a field ... -/
theorem C14_field : IsField Spec.GF := by
  have : Fact (Irreducible Spec.modulus) := ⟨modulus_irreducible⟩
  exact (AdjoinRoot.instField (f := Spec.modulus)).toIsField

/-- C14: ... in which sixteen bytes represent each element exactly once ... -/
theorem C14_representation : Set.BijOn Spec.elt {bs | bs.length = 16} Set.univ := by
  refine ⟨fun _ _ => trivial, fun a ha b hb h => elt_inj ha hb h, ?_⟩
  intro x _
  obtain ⟨p, rfl⟩ := AdjoinRoot.mk_surjective x
  obtain ⟨v, hv⟩ : ∃ v : BitVec 128, toPoly v = p %ₘ Spec.modulus := by
    have hdeg : ∀ i, 128 ≤ i → (p %ₘ Spec.modulus).coeff i = 0 := by
      intro i hi
      apply coeff_eq_zero_of_degree_lt
      refine lt_of_lt_of_le (degree_modByMonic_lt p modulus_monic) ?_
      rw [modulus_degree]
      exact_mod_cast hi
    generalize p %ₘ Spec.modulus = q at hdeg
    have hbit : ∀ n, n ≤ 128 → ∃ v : BitVec 128, ∀ i, v.getLsbD i = decide (i < n ∧ q.coeff i = 1) := by
      intro n
      induction n with
      | zero => exact fun _ => ⟨0, by simp⟩
      | succ n ih =>
        intro hn
        obtain ⟨v, hv⟩ := ih (by omega)
        refine ⟨if q.coeff n = 1 then v ||| (BitVec.twoPow 128 n) else v, fun i => ?_⟩
        by_cases hq : q.coeff n = 1
        · rw [if_pos hq, BitVec.getLsbD_or, hv, BitVec.getLsbD_twoPow]
          by_cases hin : n = i
          · subst hin; simp [hq]; omega
          · simp [hin, show i < n + 1 ↔ i < n by omega]
        · rw [if_neg hq, hv]
          by_cases hin : i = n
          · subst hin; simp [hq]
          · simp [show i < n + 1 ↔ i < n by omega]
    obtain ⟨v, hv⟩ := hbit 128 (Nat.le_refl _)
    refine ⟨v, ?_⟩
    ext i
    rw [coeff_toPoly, hv]
    by_cases hi : i < 128
    · have : ∀ z : ZMod 2, (if decide (i < 128 ∧ z = 1) = true then 1 else 0) = z := by
        simp only [hi, true_and]; decide
      exact this _
    · rw [hdeg i (by omega)]; simp [hi]
  refine ⟨storeBytes v, storeBytes_length v, ?_⟩
  unfold Spec.elt
  rw [storeBytes_poly, hv]
  apply AdjoinRoot.mk_eq_mk.mpr
  refine Dvd.intro (-(p /ₘ Spec.modulus)) ?_
  have h : p %ₘ Spec.modulus + Spec.modulus * (p /ₘ Spec.modulus) = p := modByMonic_add_div p Spec.modulus
  linear_combination -h

/-- C14: ... addition is bytewise XOR, and multiply-accumulate computes `acc + a * b` in the
field. -/
theorem C14_mul_acc_field (arch : Arch) (dbg : Bool) (acc a b : Bytes) (hacc : acc.length = 16)
    (ha : a.length = 16) (hb : b.length = 16) :
    ∃ out, gf128MulAcc arch dbg acc a b = .ok out ∧ out.length = 16 ∧
      Spec.elt out = Spec.elt acc + Spec.elt a * Spec.elt b := by
  obtain ⟨out, h1, h2, h3⟩ := C14_mul_acc arch dbg acc a b hacc ha hb
  refine ⟨out, h1, h2, ?_⟩
  unfold Spec.elt
  rw [h3, ← map_mul, ← map_add]
  apply AdjoinRoot.mk_eq_mk.mpr
  refine Dvd.intro (-((Spec.poly acc + Spec.poly a * Spec.poly b) /ₘ Spec.modulus)) ?_
  have h := modByMonic_add_div (Spec.poly acc + Spec.poly a * Spec.poly b) Spec.modulus
  linear_combination -h

example := C14_mul_acc_field .x86_64 true (List.replicate 16 7) (List.replicate 16 7) (List.replicate 16 200) (by meets) (by meets) (by meets)

theorem C14_add_field (a b : Bytes) (h : a.length = b.length) :
    Spec.elt (List.zipWith (· ^^^ ·) a b) = Spec.elt a + Spec.elt b := elt_xor a b h

example := C14_add_field (List.replicate 16 7) (List.replicate 16 200) (by meets)

/-- C15: on sixteen-byte operands all five versions return the same bytes, in every build. -/
theorem C15_backends_agree (arch arch' : Arch) (arm : Bool) (dbg dbg' : Bool) (acc a b : Bytes)
    (ha : a.length = 16) (hb : b.length = 16) :
    gf128MulAcc arch dbg acc a b = gf128MulAcc arch' dbg' acc a b ∧
    gf128MulAcc arch dbg acc a b = apricotMulAcc arm acc a b := by
  have key : ∀ dbg chk, mulAccCore dbg chk acc a b = mulAccCore false false acc a b := by
    intro dbg chk
    unfold mulAccCore
    rw [debugAssertR_true (by simp [ha]), okb, debugAssertR_true (by simp [hb]), okb]
    rfl
  obtain ⟨c1, h1⟩ := gf_core arch dbg acc a b
  obtain ⟨c2, h2⟩ := gf_core arch' dbg' acc a b
  obtain ⟨c3, h3⟩ := apricot_core arm acc a b
  rw [h1, h2, h3, key dbg c1, key dbg' c2, key false c3]
  exact ⟨rfl, rfl⟩

example := C15_backends_agree .x86_64 .x86_64 true true true (List.replicate 16 7) (List.replicate 16 7) (List.replicate 16 200) (by meets) (by meets)

/-- C15 in a release build: the versions agree on operands of every length. -/
theorem C15_backends_agree_release (arch arch' : Arch) (arm : Bool) (acc a b : Bytes) :
    gf128MulAcc arch false acc a b = gf128MulAcc arch' false acc a b ∧
    gf128MulAcc arch false acc a b = apricotMulAcc arm acc a b := by
  have key : ∀ chk, mulAccCore false chk acc a b = mulAccCore false false acc a b := fun _ => rfl
  obtain ⟨c1, h1⟩ := gf_core arch false acc a b
  obtain ⟨c2, h2⟩ := gf_core arch' false acc a b
  obtain ⟨c3, h3⟩ := apricot_core arm acc a b
  rw [h1, h2, h3, key c1, key c2, key c3]
  exact ⟨rfl, rfl⟩

/-- The reduction of x86-64 and the portable one agree on all inputs. -/
theorem C15_reduce_agree (x32 x10 : BitVec 128) : gf128ReduceX86 x32 x10 = gf128Reduce x32 x10 :=
  reduceX86_eq x32 x10

/-- Operands shorter than sixteen bytes are read out of bounds in a release build. -/
theorem C14_short_operand (arch : Arch) (acc a b : Bytes) (h : a.length < 16 ∨ b.length < 16 ∨ acc.length < 16) :
    gf128MulAcc arch false acc a b = .error .ub := by
  obtain ⟨chk, e⟩ := gf_core arch false acc a b
  have hs : ∀ c : Bytes, c.length < 16 → loadU128 c = .error .ub := by
    intro c hc; unfold loadU128; rw [if_neg (by omega)]; rfl
  have hcase : ∀ c : Bytes, loadU128 c = .error .ub ∨ ∃ v, loadU128 c = .ok v := by
    intro c
    by_cases hc : c.length < 16
    · exact .inl (hs c hc)
    · exact .inr ⟨_, by unfold loadU128; rw [if_pos (by omega)]⟩
  rw [e]
  show (loadU128 a >>= fun a => loadU128 b >>= fun b => xorU128 acc (gfMul a b)) = _
  rcases hcase a with h1 | ⟨va, h1⟩
  · rw [h1]; rfl
  · rw [h1, okb]
    rcases hcase b with h2 | ⟨vb, h2⟩
    · rw [h2]; rfl
    · rw [h2, okb]
      have hacc : acc.length < 16 := by
        rcases h with h | h | h
        · rw [hs a h] at h1; cases h1
        · rw [hs b h] at h2; cases h2
        · exact h
      unfold xorU128
      rw [hs acc hacc]; rfl

example := C14_short_operand .x86_64 (List.replicate 16 1) [3, 4] (List.replicate 16 7) (.inl (by decide))

/-! ### Concrete cases -/

/-- `(x + 1) * (x^2 + 1) = x^3 + x^2 + x + 1`, and `x^127 * x = x^7 + x^2 + x + 1`. -/
example : gf128MulAcc .x86_64 true (List.replicate 16 0) (3 :: List.replicate 15 0) (5 :: List.replicate 15 0) =
      .ok (15 :: List.replicate 15 0) ∧
    gf128MulAcc .other true (List.replicate 16 0) (List.replicate 15 0 ++ [0x80]) (2 :: List.replicate 15 0) =
      .ok (0x87 :: List.replicate 15 0) := by
  decide +kernel

end FP.Props
