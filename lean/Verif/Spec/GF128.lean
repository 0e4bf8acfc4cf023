import Verif.Model.Basic
import Mathlib.Algebra.Polynomial.Div
import Mathlib.Data.ZMod.Basic
import Mathlib.RingTheory.AdjoinRoot
/-
The field GF(2^128) as the code's data represents it.
-/
namespace FP.Spec
open Polynomial

/-- The modulus x^128 + x^7 + x^2 + x + 1 over GF(2). -/
noncomputable def modulus : (ZMod 2)[X] := X ^ 128 + X ^ 7 + X ^ 2 + X + 1

/-- The polynomial over GF(2) in a byte string: bit `i % 8` of byte `i / 8` is the coefficient of
x^i. -/
noncomputable def poly (bs : Bytes) : (ZMod 2)[X] :=
  ∑ i ∈ Finset.range (8 * bs.length), if (bs.getD (i / 8) 0).getLsbD (i % 8) then X ^ i else 0

/-- Polynomials over GF(2) modulo the modulus; a field because the modulus is irreducible
(`C14_irreducible`). -/
abbrev GF : Type := AdjoinRoot modulus

/-- The element of the field that a byte string represents. -/
noncomputable def elt (bs : Bytes) : GF := AdjoinRoot.mk modulus (poly bs)

end FP.Spec
