import Verif.Spec.Label
import Mathlib.Algebra.BigOperators.Group.Finset.Basic
import Mathlib.SetTheory.Cardinal.Finite
/-
How labels made from a digest are distributed.
-/
namespace FP.Spec

/-- The number of components of a label. -/
def components : Domain → Nat
  | .binary => 256
  | .u8 _ | .u8max => 32
  | .u16 _ | .u16max => 16

/-- The number of values a component can hold: a bit, a byte or a 16-bit word. -/
def radix : Domain → Nat
  | .binary => 2
  | .u8 _ | .u8max => 256
  | .u16 _ | .u16max => 65536

/-- The number of digests that make the hash of a wire the label `w`, if `f digest` is the hash. -/
noncomputable def origins (f : WireBytes → R Wire) (w : Wire) : Nat := Nat.card {digest : WireBytes // f digest = .ok w}

/-- Every label of domain `m` comes from the same number of digests. -/
def Uniform (m : Nat) (f : WireBytes → R Wire) : Prop :=
  ∀ w w', IsLabel m w → IsLabel m w' → origins f w = origins f w'

end FP.Spec
