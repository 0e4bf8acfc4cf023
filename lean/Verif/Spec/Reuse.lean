import Verif.Spec.Encoded
import Mathlib.Data.ZMod.Basic
import Mathlib.Algebra.Group.Subgroup.Lattice
/-
What follows from the labels of several inputs under one encoding key.
-/
namespace FP.Spec

/-- The labels of the inputs in `S` determine those of `y`: whatever was drawn, if the labels of all inputs in `S` are the
same, so are the labels of `y`. -/
def Determine (E : Env) (c : Circuit) (S : Set (List Nat)) (y : List Nat) : Prop :=
  ∀ r r', (∀ x ∈ S, sentLabels E c x r = sentLabels E c x r') → sentLabels E c y r = sentLabels E c y r'

/-- The differences between values that two inputs in `S` have at the same place, over all places of domain `m`. -/
def differences (c : Circuit) (S : Set (List Nat)) (m : Nat) : Set (ZMod m) :=
  {d | ∃ x ∈ S, ∃ x' ∈ S, ∃ i, c.inputDomains[i]? = some m ∧ d = (x.getD i 0 : ZMod m) - (x'.getD i 0 : ZMod m)}

/-- Labels of the bits `y` from labels of the bits `x` and the difference `d` of the two labels of a wire: the labels of the bits
that differ are changed by `d`. -/
def flipLabels (dbg : Bool) (x y : List Nat) (d : Wire) (X : List Wire) : R (List Wire) :=
  ((x.zip y).zip X).mapM fun (v, w) => if v.1 = v.2 then pure w else Wire.add dbg w d

end FP.Spec
