import Verif.Spec.Encoded
/-
Labels for other values than the evaluator's own.
-/
namespace FP.Spec

/-- `w` is the label that stands for the value `v` of output number `i`, a wire of domain `m`, when `c` is garbled with
the random choices `r`. -/
def OutputLabel (E : Env) (r : GarbleRand) (c : Circuit) (i m v : Nat) (w : Wire) : Prop :=
  ∃ run, garbleRun E r c = .ok run ∧ LabelIn run (c.numWires - c.numOutputs + i) m v w

end FP.Spec
