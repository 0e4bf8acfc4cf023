import Verif.Spec.HalfGates
/-
What the labels of an input say about the input.
-/
namespace FP.Spec

/-- Random choices as `Wire::new` makes them: what is drawn for an input is a label of its domain. -/
def Drawn (c : Circuit) (r : GarbleRand) : Prop :=
  ∀ i m, c.inputDomains[i]? = some m → ∃ d, Wire.new m (r.input i) = .ok ⟨d, r.input i⟩

/-- The labels that encode the input `x`. -/
def sentLabels (E : Env) (c : Circuit) (x : List Nat) (r : GarbleRand) : R (List Wire) := do
  let (_, e, _) ← garble E r c
  e.encode E.dbg x

/-- Only additions and multiplications by constants. -/
def LinearGates (c : Circuit) : Prop := ∀ g ∈ c.gates, g.kind = .add ∨ ∃ k, g.kind = .mul k

end FP.Spec
