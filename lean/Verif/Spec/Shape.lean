import Verif.Spec.Memory
/-
Circuits that address existing wires only.
-/
namespace FP.Spec

/-- A gate that the plain evaluator can compute in a circuit with `n` wires: it writes an existing wire, an addition reads
existing wires only and has a modulus, any other gate has a first input among the wires, and a projection has a range. -/
def Computable (n : Nat) (g : Gate) : Prop :=
  g.output < n ∧ match g.kind with
    | .add => (∀ i ∈ g.inputs, i < n) ∧ g.domain ≠ 0
    | .mul _ | .and => ∃ i, g.inputs[0]? = some i ∧ i < n
    | .proj p => (∃ i, g.inputs[0]? = some i ∧ i < n) ∧ p.dom ≠ 0

/-- A circuit whose inputs, outputs and gates refer to existing wires. -/
structure Addressed (c : Circuit) : Prop where
  inputs : c.numInputs ≤ c.numWires
  outputs : c.numOutputs ≤ c.numWires
  writes : ∀ g ∈ c.gates, g.output < c.numWires
  reads : ∀ g ∈ c.gates, ∀ i ∈ gateReads g, i < c.numWires

end FP.Spec
