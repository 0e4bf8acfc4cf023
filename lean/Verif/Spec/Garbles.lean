import Verif.Spec.Circuit
/-
Circuits that can be garbled.
-/
namespace FP.Spec

/-- Numbers of values a label can have (0 stands for 65536). -/
def Labelled (m : Nat) : Prop := m < 65535

/-- The number of the first output wire, computed with 64 bits. -/
def firstOutput (c : Circuit) : Nat :=
  if c.numOutputs ≤ c.numWires then c.numWires - c.numOutputs else c.numWires + 2 ^ 64 - c.numOutputs

/-- What the `n`-th wire, the output of gate `g`, needs.  Gates read earlier wires only; they have as many inputs as are read;
projections have a range, and an AND needs some domain of two values in the circuit.  If the gate says that it writes an output,
then what it says is at most `n`, unless the output has the domain 0. -/
def GateGarbles (c : Circuit) (n : Nat) (g : Gate) : Prop :=
  (match g.kind with
    | .add => g.inputs ≠ [] ∧ ∀ i ∈ g.inputs, i < n
    | .mul _ => ∃ i, g.inputs[0]? = some i ∧ i < n
    | .proj p => (∃ i, g.inputs[0]? = some i ∧ i < n) ∧ p.dom ≠ 0
    | .and => (∃ i, g.inputs[0]? = some i ∧ i < n) ∧ (∃ i, g.inputs[1]? = some i ∧ i < n) ∧ usesDomain c.gates 2) ∧
  (firstOutput c ≤ g.output → g.outputDomain ≠ 0 → g.output ≤ n)

/-- The circuits that can be garbled. -/
structure Garbles (c : Circuit) : Prop where
  domains : ∀ m, usesDomain c.gates m → Labelled m
  inputDomains : ∀ m ∈ c.inputDomains, Labelled m
  inputs : c.numInputs ≤ c.inputDomains.length
  gates : ∀ k g, c.gates[k]? = some g → GateGarbles c (c.inputDomains.length + k) g

end FP.Spec
