import Verif.Spec.Builder
import Verif.Spec.Circuit
/-
Vocabulary for circuits made with the builder.
-/
namespace FP.Spec

/-- The wires read by the gates that read some input, gate by gate. -/
def inputReads (n : Nat) (gates : List Gate) : List Nat :=
  (gates.filter fun g => g.inputs.any (· < n)).flatMap (·.inputs)

/-- Every wire that nobody reads comes after every wire that is read. -/
def UnreadLast (wires : Nat) (gates : List Gate) : Prop :=
  ∀ w ∈ unreadWires gates, ∀ v, w < v → v < wires → v ∈ unreadWires gates

/-- A half adder: the sum and the carry of two bits. -/
def halfAdder : List BuilderCall := [.addGate ⟨2, 2, [0, 1], .add⟩, .addGate ⟨3, 2, [0, 1], .and⟩]

/-- Four inputs; the sum of the first two (wire 4), the sum of the others (wire 5), and a copy of the latter (wire 6). -/
def twoSums : List BuilderCall :=
  [.addGate ⟨4, 2, [0, 1], .add⟩, .addGate ⟨5, 2, [2, 3], .add⟩, .addGate ⟨6, 2, [5], .mul 1⟩]

end FP.Spec
