import Verif.Model.Builder
import Mathlib.Data.Set.Card
/-
Vocabulary for builder histories.
-/
namespace FP.Spec

/-- One call on a `CircuitBuilder`. -/
inductive BuilderCall where
  | addGate (g : Gate)
  | offset (amount : Nat)

/-- The builder after a history of calls on `CircuitBuilder::new(n)`. -/
def builderAfter (dbg : Bool) (n : Nat) (h : List BuilderCall) : R CircuitBuilder :=
  h.foldlM (fun b c => match c with
    | .addGate g => .ok (b.addGate g)
    | .offset a => b.offset dbg a) (CircuitBuilder.new n)

/-- The wires a list of gates mentions. -/
def mentioned (gates : List Gate) : Set Nat :=
  {w | ∃ g ∈ gates, w ∈ g.inputs ∨ w = g.output}

/-- The wires that some gate writes and that neither it nor a later gate reads. -/
def unreadWires (gates : List Gate) : Set Nat :=
  {w | ∃ (i : Nat) (g : Gate), gates[i]? = some g ∧ g.output = w ∧
    ∀ (j : Nat) (g' : Gate), i ≤ j → gates[j]? = some g' → w ∉ g'.inputs}

/-- A gate with its wires renamed. -/
def rewire (f : Nat → Nat) (g : Gate) : Gate := ⟨f g.output, g.domain, g.inputs.map f, g.kind⟩

/-- The sum of the offsets in a history. -/
def offsetsIn : List BuilderCall → Nat
  | [] => 0
  | .addGate _ :: h => offsetsIn h
  | .offset a :: h => a + offsetsIn h

/-- The gates a history describes: those added, in order, each moved by all the offsets that
come after it. -/
def described : List BuilderCall → List Gate
  | [] => []
  | .addGate g :: h => rewire (· + offsetsIn h) g :: described h
  | .offset _ :: h => described h

/-- The sum of the offsets before the first gate. -/
def leadingOffsets : List BuilderCall → Nat
  | .offset a :: h => a + leadingOffsets h
  | _ => 0

/-- The numbers in a call are machine words. -/
def BuilderCall.InRange : BuilderCall → Prop
  | .addGate g => g.output < 2 ^ 64 ∧ ∀ i ∈ g.inputs, i < 2 ^ 64
  | .offset a => a < 2 ^ 64

instance (c : BuilderCall) : Decidable c.InRange := by
  cases c <;> unfold BuilderCall.InRange <;> infer_instance

end FP.Spec
