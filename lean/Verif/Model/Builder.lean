import Verif.Model.Circuit
/-
The circuit builder and the circuit verifier (src/circuit.rs).
-/
namespace FP

/-- `struct CircuitBuilder` (src/circuit.rs:76-81).  The `HashSet` of unread wires is a list
without duplicates. -/
structure CircuitBuilder where
  gates : List Gate
  nextWire : Nat
  numInputs : Nat
  unread : List Nat
deriving DecidableEq

/-- `CircuitBuilder::new` (src/circuit.rs:84-91). -/
def CircuitBuilder.new (numInputs : Nat) : CircuitBuilder := ⟨[], 0, numInputs, []⟩

/-- `CircuitBuilder::offset` (src/circuit.rs:96-106).  Wire numbers are `usize`, and so are the
sums: a checked build panics when one does not fit. -/
def CircuitBuilder.offset (dbg : Bool) (b : CircuitBuilder) (amount : Nat) : R CircuitBuilder := do
  let gates ← b.gates.mapM fun g => do
    let output ← addR dbg (2 ^ 64) g.output amount
    let inputs ← g.inputs.mapM fun i => addR dbg (2 ^ 64) i amount
    return { g with output := output, inputs := inputs }
  let unread ← b.unread.mapM fun x => addR dbg (2 ^ 64) x amount
  let nextWire ← addR dbg (2 ^ 64) b.nextWire amount
  return { b with gates := gates, unread := unread, nextWire := nextWire }

/-- `CircuitBuilder::add_gate` (src/circuit.rs:111-119). -/
def CircuitBuilder.addGate (b : CircuitBuilder) (g : Gate) : CircuitBuilder :=
  { b with
    nextWire := g.output
    unread := (b.unread.insert g.output).filter (fun i => i ∉ g.inputs)
    gates := b.gates ++ [g] }

/-- The wires mentioned by the gates, `.unique()` (src/circuit.rs:124-130, 197-203). -/
def gateWires (gates : List Gate) : List Nat :=
  (gates.flatMap (·.inputs) ++ gates.map (·.output)).eraseDups

/-- `CircuitBuilder::build` (src/circuit.rs:123-148). -/
def CircuitBuilder.build (b : CircuitBuilder) : Circuit :=
  { numWires := (gateWires b.gates).length
    numOutputs := b.unread.length
    numInputs := b.numInputs
    gates := b.gates
    inputDomains := (b.gates.filter fun g => g.inputs.any (· < b.numInputs)).flatMap
      fun g => g.inputs.map fun _ => g.domain }

/-- `verify_circuit` (src/circuit.rs:195-218). -/
def verifyCircuit (c : Circuit) : R Unit :=
  if (gateWires c.gates).length ≠ c.numWires then errR .circuit
  else if ¬ (c.gates.map (·.output)).Nodup then errR .circuit
  else .ok ()

end FP
