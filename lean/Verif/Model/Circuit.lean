import Verif.Model.Basic
/-
Model of src/circuit.rs.  `u16` values are natural numbers; where the code can overflow the
operation goes through `addR`/`mulR`.
-/
namespace FP

/-- `enum ProjKind` (src/circuit.rs:50-54). -/
inductive ProjKind where
  | map (m : Nat)
  | less (t : Nat)
  deriving DecidableEq, Repr

/-- `ProjKind::project` (src/circuit.rs:58-64): `x % m` panics for `m = 0`. -/
def ProjKind.project : ProjKind → Nat → R Nat
  | .map m, x => remR x m
  | .less t, x => .ok (if x < t then 1 else 0)

/-- `ProjKind::domain` (src/circuit.rs:67-73). -/
def ProjKind.dom : ProjKind → Nat
  | .map m => m
  | .less _ => 2

/-- `enum GateKind` (src/circuit.rs:27-35). -/
inductive GateKind where
  | add
  | mul (c : Nat)
  | proj (p : ProjKind)
  | and
  deriving DecidableEq, Repr

/-- `struct Gate` (src/circuit.rs:20-25). -/
structure Gate where
  output : Nat
  domain : Nat
  inputs : List Nat
  kind : GateKind
  deriving DecidableEq, Repr

/-- `Gate::output_domain` (src/circuit.rs:38-47). -/
def Gate.outputDomain (g : Gate) : Nat :=
  match g.kind with
  | .add | .mul _ => g.domain
  | .proj p => p.dom
  | .and => 2

/-- `struct Circuit` (src/circuit.rs:9-16). -/
structure Circuit where
  numWires : Nat
  numInputs : Nat
  numOutputs : Nat
  gates : List Gate
  inputDomains : List Nat
  deriving DecidableEq, Repr

/-- `inputs.sum::<u16>()`: overflow panics in debug builds, wraps in release builds (src/circuit.rs:161). -/
def sumU16 (dbg : Bool) (xs : List Nat) : R Nat := xs.foldlM (addR dbg 65536) 0

/-- First element of an iterator, `.next().unwrap()` (src/circuit.rs:162-164). -/
def firstR {α} : List α → R α
  | [] => panicR
  | a :: _ => .ok a

/-- One gate of `Circuit::eval` (src/circuit.rs:159-165).  The iterator over the inputs is
lazy: for `Mul`, `Proj` and `And` only the first input is read. -/
def Gate.evalPlain (dbg : Bool) (g : Gate) (wires : List Nat) : R Nat :=
  match g.kind with
  | .add => do remR (← sumU16 dbg (← g.inputs.mapM (idxR wires))) g.domain
  | .mul m => do mulR dbg 65536 (← idxR wires (← firstR g.inputs)) m
  | .proj p => do p.project (← idxR wires (← firstR g.inputs))
  | .and => do return (← idxR wires (← firstR g.inputs)) &&& 1

/-- `Circuit::eval` (src/circuit.rs:152-169). -/
def Circuit.eval (dbg : Bool) (c : Circuit) (inputs : List Nat) : R (List Nat) := do
  let wires ← (inputs.zipIdx).foldlM (fun w p => setR w p.2 p.1) (List.replicate c.numWires 0)
  c.gates.foldlM (fun w g => do setR w g.output (← g.evalPlain dbg w)) wires

/-- `build_circuit` (src/circuit.rs:220-271).  `bitsize as u16` truncates; both `+ 1` are
`u16` additions. -/
def buildCircuit (dbg : Bool) (bitsize threshold : Nat) : R Circuit := do
  let comparisonDomain ← addR dbg 65536 (bitsize % 65536) 1
  let xors := (List.range bitsize).map fun i =>
    { inputs := [i, i + bitsize], output := i + 2 * bitsize, kind := .add, domain := 2 : Gate }
  let projs := (List.range bitsize).map fun i =>
    { inputs := [i + 2 * bitsize], output := i + 3 * bitsize,
      kind := .proj (.map comparisonDomain), domain := 2 : Gate }
  let sum : Gate :=
    { kind := .add, inputs := List.range' (3 * bitsize) bitsize, output := 4 * bitsize,
      domain := comparisonDomain }
  let cmp : Gate :=
    { kind := .proj (.less (← addR dbg 65536 threshold 1)), inputs := [4 * bitsize],
      output := 4 * bitsize + 1, domain := comparisonDomain }
  return { gates := xors ++ projs ++ [sum, cmp], numInputs := bitsize * 2, numOutputs := 1,
           numWires := 4 * bitsize + 2, inputDomains := List.replicate (bitsize * 2) 2 }

/-- `build_circuit_v2` (src/circuit.rs:274-325). -/
def buildCircuitV2 (dbg : Bool) (bitsize threshold : Nat) : R Circuit := do
  let comparisonDomain ← addR dbg 65536 (bitsize % 65536) 1
  let xors := (List.range bitsize).map fun i =>
    { inputs := [i, i + bitsize, i + 2 * bitsize], output := i + 3 * bitsize, kind := .add,
      domain := 2 : Gate }
  let projs := (List.range bitsize).map fun i =>
    { inputs := [i + 3 * bitsize], output := i + 4 * bitsize,
      kind := .proj (.map comparisonDomain), domain := 2 : Gate }
  let sum : Gate :=
    { kind := .add, inputs := List.range' (4 * bitsize) bitsize, output := 5 * bitsize,
      domain := comparisonDomain }
  let cmp : Gate :=
    { kind := .proj (.less (← addR dbg 65536 threshold 1)), inputs := [5 * bitsize],
      output := 5 * bitsize + 1, domain := comparisonDomain }
  return { gates := xors ++ projs ++ [sum, cmp], numInputs := bitsize * 3, numOutputs := 1,
           numWires := 5 * bitsize + 2, inputDomains := List.replicate (bitsize * 3) 2 }

end FP
