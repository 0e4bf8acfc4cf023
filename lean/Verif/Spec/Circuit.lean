import Verif.Model.Circuit
import Verif.Spec.Label
import Mathlib.Data.List.Forall2
/-
Specification of circuits: what a gate means, which circuits are well typed, what a circuit
computes.  Independent of the plain evaluator and of garbling.
-/
namespace FP.Spec

/-- Positive domains that fit 16 bits. -/
def SmallPos (d : Nat) : Prop := 0 < d ∧ d < 65536

instance (d : Nat) : Decidable (SmallPos d) := inferInstanceAs (Decidable (_ ∧ _))

/-- The value of a gate as a function of the values on its input wires. -/
def gateValue (g : Gate) (vs : List Nat) : Nat :=
  match g.kind with
  | .add => vs.sum % g.domain
  | .mul c => (c * vs.headD 0) % g.domain
  | .proj (.map m) => vs.headD 0 % m
  | .proj (.less t) => if vs.headD 0 < t then 1 else 0
  | .and => vs.getD 0 0 * vs.getD 1 0

/-- Values of all wires: the inputs followed by the value of each gate in order. -/
def wireValues (gates : List Gate) (inputs : List Nat) : List Nat :=
  gates.foldl (fun vals g => vals ++ [gateValue g (g.inputs.map (vals.getD · 0))]) inputs

/-- What a circuit computes: the values of its last `numOutputs` wires. -/
def meaning (c : Circuit) (inputs : List Nat) : List Nat :=
  (wireValues c.gates inputs).drop (c.numWires - c.numOutputs)

/-- A gate fits after wires with domains `doms`: it writes the next wire, reads existing wires
of its own domain, has the right number of inputs, and its domains satisfy `good`. -/
structure GateFits (good : Nat → Prop) (doms : List Nat) (g : Gate) : Prop where
  output : g.output = doms.length
  inputs : ∀ i ∈ g.inputs, doms[i]? = some g.domain
  domain : good g.domain
  range : good g.outputDomain
  arity : match g.kind with
    | .add => g.inputs ≠ []
    | .mul c => g.inputs.length = 1 ∧ c < g.domain
    | .proj _ => g.inputs.length = 1
    | .and => g.inputs.length = 2 ∧ g.domain = 2

/-- A gate list fits after wires with domains `doms`. -/
def GatesFit (good : Nat → Prop) : List Nat → List Gate → Prop
  | _, [] => True
  | doms, g :: gs => GateFits good doms g ∧ GatesFit good (doms ++ [g.outputDomain]) gs

/-- With all domains among those label arithmetic supports. -/
abbrev GateOK := GateFits GoodDomain
/-- With all domains among those label arithmetic supports. -/
abbrev GatesOK := GatesFit GoodDomain

/-- The domains for which garbling draws a delta: gate domains and projection targets. -/
def usesDomain (gates : List Gate) (d : Nat) : Prop :=
  ∃ g ∈ gates, g.domain = d ∨ ∃ p, g.kind = .proj p ∧ p.dom = d

/-- Well-formed circuits: the wires are the inputs followed by one wire per gate in gate order,
gates read earlier wires of the right domain, the outputs are the last wires and are gate
outputs, and all domains are `good`.  Every input domain is the domain of some gate (garbling
draws deltas only for those). -/
structure WellFormed (good : Nat → Prop) (c : Circuit) : Prop where
  inputs : c.inputDomains.length = c.numInputs
  inputGood : ∀ d ∈ c.inputDomains, good d ∧ usesDomain c.gates d
  gates : GatesFit good c.inputDomains c.gates
  wires : c.numWires = c.numInputs + c.gates.length
  outputs : c.numOutputs ≤ c.gates.length

/-- Circuits that garbling supports. -/
abbrev WellTyped := WellFormed GoodDomain

/-- The gates on which the plain evaluator agrees with the meaning of the gate, given the values
`W` of all wires: additions whose plain sum fits 16 bits, multiplications that need no reduction,
projections, and ANDs whose first input is not larger than the second. -/
def PlainSafe (W : List Nat) (g : Gate) : Prop :=
  match g.kind with
  | .add => (g.inputs.map (W.getD · 0)).sum < 65536
  | .mul c => c * (g.inputs.map (W.getD · 0)).headD 0 < g.domain
  | .proj _ => True
  | .and => (g.inputs.map (W.getD · 0)).getD 0 0 ≤ (g.inputs.map (W.getD · 0)).getD 1 0

/-- The gates on which the plain evaluator is right, exactly: as `PlainSafe`, and in a build without overflow
checks also the sums and products beyond 16 bits whose reduction modulo 2^16 happens not to matter. -/
def PlainRight (dbg : Bool) (W : List Nat) (g : Gate) : Prop :=
  let vs := g.inputs.map (W.getD · 0)
  match g.kind with
  | .add => vs.sum < 65536 ∨ dbg = false ∧ vs.sum % 65536 % g.domain = vs.sum % g.domain
  | .mul c => c * vs.headD 0 < g.domain ∨ dbg = false ∧ c * vs.headD 0 % 65536 = c * vs.headD 0 % g.domain
  | .proj _ => True
  | .and => vs.getD 0 0 ≤ vs.getD 1 0

/-- An input vector for a circuit: one value below the domain of each input. -/
def InputOK (c : Circuit) (x : List Nat) : Prop := List.Forall₂ (· < ·) x c.inputDomains

/-- `w` is the label for value `v` of a wire with zero label `z` and delta `δ`, domain `m`. -/
structure IsLabelOf (m : Nat) (z δ : Wire) (v : Nat) (w : Wire) : Prop where
  label : IsLabel m w
  eq : ∀ i, digit w i = (digit z i + v * digit δ i) % m

end FP.Spec
