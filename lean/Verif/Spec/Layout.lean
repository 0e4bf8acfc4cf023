import Verif.Model.Garble
/-
The layout of the messages, byte by byte.
-/
namespace FP.Spec

/-- A number in `k` bytes, least significant first. -/
def le (k x : Nat) : Bytes := (List.range k).map fun i => BitVec.ofNat 8 (x / 256 ^ i)

/-- A sequence: its length in eight bytes, then its elements. -/
def layoutSeq {α : Type} (f : α → Bytes) (xs : List α) : Bytes := le 8 xs.length ++ xs.flatMap f

/-- A byte string. -/
def layoutBytes (b : Bytes) : Bytes := le 8 b.length ++ b

/-- A pair of byte strings. -/
def layoutPair (p : Bytes × Bytes) : Bytes := layoutBytes p.1 ++ layoutBytes p.2

/-- A domain: a tag in four bytes and the modulus, if any. -/
def layoutDomain : Domain → Bytes
  | .binary => [0, 0, 0, 0]
  | .u8 m => [1, 0, 0, 0] ++ le 1 m
  | .u16 m => [2, 0, 0, 0] ++ le 2 m
  | .u8max => [3, 0, 0, 0]
  | .u16max => [4, 0, 0, 0]

/-- A label: its domain and its 32 bytes. -/
def layoutWire (w : Wire) : Bytes := layoutDomain w.domain ++ w.values.toList

/-- The kind of a gate: a tag in four bytes and the parameters. -/
def layoutKind : GateKind → Bytes
  | .add => [0, 0, 0, 0]
  | .mul c => [1, 0, 0, 0] ++ le 2 c
  | .proj (.map m) => [2, 0, 0, 0] ++ ([0, 0, 0, 0] ++ le 2 m)
  | .proj (.less t) => [2, 0, 0, 0] ++ ([1, 0, 0, 0] ++ le 2 t)
  | .and => [3, 0, 0, 0]

/-- A gate: output wire, domain, input wires, kind. -/
def layoutGate (g : Gate) : Bytes := le 8 g.output ++ (le 2 g.domain ++ (layoutSeq (le 8) g.inputs ++ layoutKind g.kind))

/-- A circuit: the numbers of wires, inputs and outputs, the gates, the domains of the inputs. -/
def layoutCircuit (c : Circuit) : Bytes :=
  le 8 c.numWires ++ (le 8 c.numInputs ++ (le 8 c.numOutputs ++ (layoutSeq layoutGate c.gates ++
    layoutSeq (le 2) c.inputDomains)))

/-- A garbled circuit: the circuit, the entries of the tables of projection gates, those of AND gates. -/
def layoutGarbled (c : Circuit) (rows : List (Nat × List Wire)) (halves : List (Nat × (Wire × Wire))) : Bytes :=
  layoutCircuit c ++ (layoutSeq (fun p => le 8 p.1 ++ layoutSeq layoutWire p.2) rows ++
    layoutSeq (fun p => le 8 p.1 ++ (layoutWire p.2.1 ++ layoutWire p.2.2)) halves)

/-- The numbers in a domain fit their types. -/
def DomainInRange : Domain → Prop
  | .u8 m => m < 2 ^ 8
  | .u16 m => m < 2 ^ 16
  | _ => True

/-- The numbers in a gate fit their types. -/
def GateInRange (g : Gate) : Prop :=
  g.output < 2 ^ 64 ∧ g.domain < 2 ^ 16 ∧ g.inputs.length < 2 ^ 64 ∧ (∀ i ∈ g.inputs, i < 2 ^ 64) ∧
  match g.kind with
  | .mul c => c < 2 ^ 16
  | .proj (.map m) => m < 2 ^ 16
  | .proj (.less t) => t < 2 ^ 16
  | _ => True

/-- The numbers in a circuit fit their types. -/
def CircuitInRange (c : Circuit) : Prop :=
  c.numWires < 2 ^ 64 ∧ c.numInputs < 2 ^ 64 ∧ c.numOutputs < 2 ^ 64 ∧ c.gates.length < 2 ^ 64 ∧
  (∀ g ∈ c.gates, GateInRange g) ∧ c.inputDomains.length < 2 ^ 64 ∧ ∀ d ∈ c.inputDomains, d < 2 ^ 16

/-- The numbers in the entries of the tables fit their types. -/
def EntriesInRange (rows : List (Nat × List Wire)) (halves : List (Nat × (Wire × Wire))) : Prop :=
  rows.length < 2 ^ 64 ∧
  (∀ p ∈ rows, p.1 < 2 ^ 64 ∧ p.2.length < 2 ^ 64 ∧ ∀ w ∈ p.2, DomainInRange w.domain) ∧
  halves.length < 2 ^ 64 ∧
  ∀ p ∈ halves, p.1 < 2 ^ 64 ∧ DomainInRange p.2.1.domain ∧ DomainInRange p.2.2.domain

/-- The last entry with a key. -/
def lastEntry {V : Type} (l : List (Nat × V)) (k : Nat) : Option V :=
  l.foldl (fun found p => if p.1 = k then some p.2 else found) none

end FP.Spec
