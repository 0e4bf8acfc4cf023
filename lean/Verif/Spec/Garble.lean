import Verif.Model.Garble
import Verif.Spec.Circuit
/-
Specification vocabulary for garbling.
-/
namespace FP.Spec

/-- `w` is, in the run `run` of `garble`, the label standing for value `v` on wire `o`, a wire of
domain `m`. -/
def LabelIn (run : GarbleRun) (o m v : Nat) (w : Wire) : Prop :=
  ∃ z δ, run.state.wires[o]? = some z ∧ Domain.new m = .ok z.domain ∧
    List.lookup m run.delta = some δ ∧ v < m ∧ IsLabelOf m z δ v w

/-- SHA-256 does not map two different labels of one and the same wire of this run to the same
decoding hash.  Only labels that exist in this run are mentioned. -/
def NoCollision (E : Env) (run : GarbleRun) : Prop :=
  ∀ o m v v' w w' k, LabelIn run o m v w → LabelIn run o m v' w' →
    hashOut E o k w = hashOut E o k w' → w = w'

/-- A hash function for examples: the last 32 bytes of its input (padded with zeros). -/
def toyHash (b : Bytes) : WireBytes :=
  Vector.ofFn fun i : Fin 32 => (b.drop (b.length - 32)).getD i 0

/-- An environment for examples. -/
def toyEnv (dbg : Bool) : Env := ⟨dbg, toyHash⟩

/-- An example circuit with every kind of gate, two binary inputs, one mod-5 input and two
outputs. -/
def exCircuit : Circuit :=
  { numWires := 8, numInputs := 3, numOutputs := 2, inputDomains := [2, 2, 5]
    gates :=
      [ ⟨3, 2, [0, 1], .and⟩, ⟨4, 2, [3], .proj (.map 5)⟩, ⟨5, 5, [4], .mul 3⟩,
        ⟨6, 5, [4, 5, 2], .add⟩, ⟨7, 5, [6], .proj (.less 3)⟩ ] }

end FP.Spec
