import Verif.Spec.Tables
/-
The byte strings that garbling hashes, by purpose.
-/
namespace FP.Spec

/-- Two bytes, most significant first. -/
def pairBytes (x : Nat) : Bytes := [BitVec.ofNat 8 (x / 256), BitVec.ofNat 8 x]

/-- What is hashed for the label `w` at the AND gate with number `k`. -/
def andBytes (k : Nat) (w : WireBytes) : Bytes := w.toList ++ rowBytes k

/-- What is hashed for the label `w` at the projection gate with output wire `o`. -/
def projBytes (o : Nat) (w : WireBytes) : Bytes := rowBytes o ++ w.toList

/-- What is hashed for the label `w` of the output wire `o` in order to decode the value `x`. -/
def decodeBytes (o x : Nat) (w : WireBytes) : Bytes := rowBytes o ++ pairBytes x ++ w.toList

/-- Whether a gate is a projection gate. -/
def isProjection (g : Gate) : Prop := ∃ p, g.kind = .proj p

/-- Two hash functions agree on what the AND gates and projection gates of a circuit hash. -/
def SameForGates (c : Circuit) (sha sha' : Bytes → WireBytes) : Prop :=
  (∀ p ∈ andGates c.gates, ∀ w, sha' (andBytes p.2 w) = sha (andBytes p.2 w)) ∧
  ∀ g ∈ c.gates, isProjection g → ∀ w, sha' (projBytes g.output w) = sha (projBytes g.output w)

/-- Two hash functions agree on what is hashed to decode the outputs of a circuit. -/
def SameForOutputs (c : Circuit) (sha sha' : Bytes → WireBytes) : Prop :=
  ∀ g ∈ c.gates, c.numWires ≤ g.output + c.numOutputs → ∀ x < g.outputDomain, ∀ w,
    sha' (decodeBytes g.output x w) = sha (decodeBytes g.output x w)

end FP.Spec
