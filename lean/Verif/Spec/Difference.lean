import Verif.Spec.Encoded
import Verif.Spec.Projections
/-
How much of its inputs a garbled circuit gives away.
-/
namespace FP.Spec

/-- The gates with tables, projections and ANDs, read the same values for the inputs `x` and `x'`. -/
def SameAtTables (c : Circuit) (x x' : List Nat) : Prop :=
  ∀ g ∈ c.gates, isAnd g = true ∨ isProj g = true → ∀ i ∈ g.inputs,
    (wireValues c.gates x').getD i 0 = (wireValues c.gates x).getD i 0

/-- Everything that is sent for the inputs `x` and `x'`, the garbled circuit, the labels and the key for decoding the
result, is the same under a one-to-one correspondence of the random choices, whatever the hash function. -/
def LookTheSame (c : Circuit) (x x' : List Nat) : Prop :=
  ∃ f g : GarbleRand → GarbleRand, (∀ r, Drawn c r → Drawn c (f r) ∧ g (f r) = r) ∧
    (∀ r, Drawn c r → Drawn c (g r) ∧ f (g r) = r) ∧
    ∀ (E : Env) r, Drawn c r → decoderView c x' (E, f r) = decoderView c x (E, r)

end FP.Spec
