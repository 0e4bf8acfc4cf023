import Verif.Spec.Secrecy
/-
What the peer of an evaluating party, or of the holder of an index, sees.
-/
namespace FP.Spec

/-- The curve point `P` is among the messages `inp`. -/
def PointIn (C : Curve) (inp : List Bytes) (P : C.Pt) : Prop :=
  ∃ m ∈ inp, ∃ v : WireBytes, v.toList = m ∧ C.decompress v = some P

/-- None of the hidden seeds is the seed of a mask of the bootstrap transfer, in which the receiver of the
extension is the sender, with the secret scalars `base`, and the points come from the messages `inp`. -/
def BootstrapApart (C : Curve) (sha : Bytes → WireBytes) (base : Nat → Nat) (delta : Bytes) (s0 s1 : Nat → WireBytes)
    (inp : List Bytes) : Prop :=
  ∀ i < 128, ∀ j < 128, ∀ P, PointIn C inp P → ∀ second, hiddenSeed delta s0 s1 i ≠ baseSeed C sha (base j) P second

end FP.Spec
