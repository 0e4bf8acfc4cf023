import Verif.Model.Wire
/-
Specification vocabulary for wire labels: a label is a vector of digits modulo its domain.
A binary label is a vector of 256 bits, an 8-bit label a vector of 32 bytes, a 16-bit label a
vector of 16 little-endian 16-bit words.
-/
namespace FP.Spec

/-- The `i`-th component of a label (0 beyond the end). -/
def digit (w : Wire) (i : Nat) : Nat :=
  match w.domain with
  | .binary => ((w.values[i / 8]?.getD 0).getLsbD (i % 8)).toNat
  | .u8 _ | .u8max => (w.values[i]?.getD 0).toNat
  | .u16 _ | .u16max =>
      (w.values[2 * i]?.getD 0).toNat + 256 * (w.values[2 * i + 1]?.getD 0).toNat

/-- Position of the component that carries the colour: bit 0 of the last byte, the last byte,
or the last 16-bit word. -/
def colorPos (d : Domain) : Nat :=
  match d with
  | .binary => 248
  | .u8 _ | .u8max => 31
  | .u16 _ | .u16max => 15

/-- `w` is a label of domain `m`: its constructor is the one `Wire::new(m)` picks and all its
components are below `m`. -/
structure IsLabel (m : Nat) (w : Wire) : Prop where
  dom : Domain.new m = .ok w.domain
  lt : ∀ i, digit w i < m

/-- The domains in which the intermediate results of label arithmetic fit their machine
integers: 1..128 (8-bit digits), 255..32768 (16-bit digits, 256 having its own case).
The code accepts all of 1..65534. -/
def GoodDomain (m : Nat) : Prop := (1 ≤ m ∧ m ≤ 128) ∨ (255 ≤ m ∧ m ≤ 32768)

instance (m : Nat) : Decidable (GoodDomain m) := inferInstanceAs (Decidable (_ ∨ _))

end FP.Spec
