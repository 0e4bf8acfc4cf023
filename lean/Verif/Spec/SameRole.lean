import Verif.Spec.Outcome
import Verif.Model.Crypto
/-
What two receivers of the OT extension make of each other's messages.
-/
namespace FP.Spec

/-- The number that a party reads from the first two bytes of a message. -/
def announced (m : WireBytes) : Nat := 256 * (m[0]).toNat + (m[1]).toNat

/-- The payload of a base OT on 128 pairs of seeds of 32 bytes has `8 + 128 * (8 + 32 + 8 + 32) = 10248` bytes.  Half of
these, divided among `n` rows, is what each row is taken to be; it has to fit a row of `a` bytes, and exactly in a build with
assertions. -/
def foreignFits (dbg : Bool) (n a : Nat) : Prop := n ≠ 0 ∧ 5124 / n ≤ a ∧ (dbg = true → a = 5124 / n)

end FP.Spec
