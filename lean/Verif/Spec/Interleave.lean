import Verif.Model.Basic
/-
Interleavings of the steps of independent rows.
-/
namespace FP.Spec

/-- `order` executes all steps of the rows `0 .. n-1`, row `r` having `steps r` of them, in some interleaving: it names
each row as often as it has steps, and no other. -/
def IsInterleaving (n : Nat) (steps : Nat → Nat) (order : List Nat) : Prop :=
  ∀ r, order.count r = if r < n then steps r else 0

end FP.Spec
