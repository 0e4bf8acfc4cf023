/-
Into how many parts work is divided.
-/
namespace FP.Spec

/-- `run` is given, for every number of parts, the order in which that many parts are worked on.  It divides
its work into `m` parts if the order for `m` parts decides the result, and no other order matters. -/
def DividesInto {α : Type} (run : (Nat → List Nat) → α) (m : Nat) : Prop :=
  (∀ orders orders', orders m = orders' m → run orders = run orders') ∧
  ∃ orders orders', (∀ k, k ≠ m → orders k = orders' k) ∧ run orders ≠ run orders'

/-- The number of parts of a transfer of `rows` rows on a machine with `cores` cores. -/
def parts (cores rows : Nat) : Nat :=
  if rows ≤ cores ∨ cores ∣ rows then min rows cores
  else if (rows / cores) ∣ rows then rows / cores
  else rows / cores + 1

end FP.Spec
