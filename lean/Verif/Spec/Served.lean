import Verif.Spec.ManyFpake
import Mathlib.Data.Nat.Log
/-
Which databases a one-of-many server can serve.
-/
namespace FP.Spec

/-- `count` rounded up to a power of two. -/
def roundedUp (count : Nat) : Nat := 2 ^ Nat.clog 2 count

/-- Draws of the sender of a 1-out-of-n transfer that can occur, whether or not they split the rows evenly: the
machine has a core, and the workers run in some order. -/
structure _root_.FP.ManySend.Possible (count : Nat) (o : ManySend) : Prop where
  cores : 0 < o.cores
  order : IsOrder (workers o.cores (roundedUp count)) o.order

/-- The number of passwords is a power of two, and it is at most four or splits evenly over the cores. -/
def Servable (dbg : Bool) (cores count : Nat) : Prop :=
  (∃ k, count = 2 ^ k) ∧ (count ≤ 4 ∨ CleanSplit dbg cores count)

/-- Whatever messages the peer sends, the party does not return a result. -/
def NeverReturns {α : Type} (p : Proc α) : Prop := ∀ inputs a, (p.against inputs).2 ≠ some (.ok a)

end FP.Spec
