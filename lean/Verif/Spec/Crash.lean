import Verif.Model.Crash
/-
Runs that hang.
-/
namespace FP.Spec

variable {α β : Type}

/-- A party waits forever: someone has not ended, nobody can make a step, and nobody gets an error from a closed
channel either. -/
def Hangs (c : Conf α β) : Prop := ¬ (c.left.ended ∧ c.right.ended) ∧ Stuck c ∧ ¬ Notices c

end FP.Spec
