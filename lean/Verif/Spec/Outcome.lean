import Verif.Spec.Extension
import Verif.Spec.Run
/-
How the two parties of a run end, and the sum that decides whether the OT extension accepts an honest receiver.
-/
namespace FP.Spec

variable {α β : Type}

/-- How a party ends: with a result, with an error or a panic, or waiting for a message that never comes. -/
inductive End (α : Type) where
  | returns (a : α)
  | fails (e : Fault)
  | waits

/-- The party has reached that end. -/
def At : End α → Proc α → Prop
  | .returns a, p => p = .ret a
  | .fails e, p => p = .fail e
  | .waits, p => ∃ k, p = .recv k

/-- Whatever the scheduler does, the run stops, with the left party at the end `a` and the right party at the end
`b`. -/
def Outcome (p : Proc α) (q : Proc β) (a : End α) (b : End β) : Prop :=
  ∃ n, ∀ m d, StepsN m (start p q) d → m ≤ n ∧ (Stuck d → At a d.left ∧ At b d.right)

/-- The check coefficients of the last `n % 8` of the 256 random bits that follow the `n` choices, summed over those
that are set. -/
noncomputable def leftOver (stream : Bytes) (n : Nat) (bonus : Nat → Bool) : GF :=
  ∑ k ∈ Finset.range (n % 8), if bonus (256 - n % 8 + k) then chi stream (n + 256 - n % 8 + k) else 0

open Classical in
/-- How a run of the OT extension on `n` pairs of messages of `len` bytes ends, for the sender and for the receiver. -/
noncomputable def extensionEnds (dbg : Bool) (n len : Nat) (accepted : Prop) (result : List Bytes) : End Unit × End (List Bytes) :=
  if dbg = true ∧ n % 8 ≠ 0 then (.fails .panic, .fails .panic)
  else if n = 0 then (.fails .panic, .waits)
  else if ¬ accepted then (.fails (.err .polychromatic), .waits)
  else if len = 0 then (.fails .panic, .waits)
  else if len < 65536 then (.returns (), .returns result)
  else (.returns (), .fails .panic)

end FP.Spec
