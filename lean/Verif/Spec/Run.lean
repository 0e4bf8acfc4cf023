import Verif.Model.Proc
/-
What it means, for every schedule, that two communicating parties finish.
-/
namespace FP.Spec

variable {α β : Type}

/-- Whatever the scheduler does, both parties return: the left one `a`, the right one `b`, with no
message left over.  No run is longer than some `n`, and a run that cannot be continued has reached
that end. -/
def Completes (p : Proc α) (q : Proc β) (a : α) (b : β) : Prop :=
  ∃ n, ∀ m d, StepsN m (start p q) d →
    m ≤ n ∧ (Stuck d → d.left = .ret a ∧ d.right = .ret b ∧ d.toRight = [] ∧ d.toLeft = [])

/-- Whatever the scheduler does, both parties end with a fault: the left one `e`, the right one
`e'`. -/
def BothFail (p : Proc α) (q : Proc β) (e e' : Fault) : Prop :=
  ∃ n, ∀ m d, StepsN m (start p q) d →
    m ≤ n ∧ (Stuck d → d.left = .fail e ∧ d.right = .fail e')

/-- The results of an oblivious transfer: of each pair the message selected by the choice bit. -/
def chosen (msg : List (Bytes × Bytes)) (choices : List Bool) : List Bytes :=
  List.zipWith (fun m (c : Bool) => if c then m.2 else m.1) msg choices

/-- A sender and a receiver that together are a correct oblivious transfer for lists of `n` pairs
of messages of `len` bytes. -/
def CorrectOT (len n : Nat) (S : List (Bytes × Bytes) → Proc Unit)
    (V : List Bool → Proc (List Bytes)) : Prop :=
  ∀ msg choices, msg.length = n → choices.length = n →
    (∀ m ∈ msg, m.1.length = len ∧ m.2.length = len) →
    Completes (S msg) (V choices) () (chosen msg choices)

end FP.Spec
