import Verif.Spec.Forge
/-
Other deltas for what the evaluator of a circuit of binary gates gets to see.
-/
namespace FP.Spec

/-- The bit on wire `i` for the input `x`, as a number. -/
def bitOn (c : Circuit) (x : List Nat) (i : Nat) : Nat := (wireValues c.gates x).getD i 0

/-- With the coins `p`, at no AND gate do the labels of its two inputs that stand for the bits of `x` differ by `d`. -/
def HeldApart (c : Circuit) (x : List Nat) (p : Coins) (d : WireBytes) : Prop :=
  ∃ run, garbleRun p.1 p.2 c = .ok run ∧ ∀ g ∈ c.gates, isAnd g = true → ∀ w w',
    LabelIn run (g.inputs.getD 0 0) 2 (bitOn c x (g.inputs.getD 0 0)) w →
    LabelIn run (g.inputs.getD 1 0) 2 (bitOn c x (g.inputs.getD 1 0)) w' → w.values ≠ add32 w'.values d

/-- `q` is what is hashed for an AND gate and the label, with the coins `p`, of the bit that an input of the gate does not
have for the input `x`: a label that the evaluator of `x` does not hold. -/
def OtherLabelHashed (c : Circuit) (x : List Nat) (p : Coins) (q : Bytes) : Prop :=
  ∃ run, garbleRun p.1 p.2 c = .ok run ∧ ∃ t ∈ andGates c.gates, ∃ i ∈ t.1.inputs, ∃ w,
    LabelIn run i 2 (1 - bitOn c x i) w ∧ q = w.values.toList ++ rowBytes t.2

/-- `q` is what is hashed for an output, a value and such a label of it. -/
def OtherOutputHashed (c : Circuit) (x : List Nat) (p : Coins) (q : Bytes) : Prop :=
  ∃ run, garbleRun p.1 p.2 c = .ok run ∧ ∃ o v w, c.numWires - c.numOutputs ≤ o ∧ o < c.numWires ∧
    LabelIn run o 2 (1 - bitOn c x o) w ∧ q = beBytes 8 o ++ beBytes 2 v ++ w.values.toList

/-- One or the other. -/
def OtherHashed (c : Circuit) (x : List Nat) (p : Coins) (q : Bytes) : Prop :=
  OtherLabelHashed c x p q ∨ OtherOutputHashed c x p q

/-- A computation that may ask for hashes. -/
inductive Ask (α : Type) where
  | done (a : α)
  | ask (q : Bytes) (next : WireBytes → Ask α)

/-- Its result with the hash function `sha`. -/
def Ask.result {α : Type} (sha : Bytes → WireBytes) : Ask α → α
  | .done a => a
  | .ask q next => (next (sha q)).result sha

/-- What it asks the hash of when the hash function is `sha`. -/
def Ask.asked {α : Type} (sha : Bytes → WireBytes) : Ask α → List Bytes
  | .done _ => []
  | .ask q next => q :: (next (sha q)).asked sha

end FP.Spec
