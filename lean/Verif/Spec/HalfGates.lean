import Verif.Spec.Tables
/-
What the evaluator of a circuit of binary gates gets to see.
-/
namespace FP.Spec

/-- Only additions, multiplications by constants and ANDs of bits. -/
def BinaryGates (c : Circuit) : Prop := ∀ g ∈ c.gates, g.domain = 2 ∧ ∀ p, g.kind ≠ .proj p

/-- At no AND gate of this run is a label of the first input also a label of the second. -/
def AndsApart (c : Circuit) (run : GarbleRun) : Prop :=
  ∀ g ∈ c.gates, isAnd g = true → ∀ va vb w,
    LabelIn run (g.inputs.getD 0 0) 2 va w → ¬ LabelIn run (g.inputs.getD 1 0) 2 vb w

/-- The hash function (with the kind of build) and the random choices of the garbler. -/
abbrev Coins := Env × GarbleRand

/-- Garbling with these coins succeeds, and the inputs of every AND gate have different labels. -/
def Apart (c : Circuit) (p : Coins) : Prop := ∃ run, garbleRun p.1 p.2 c = .ok run ∧ AndsApart c run

/-- What the evaluator gets of a garbling of `c` with coins `p` for the input `x`: the garbled circuit and one label for
each input. -/
def evaluatorView (c : Circuit) (x : List Nat) (p : Coins) : R (GarbledCircuit × List Wire) := do
  let (gc, e, _) ← garble p.1 p.2 c
  return (gc, ← e.encode p.1.dbg x)

/-- The same with the key for decoding the result. -/
def decoderView (c : Circuit) (x : List Nat) (p : Coins) : R (GarbledCircuit × List Wire × DecodingKey) := do
  let (gc, e, d) ← garble p.1 p.2 c
  return (gc, ← e.encode p.1.dbg x, d)

/-! ### An evaluator that does more than evaluate -/

/-- The sum of the two halves of the AND gate with output wire `o` and a label. -/
def halvesPlus (gc : GarbledCircuit) (o : Nat) (w : WireBytes) : WireBytes :=
  match List.lookup o gc.fHalf with
  | some (tg, te) => add32 (add32 tg.values te.values) w
  | none => zero32

/-- The bit of the second input of the AND gate with output wire `o` and number `k`, as it follows from labels `wa` and
`wb` of its inputs, the garbler's half and `δ`. -/
def secondBit (sha : Bytes → WireBytes) (gc : GarbledCircuit) (o k : Nat) (wa wb δ : WireBytes) : Bool :=
  match List.lookup o gc.fHalf with
  | some (tg, _) => colourBit wb ^^ decide (tg.values ≠ add32 (tweaked sha wa k) (tweaked sha (add32 wa δ) k))
  | none => false

/-- `(a AND a, a AND b)` for inputs `a` and `b`. -/
def leakCircuit : Circuit :=
  { numWires := 4, numInputs := 2, numOutputs := 2, inputDomains := [2, 2]
    gates := [⟨2, 2, [0, 0], .and⟩, ⟨3, 2, [0, 1], .and⟩] }

/-- `a AND b` for inputs `a` and `b`. -/
def andCircuit : Circuit :=
  { numWires := 3, numInputs := 2, numOutputs := 1, inputDomains := [2, 2], gates := [⟨2, 2, [0, 1], .and⟩] }

/-- The delta the garbler makes of 32 random bytes: the last bit is set. -/
def deltaOf (raw : WireBytes) : WireBytes := raw.set 31 (raw[31] ||| 1)

/-- What an evaluator of `leakCircuit` can do with what it gets. -/
def peek (sha : Bytes → WireBytes) (view : GarbledCircuit × List Wire) : Nat :=
  let wa := (view.2.getD 0 Wire.empty).values
  let wb := (view.2.getD 1 Wire.empty).values
  (secondBit sha view.1 3 2 wa wb (halvesPlus view.1 2 wa)).toNat

end FP.Spec
