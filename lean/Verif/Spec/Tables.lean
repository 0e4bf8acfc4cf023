import Verif.Spec.Secrecy
import Verif.Spec.Garble
/-
What the tables of AND gates hold, written without reference to the code of `garble`.
-/
namespace FP.Spec

/-- The sum modulo two of two strings of 32 bytes. -/
def add32 (a b : WireBytes) : WireBytes := Vector.ofFn fun i => a[i] ^^^ b[i]

/-- 32 zero bytes. -/
def zero32 : WireBytes := Vector.replicate 32 0

/-- `a` if `p`, else zero. -/
def when32 (p : Bool) (a : WireBytes) : WireBytes := if p then a else zero32

/-- The colour of a binary label: the lowest bit of its last byte. -/
def colourBit (a : WireBytes) : Bool := a[31].getLsbD 0

/-- The hash of a label with a tweak: of the 32 bytes of the label followed by the tweak as eight bytes, most
significant first. -/
def tweaked (sha : Bytes → WireBytes) (label : WireBytes) (tweak : Nat) : WireBytes :=
  sha (label.toList ++ rowBytes tweak)

/-- The garbler's half of an AND gate on wires with zero labels `A` and `B`: `H(A) ⊕ H(A ⊕ δ)`, and `δ` if the
colour of `B` is one. -/
def garblerHalf (sha : Bytes → WireBytes) (δ A B : WireBytes) (k : Nat) : WireBytes :=
  add32 (add32 (tweaked sha A k) (tweaked sha (add32 A δ) k)) (when32 (colourBit B) δ)

/-- The evaluator's half: `H(B) ⊕ H(B ⊕ δ) ⊕ A`. -/
def evaluatorHalf (sha : Bytes → WireBytes) (δ A B : WireBytes) (k : Nat) : WireBytes :=
  add32 (add32 (tweaked sha B k) (tweaked sha (add32 B δ) k)) A

/-- The zero label of the output of an AND gate. -/
def andLabel (sha : Bytes → WireBytes) (δ A B : WireBytes) (k : Nat) : WireBytes :=
  add32 (add32 (tweaked sha A k) (when32 (colourBit A) (garblerHalf sha δ A B k)))
    (add32 (tweaked sha B k) (when32 (colourBit B) (add32 (evaluatorHalf sha δ A B k) A)))

/-- Whether a gate is an AND gate. -/
def isAnd (g : Gate) : Bool := match g.kind with | .and => true | _ => false

/-- The AND gates of a list in order, numbered from one. -/
def andGates (gates : List Gate) : List (Gate × Nat) := (gates.filter isAnd).zipIdx 1

/-- The zero label of wire `i`. -/
def zeroAt (wires : List Wire) (i : Nat) : WireBytes := (wires.getD i Wire.empty).values

/-- The zero labels of the inputs of an AND gate. -/
def inputZeros (wires : List Wire) (g : Gate) : WireBytes × WireBytes :=
  (zeroAt wires (g.inputs.getD 0 0), zeroAt wires (g.inputs.getD 1 0))

/-- The entry for the AND gate `p.1` with number `p.2`: its output wire and the two halves. -/
def andEntry (sha : Bytes → WireBytes) (δ : WireBytes) (wires : List Wire) (p : Gate × Nat) : Nat × (Wire × Wire) :=
  let z := inputZeros wires p.1
  (p.1.output, (⟨.binary, garblerHalf sha δ z.1 z.2 p.2⟩, ⟨.binary, evaluatorHalf sha δ z.1 z.2 p.2⟩))

end FP.Spec
