import Verif.Spec.Attack
/-
A party that takes the place of the garbling party of a half of the key exchange and offers labels of its own choice.
-/
namespace FP.Spec

/-- A circuit with `n + n` inputs whose output is the sum of the last `n`. -/
def sumSecond (n : Nat) : Circuit :=
  ⟨n + n + 1, n + n, 1, [⟨n + n, 2, (List.range n).map (n + ·), .add⟩], List.replicate (n + n) 2⟩

/-- A label all of whose bits are zero. -/
def zeroLabel : WireBytes := Vector.replicate 32 0

/-- The bitwise sum of labels. -/
def sumLabels (l : List WireBytes) : WireBytes := l.foldl (fun a b => Vector.zipWith (· ^^^ ·) a b) zeroLabel

/-- The label of each pair that belongs to a bit. -/
def picked (labels : List (WireBytes × WireBytes)) (b : List Bool) : List WireBytes :=
  List.zipWith (fun p c => if c then p.2 else p.1) labels b

/-- A party that takes the place of the garbling party of `HalfKey`: it transfers pairs of labels of its own choice, and sends
a circuit that adds up those that the other party obtained. -/
def sower (ot : List (Bytes × Bytes) → Proc Unit) (labels : List (WireBytes × WireBytes)) : Proc Unit := do
  ot (labels.map fun p => (p.1.toList, p.2.toList))
  sendP (serializeGarbled ⟨sumSecond labels.length, [], []⟩ [] [])
  sendP (Codec.wires.enc (List.replicate labels.length ⟨.binary, zeroLabel⟩))

/-- A label with exactly bit `i` set. -/
def markLabel (i : Nat) : WireBytes := Vector.ofFn fun k => if k.val = i / 8 then 1 <<< (i % 8) else 0

/-- For each of `n` bits the labels with no bit set and with that bit set. -/
def marks (n : Nat) : List (WireBytes × WireBytes) := (List.range n).map fun i => (zeroLabel, markLabel i)

/-- A password of at most 32 bytes, filled up with zeros. -/
def padded (p : Bytes) : WireBytes := Vector.ofFn fun i => p.getD i 0

/-- Labels that differ at the places in `s` only, and there by `label`. -/
def parityLabels (n : Nat) (s : Nat → Bool) (label : WireBytes) : List (WireBytes × WireBytes) :=
  (List.range n).map fun i => (zeroLabel, if s i then label else zeroLabel)

/-- Whether the number of places in `s` at which the password has a one is odd. -/
def oddAt (p : Bytes) (s : Nat → Bool) : Prop :=
  (List.range (8 * p.length)).countP (fun i => s i && bitAt p i) % 2 = 1

instance (p : Bytes) (s : Nat → Bool) : Decidable (oddAt p s) := inferInstanceAs (Decidable (_ = _))

end FP.Spec
