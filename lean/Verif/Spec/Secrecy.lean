import Verif.Spec.Extension
import Verif.Model.OT
/-
What the two parties of an OT extension see of each other, written without reference to their code.
-/
namespace FP.Spec

/-- The seed of column `i` that a sender with secret `delta` received in the bootstrap. -/
def openedSeed (delta : Bytes) (s0 s1 : Nat → WireBytes) (i : Nat) : WireBytes :=
  if bitAt delta i then s1 i else s0 i

/-- The other seed of column `i`, which that sender did not receive. -/
def hiddenSeed (delta : Bytes) (s0 s1 : Nat → WireBytes) (i : Nat) : WireBytes :=
  if bitAt delta i then s0 i else s1 i

/-- The hidden seeds are different from each other and from every seed the sender knows: the opened ones
and the agreed one. -/
structure HiddenApart (delta : Bytes) (s0 s1 : Nat → WireBytes) (seed : WireBytes) : Prop where
  agreed : ∀ i < 128, hiddenSeed delta s0 s1 i ≠ seed
  opened : ∀ i < 128, ∀ j < 128, hiddenSeed delta s0 s1 i ≠ openedSeed delta s0 s1 j
  apart : ∀ i < 128, ∀ j < 128, hiddenSeed delta s0 s1 i = hiddenSeed delta s0 s1 j → i = j

/-- The sum of the coefficients that a set of rows selects. -/
noncomputable def selected (c : Nat → GF) (rows : Finset Nat) (x : Nat → Bool) : GF :=
  ∑ j ∈ rows, if x j then c j else 0

/-- The choices `x` and `x'` differ, on the first `n` rows, by something the remaining rows up to `l` can
make up for. -/
def Compensated (c : Nat → GF) (n l : Nat) (x x' : Nat → Bool) : Prop :=
  ∃ e : Nat → Bool, selected c (Finset.range n) (fun j => x j ^^ x' j) = selected c (Finset.Ico n l) e

/-- Every field element is the sum of some coefficients of the rows from `n` to `l`. -/
def Spanning (c : Nat → GF) (n l : Nat) : Prop :=
  ∀ g : GF, ∃ e : Nat → Bool, g = selected c (Finset.Ico n l) e

/-- Two stream generators that differ at most on the hidden seeds. -/
def SameKnown (delta : Bytes) (s0 s1 : Nat → WireBytes) (f f' : WireBytes → Nat → Byte) : Prop :=
  ∀ s, (∀ i < 128, s ≠ hiddenSeed delta s0 s1 i) → f' s = f s

/-- The seed of a coin flip: the two contributions added modulo two. -/
def agreed (coin : WireBytes) (theirs : Bytes) : WireBytes :=
  Vector.ofFn fun k => coin[k] ^^^ theirs.getD k 0

/-- Element `i` of a vector of seeds. -/
def seedAt (v : Vector WireBytes 128) (i : Nat) : WireBytes := v.toList.getD i (Vector.replicate 32 0)

/-! ### The sender's messages -/

/-- `t j`, sixteen bytes, is row `j` of the matrix with the given columns. -/
def RowsOf (t : Nat → Bytes) (column : Nat → Bytes) (l : Nat) : Prop :=
  ∀ j < l, (t j).length = 16 ∧ ∀ i < 128, bitAt (t j) i = bitAt (column i) j

/-- The sum modulo two of two byte strings of the same length. -/
def bytesXor (a b : Bytes) : Bytes := List.zipWith (· ^^^ ·) a b

/-- A row number as eight bytes, most significant first. -/
def rowBytes (j : Nat) : Bytes := (List.range 8).map fun k => BitVec.ofNat 8 (j / 2 ^ (8 * (7 - k)))

/-- A row number as eight bytes, least significant first. -/
def rowBytesLE (j : Nat) : Bytes := (List.range 8).map fun k => BitVec.ofNat 8 (j / 2 ^ (8 * k))

/-- The pair of messages `m'` may replace `m` for a receiver that gets the second message of a pair if `c`
and the first one otherwise: the lengths and the message it gets are the same. -/
def SameChosen (c : Bool) (m m' : Bytes × Bytes) : Prop :=
  m'.1.length = m.1.length ∧ m'.2.length = m.2.length ∧ if c then m'.2 = m.2 else m'.1 = m.1

/-- Two lists of pairs that look the same to a receiver with choices `c`. -/
def SameChosenAll (c : Nat → Bool) (msg msg' : List (Bytes × Bytes)) : Prop :=
  msg'.length = msg.length ∧ ∀ j < msg.length, SameChosen (c j) (msg.getD j ([], [])) (msg'.getD j ([], []))

/-- The seed of the mask of row `j` for a key of sixteen bytes, in the newer extension. -/
def padSeed (sha : Bytes → WireBytes) (j : Nat) (key : Bytes) : WireBytes := sha (rowBytes j ++ key)

/-- The seed of the mask of row `j` for a key of sixteen bytes, in the older extension. -/
def padSeedLE (sha : Bytes → WireBytes) (j : Nat) (key : Bytes) : WireBytes := sha (rowBytesLE j ++ key)

/-- The hidden ones of a list of masks are made from seeds that are different from each other, from the
seeds `known` of the masks that are not hidden, and from the seeds in use elsewhere. -/
structure PadsApart (hidden known : Nat → WireBytes) (used : WireBytes → Prop) (n : Nat) : Prop where
  apart : ∀ j < n, ∀ k < n, hidden j = hidden k → j = k
  known : ∀ j < n, ∀ k < n, hidden j ≠ known k
  used : ∀ j < n, ¬ used (hidden j)

/-- Two stream generators that differ at most on the hidden masks. -/
def SameBut (hidden : Nat → WireBytes) (n : Nat) (f f' : WireBytes → Nat → Byte) : Prop :=
  ∀ s, (∀ j < n, s ≠ hidden j) → f' s = f s

/-- `t j`, sixteen bytes, is the key of the message of pair `j` that `c j` selects, for a sender with secret
`delta` and the given columns that got a matrix with bit `u i j` in column `i` and row `j`. -/
def KeysOf (t : Nat → Bytes) (delta : Bytes) (column : Nat → Bytes) (u : Nat → Nat → Bool) (c : Nat → Bool) (l : Nat) :
    Prop :=
  ∀ j < l, (t j).length = 16 ∧
    ∀ i < 128, bitAt (t j) i = (bitAt (column i) j ^^ (bitAt delta i && (u i j ^^ c j)))

/-- The sixteen bytes whose only set bit is number `j`. -/
def unitRow (j : Nat) : Bytes := (List.range 16).map fun k => if k = j / 8 then BitVec.ofNat 8 (2 ^ (j % 8)) else 0

/-- The seed of the mask of one message of the base transfer, for a sender with secret scalar `a` that got the
point `B`: the hash of `a (B - a G)` for the second message and of `a B` for the first. -/
def baseSeed (C : Curve) (sha : Bytes → WireBytes) (a : Nat) (B : C.Pt) (second : Bool) : WireBytes :=
  sha (C.compress (if second then a • (B - a • C.base) else a • B)).toList

end FP.Spec
