import Verif.Spec.Bits
import Verif.Spec.GF128
/-
The vocabulary of the correlation check of the OT extension.
-/
namespace FP.Spec

/-- The field element whose coefficient of x^i is `f i`. -/
noncomputable def bitsElt (f : Nat → Bool) : GF :=
  ∑ i ∈ Finset.range 128, if f i then AdjoinRoot.root modulus ^ i else 0

/-- Row `j` of a matrix stored row after row, `width` bytes to a row. -/
def row (m : Bytes) (width j : Nat) : Bytes := (m.drop (width * j)).take width

/-- The check coefficients: the stream of the agreed seed cut in sixteen-byte rows. -/
noncomputable def chi (stream : Bytes) (j : Nat) : GF := elt (row stream 16 j)

/-- Row `j` of the sender's matrix as a field element.  Column `i` is the stream of the seed the sender
got, to which column `i` of the receiver's message `u` is added where the sender's secret bit is set. -/
noncomputable def senderRow (column : Nat → Bytes) (delta u : Bytes) (w j : Nat) : GF :=
  bitsElt fun i => bitAt (column i) j ^^ (bitAt delta i && flatBit u w i j)

/-- The check coefficients of the older extension: byte `k` of coefficient `j` is every fourth byte of the
stream of the agreed seed. -/
noncomputable def coeff (stream : Nat → Byte) (j : Nat) : GF :=
  elt ((List.range 16).map fun k => stream (4 * (16 * j + k)))

/-- `senderRow` with the receiver's message given bit by bit. -/
noncomputable def senderRowOf (column : Nat → Bytes) (delta : Bytes) (u : Nat → Nat → Bool) (j : Nat) : GF :=
  bitsElt fun i => bitAt (column i) j ^^ (bitAt delta i && u i j)

/-- The columns of `u` that a sender with secret `delta` uses are present and at least `w` bytes long. -/
def Usable (delta : Bytes) (u : List Bytes) (w : Nat) : Prop :=
  ∀ i < 128, bitAt delta i = true → i < u.length ∧ w ≤ (u.getD i []).length

end FP.Spec
