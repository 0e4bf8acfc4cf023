import Verif.Model.Basic
/-
Bit strings and bit matrices stored in bytes.
-/
namespace FP.Spec

/-- Bit `k` of a byte string, least significant bit first. -/
def bitAt (bs : Bytes) (k : Nat) : Bool := (bs.getD (k / 8) 0).getLsbD (k % 8)

/-- Bit `(r, c)` of a matrix stored row after row, each row taking `width` bytes. -/
def flatBit (m : Bytes) (width r c : Nat) : Bool := bitAt m (8 * width * r + c)

/-- Bit `(r, c)` of a matrix given as a list of rows. -/
def rowsBit (m : List Bytes) (r c : Nat) : Bool := bitAt (m.getD r []) c

/-- A list of rows of `width` bytes each. -/
def Rectangular (m : List Bytes) (width : Nat) : Prop := ∀ row ∈ m, row.length = width

end FP.Spec
