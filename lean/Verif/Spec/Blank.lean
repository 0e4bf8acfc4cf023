import Verif.Spec.Garble
/-
Rows of projection tables that are left blank.
-/
namespace FP.Spec

/-- The circuit with one input of `m` values, which is projected. -/
def projectionCircuit (m : Nat) (p : ProjKind) : Circuit := ⟨2, 1, 1, [⟨1, m, [0], .proj p⟩], [m]⟩

/-- A row that holds nothing: no ciphertext, 32 zero bytes marked as having two values. -/
def blank : Wire := ⟨.binary, Vector.replicate 32 0⟩

/-- The rows of a table of `m` rows that are left blank when `c` is the colour of the zero label: those below `c` that are
reached neither by adding `c` below 65536 nor by wrapping around at 65536. -/
def LeftBlank (m c r : Nat) : Prop := 65536 - m ≤ r ∧ m + c - 65536 ≤ r ∧ r < c

/-- The place just above the last blank row of a table (0 if no row is blank). -/
def aboveBlank (tbl : List Wire) : Nat := (tbl.zipIdx.filter fun p => decide (p.1 = blank)).foldl (fun n p => max n (p.2 + 1)) 0

end FP.Spec
