import Verif.Spec.Tables
/-
What the tables of projection gates hold, written without reference to the code of `garble`.
-/
namespace FP.Spec

/-- The function a projection applies. -/
def projected : ProjKind → Nat → Nat
  | .map m, x => x % m
  | .less t, x => if x < t then 1 else 0

/-- Component `j` of the pad for a row of the projection with output wire `o` and range `n`: the hash of the number of the
wire, as eight bytes, followed by the label, read in components of the range and reduced. -/
def projPad (sha : Bytes → WireBytes) (o : Nat) (w : Wire) (n j : Nat) : Nat :=
  match Domain.new n with
  | .ok d => digit ⟨d, sha (rowBytes o ++ w.values.toList)⟩ j % n
  | .error _ => 0

/-- Whether a gate is a projection. -/
def isProj (g : Gate) : Bool := match g.kind with | .proj _ => true | _ => false

end FP.Spec
