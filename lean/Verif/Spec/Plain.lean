import Verif.Spec.Circuit
/-
What the plain evaluator computes, in words of 16 bits.
-/
namespace FP.Spec

/-- The value of a gate in 16-bit arithmetic: sums wrap around before they are reduced, products wrap around and are not
reduced, and an AND yields the lowest bit of its first input. -/
def wordValue (g : Gate) (vs : List Nat) : Nat :=
  match g.kind with
  | .add => vs.sum % 65536 % g.domain
  | .mul c => vs.headD 0 * c % 65536
  | .proj (.map m) => vs.headD 0 % m
  | .proj (.less t) => if vs.headD 0 < t then 1 else 0
  | .and => vs.headD 0 % 2

/-- Whether nothing wraps around. -/
def Fits16 (g : Gate) (vs : List Nat) : Prop :=
  match g.kind with
  | .add => vs.sum < 65536
  | .mul c => vs.headD 0 * c < 65536
  | _ => True

/-- The values of all wires in this arithmetic: the inputs followed by the value of each gate in order. -/
def wordValues (gates : List Gate) (inputs : List Nat) : List Nat :=
  gates.foldl (fun vals g => vals ++ [wordValue g (g.inputs.map (vals.getD · 0))]) inputs

end FP.Spec
