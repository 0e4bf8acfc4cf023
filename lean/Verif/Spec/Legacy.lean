import Verif.Model.Legacy
/-
A server that follows the first implementation and looks at what it receives.
-/
namespace FP.Spec

/-- The first evaluating server up to the end of its oblivious transfer (src/legacy_fpake.rs:538-573),
returning what it received: one block of `8 * len` strings for each of its passwords. -/
def watchingServer (C : Curve) (X : Crypto) (r : OTRecv) (passwords : List Bytes) (len : Nat) : Proc (List Bytes) := do
  let _ ← recvP
  let _ ← recvP
  let choices ← allBits passwords len
  r.run C X choices

/-- Byte `b` of string `j` of block `k`. -/
def cell (view : List Bytes) (bits k j b : Nat) : Byte := (view.getD (k * bits + j) []).getD b 0

/-- All blocks but the `i`th cancel. -/
def OthersCancel (view : List Bytes) (number bits i : Nat) : Prop :=
  ∀ j < bits, ∀ b < 32, (((List.range number).filter (· ≠ i)).map fun k => cell view bits k j b).foldl (· ^^^ ·) 0 = 0

end FP.Spec
