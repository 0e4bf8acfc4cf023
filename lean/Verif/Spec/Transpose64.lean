import Verif.Model.Basic
/-
What one round of the unused 64 by 64 transposition does to a matrix, given as its rows.
-/
namespace FP.Spec

/-- One round with distance `j` and mask `m`: a row whose number has the bit `j` clear becomes the row `j` below it,
shifted down by `j` and masked; any other row becomes its sum with the row `j` above it, shifted up by `j`, and with
its own bits under the shifted mask. -/
def transposeRound (j : Nat) (m : BitVec 64) (M : Nat → BitVec 64) (r : Nat) : BitVec 64 :=
  if r &&& j = 0 then (M (r + j) >>> j) &&& m else M r ^^^ (M (r - j) <<< j) ^^^ (M r &&& (m <<< j))

/-- The five rounds, with distances 16, 8, 4, 2 and 1. -/
def transposeRounds (M : Nat → BitVec 64) : Nat → BitVec 64 :=
  transposeRound 1 0x3333333333333333 (transposeRound 2 0x0F0F0F0F0F0F0F0F (transposeRound 4 0x00FF00FF00FF00FF
    (transposeRound 8 0x0000FFFF0000FFFF (transposeRound 16 0x00000000FFFFFFFF M))))

end FP.Spec
