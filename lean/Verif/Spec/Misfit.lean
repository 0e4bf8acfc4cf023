import Verif.Spec.Served
import Verif.Spec.Outcome
/-
Clients whose idea of the database does not fit the server's.
-/
namespace FP.Spec

/-- The number of entries a client prepares for when it is told that the database has `number` (a `u32`): rounded up
to a power of two; a build without overflow checks takes `0` for `2^32`. -/
def prepared (number : Nat) : Nat := if number = 0 then 2 ^ 32 else roundedUp number

end FP.Spec
