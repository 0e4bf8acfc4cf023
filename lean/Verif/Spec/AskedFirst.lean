import Verif.Spec.Views
import Verif.Spec.Legacy
/-
What the evaluating client of the first one-of-many implementation holds at the end.
-/
namespace FP.Spec

/-- The first `OneOfManyKey::evaluator_client`, step by step, with everything the client holds as its result: the garbled
circuit, the labels of the entry, the labels of its password and the half key. -/
def recorderClientV1 (C : Curve) (X : Crypto) (r : ClientDraws1) (password : Bytes) (number index : Nat) : Proc Held := do
  let gc ← deserializeGarbled (← recvP)
  let choices ← bitsUpTo password password.length
  let clientPassword ← r.ot.run C X choices
  let domain ← log2R X.dbg 32 number
  let serverPassword ← manyRecv C X r.many index domain
  let client ← labelsOf X.dbg clientPassword
  let server ← wiresFromBytes X.dbg serverPassword .binary
  let k ← evaluatedKey X.toEnv gc (server ++ client)
  return ⟨gc, server, client, k⟩

end FP.Spec
