import Verif.Spec.Views
import Verif.Spec.Legacy
/-
What the evaluating server of the first one-of-many implementation holds at the end.
-/
namespace FP.Spec

/-- The first `OneOfManyKey::evaluator_server`, step by step, with everything the server holds as its result: the strings of the
oblivious transfer, the garbled circuit, the labels of the client's password, the labels of the entry and the half key. -/
def recorderServerV1 (C : Curve) (X : Crypto) (r : OTRecv) (passwords : List Bytes) : Proc (List Bytes × Held) := do
  let passwordBytes := (← idxR passwords 0).length
  let n := passwordBytes * 8
  let gc ← deserializeGarbled (← recvP)
  let client ← Codec.wires.deserialize (← recvP)
  let choices ← allBits passwords passwordBytes
  let result ← r.run C X choices
  let rows ← unblind X.dbg result passwords.length n
  let server ← payloadToEncoding X.dbg rows n
  let k ← evaluatedKey X.toEnv gc (server ++ client)
  return (result, ⟨gc, client, server, k⟩)

end FP.Spec
