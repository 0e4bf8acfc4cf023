import Verif.Spec.Asked
import Verif.Model.Legacy
/-
What the evaluating parties of the second one-of-many implementation hold at the end.
-/
namespace FP.Spec

/-- `OneOfManyKey::evaluator_server_v2`, step by step, with everything the server holds as its result. -/
def recorderServerV2 (C : Curve) (X : Crypto) (r : ServerEvaluator2) (passwords : List Bytes) : Proc HeldThree := do
  let passwordBytes := (← idxR passwords 0).length
  let n := passwordBytes * 8
  let gc ← deserializeGarbled (← recvP)
  let client ← Codec.wires.deserialize (← recvP)
  let mask := drawMask r.mask passwordBytes
  let choices ← bitsUpTo mask passwordBytes
  let masked ← maskPasswords X.dbg mask passwordBytes passwords
  let encodedMask ← r.ot.run C X choices
  let domain ← log2R X.dbg 64 passwords.length
  r.many.run C X masked domain
  let serverEncoded ← recvP
  let rowLength := (← idxR encodedMask 0).length
  let maskEncoding ← payloadToEncoding X.dbg encodedMask n
  let server ← bytesToEncoding X.dbg serverEncoded n rowLength
  let k ← evaluatedKey X.toEnv gc (server ++ maskEncoding ++ client)
  return ⟨gc, server, maskEncoding, client, k⟩

/-- A server of the second implementation: it garbles first and evaluates then, with a new mask.  The result is the key of the
first half and everything it holds of the second. -/
def serverV2 (C : Curve) (X : Crypto) (d : ServerDraws) (e : ServerEvaluator2) (passwords : List Bytes) (t : Nat) :
    Proc (WireBytes × HeldThree) := do
  let k ← garblerServerV2 C X d passwords t
  let v ← recorderServerV2 C X e passwords
  return (k, v)

/-- A client of the second implementation: it evaluates first and garbles then.  The result is the key of the second half. -/
def clientV2 (C : Curve) (X : Crypto) (c : ClientDraws) (g : ClientGarbler2) (password : Bytes) (number index t : Nat) :
    Proc WireBytes := do
  let _ ← evaluatorClientV2 C X c password number index
  garblerClientV2 C X g password index number t

end FP.Spec
