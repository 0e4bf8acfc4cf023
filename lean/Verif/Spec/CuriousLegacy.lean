import Verif.Spec.Curious
import Verif.Spec.Legacy
/-
Parties of the first two one-of-many implementations that follow the protocol to the letter.
-/
namespace FP.Spec

/-- The exclusive or of the two inputs of a comparison of `n` bits: from the colours of the labels and from which of
the tables begin with a zero. -/
def sumBits2 (n : Nat) (gc : GarbledCircuit) (a b : List Wire) : List Bool :=
  (List.range n).map fun i => colourAt a i ^^ colourAt b i ^^ ((firstRow gc (3 * n + i)).color == 0)

/-- The first `OneOfManyKey::evaluator_client`, step by step. -/
def curiousClientV1 (C : Curve) (X : Crypto) (r : ClientDraws1) (password : Bytes) (number index : Nat) :
    Proc (WireBytes × List Bool) := do
  let gc ← deserializeGarbled (← recvP)
  let choices ← bitsUpTo password password.length
  let clientPassword ← r.ot.run C X choices
  let domain ← log2R X.dbg 32 number
  let serverPassword ← manyRecv C X r.many index domain
  let client ← labelsOf X.dbg clientPassword
  let server ← wiresFromBytes X.dbg serverPassword .binary
  let k ← evaluatedKey X.toEnv gc (server ++ client)
  return (k, List.zipWith xor (bitsOf password) (sumBits2 (password.length * 8) gc client server))

/-- The first `OneOfManyKey::evaluator_server`, step by step. -/
def curiousServerV1 (C : Curve) (X : Crypto) (r : OTRecv) (passwords : List Bytes) : Proc (WireBytes × List Bool) := do
  let passwordBytes := (← idxR passwords 0).length
  let n := passwordBytes * 8
  let gc ← deserializeGarbled (← recvP)
  let client ← Codec.wires.deserialize (← recvP)
  let choices ← allBits passwords passwordBytes
  let result ← r.run C X choices
  let rows ← unblind X.dbg result passwords.length n
  let server ← payloadToEncoding X.dbg rows n
  let k ← evaluatedKey X.toEnv gc (server ++ client)
  return (k, sumBits2 n gc client server)

/-- `OneOfManyKey::evaluator_client_v2`, step by step: as the client of the third implementation, without the
masked password in the result. -/
def curiousClientV2 (C : Curve) (X : Crypto) (r : ClientDraws) (password : Bytes) (number index : Nat) :
    Proc (WireBytes × List Bool) := do
  let k ← curiousClientV3 C X r password number index
  return (k.1.1, k.2)

/-- `OneOfManyKey::evaluator_server_v2`, step by step. -/
def curiousServerV2 (C : Curve) (X : Crypto) (r : ServerEvaluator2) (passwords : List Bytes) :
    Proc (WireBytes × List Bool) := do
  let passwordBytes := (← idxR passwords 0).length
  let n := passwordBytes * 8
  let gc ← deserializeGarbled (← recvP)
  let client ← Codec.wires.deserialize (← recvP)
  let mask := drawMask r.mask passwordBytes
  let choices ← bitsUpTo mask passwordBytes
  let masked ← maskPasswords X.dbg mask passwordBytes passwords
  let encodedMask ← r.ot.run C X choices
  let domain ← log2R X.dbg 64 passwords.length
  r.many.run C X masked domain
  let serverEncoded ← recvP
  let rowLength := (← idxR encodedMask 0).length
  let maskEncoding ← payloadToEncoding X.dbg encodedMask n
  let server ← bytesToEncoding X.dbg serverEncoded n rowLength
  let k ← evaluatedKey X.toEnv gc (server ++ maskEncoding ++ client)
  return (k, sumBits3 n gc server maskEncoding client)

end FP.Spec
