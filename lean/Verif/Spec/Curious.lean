import Verif.Spec.Attack
/-
Parties that follow the protocol to the letter, and look at what they get.
-/
namespace FP.Spec

/-- The first row of the table of the projection gate with output wire `o`. -/
def firstRow (gc : GarbledCircuit) (o : Nat) : Wire := ((List.lookup o gc.f).getD []).getD 0 Wire.empty

/-- The colour of label `i` of a list. -/
def colourAt (l : List Wire) (i : Nat) : Bool := (l.getD i Wire.empty).color != 0

/-- The bits of the other party: from the colours of the labels of both parties' bits, the own bits, and which of the
tables begin with a zero. -/
def othersBits (n : Nat) (gc : GarbledCircuit) (theirs ours : List Wire) (own : List Bool) : List Bool :=
  (List.range n).map fun i =>
    colourAt theirs i ^^ colourAt ours i ^^ own.getD i false ^^ ((firstRow gc (3 * n + i)).color == 0)

/-- `HalfKey::evaluator`, step by step, with the half key and the bits of the other party as its result. -/
def curious (E : Env) (ot : List Bool → Proc (List Bytes)) (password : Bytes) : Proc (WireBytes × List Bool) := do
  let password := u8VecToBoolVec password
  let encPassword ← ot password
  let ourPassword ← labelsOf E.dbg encPassword
  let gc ← deserializeGarbled (← recvP)
  let theirPassword ← Codec.wires.deserialize (← recvP)
  let key ← evaluatedKey E gc (theirPassword ++ ourPassword)
  return (key, othersBits password.length gc theirPassword ourPassword password)

/-- The second party of the key exchange. -/
def curiousSecond (C : Curve) (X : Crypto) (o : OTRecv) (g : GarblerDraws) (password : Bytes) (threshold : Nat) :
    Proc (WireBytes × List Bool) := do
  let r ← curious X.toEnv (o.run C X) password
  let k1 ← HalfKey.garbler C X g password threshold
  return (combine k1 r.1, r.2)

/-- The first party of the key exchange. -/
def curiousFirst (C : Curve) (X : Crypto) (g : GarblerDraws) (o : OTRecv) (password : Bytes) (threshold : Nat) :
    Proc (WireBytes × List Bool) := do
  let k1 ← HalfKey.garbler C X g password threshold
  let r ← curious X.toEnv (o.run C X) password
  return (combine k1 r.1, r.2)

/-- The client of the fourth one-of-many implementation. -/
def curiousSingle (C : Curve) (X : Crypto) (r : SingleDraws) (password : Bytes) (index number threshold : Nat) :
    Proc (WireBytes × List Bool) := do
  let domain ← log2R X.dbg 32 number
  let masked ← manyRecv C X r.many index domain
  let mixed ← xorBytesInplace X.dbg masked password
  let k1 ← curious X.toEnv (r.ot.run C X) mixed
  let k2 ← HalfKey.garbler C X r.g mixed threshold
  return (combine k1.1 k2, List.zipWith xor (bitsOf masked) k1.2)

/-- The server of the fourth one-of-many implementation. -/
def curiousMany (C : Curve) (X : Crypto) (r : ManyDraws) (passwords : List Bytes) (threshold : Nat) :
    Proc (WireBytes × List Bool) := do
  let passwordBytes := (← idxR passwords 0).length
  let mask := drawMask r.mask passwordBytes
  let masked ← maskPasswords X.dbg mask passwordBytes passwords
  let domain ← log2R X.dbg 64 passwords.length
  r.many.run C X masked domain
  let k1 ← HalfKey.garbler C X r.g mask threshold
  let k2 ← curious X.toEnv (r.ot.run C X) mask
  return (combine k1 k2.1, List.zipWith xor (bitsOf mask) k2.2)

/-- The exclusive or of the three inputs of the third one-of-many implementation: from the colours of the labels
and from which of the tables begin with a zero. -/
def sumBits3 (n : Nat) (gc : GarbledCircuit) (a b c : List Wire) : List Bool :=
  (List.range n).map fun i => colourAt a i ^^ colourAt b i ^^ colourAt c i ^^ ((firstRow gc (4 * n + i)).color == 0)

/-- `OneOfManyKey::evaluator_client_v3`, step by step. -/
def curiousClientV3 (C : Curve) (X : Crypto) (r : ClientDraws) (password : Bytes) (number index : Nat) :
    Proc ((WireBytes × Bytes) × List Bool) := do
  let n := password.length * 8
  let gc ← deserializeGarbled (← recvP)
  let choices ← bitsUpTo password password.length
  let clientEncoding ← r.ot.run C X choices
  let encodedMask ← recvP
  let domain ← log2R X.dbg 32 number
  let masked ← manyRecv C X r.many index domain
  let maskedChoices ← bitsUpTo masked password.length
  let maskedEncoding ← r.ot2.run C X maskedChoices
  let rowLength := (← idxR maskedEncoding 0).length
  let client ← payloadToEncoding X.dbg clientEncoding n
  let mask ← bytesToEncoding X.dbg encodedMask n rowLength
  let server ← payloadToEncoding X.dbg maskedEncoding n
  let k ← evaluatedKey X.toEnv gc (client ++ mask ++ server)
  return ((k, masked), List.zipWith xor (bitsOf password) (sumBits3 n gc client mask server))

/-- `OneOfManyKey::evaluator_server_v3`, step by step. -/
def curiousServerV3 (C : Curve) (X : Crypto) (r : OTRecv) (passwords : List Bytes) (mask : Bytes) :
    Proc (WireBytes × List Bool) := do
  let passwordBytes := (← idxR passwords 0).length
  let n := passwordBytes * 8
  let gc ← deserializeGarbled (← recvP)
  let client ← Codec.wires.deserialize (← recvP)
  let choices ← bitsUpTo mask passwordBytes
  let encodedMask ← r.run C X choices
  let serverEncoded ← recvP
  let rowLength := (← idxR encodedMask 0).length
  let maskEncoding ← payloadToEncoding X.dbg encodedMask n
  let server ← bytesToEncoding X.dbg serverEncoded n rowLength
  let k ← evaluatedKey X.toEnv gc (server ++ maskEncoding ++ client)
  return (k, sumBits3 n gc server maskEncoding client)

end FP.Spec
