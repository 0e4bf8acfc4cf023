import Verif.Spec.Views
import Verif.Spec.ManyFpake
/-
What the evaluating parties of the third one-of-many implementation hold at the end.
-/
namespace FP.Spec

/-- Everything an evaluating party holds of a half: the garbled circuit, the labels of its three inputs in order, and the
half key. -/
structure HeldThree where
  gc : GarbledCircuit
  first : List Wire
  second : List Wire
  third : List Wire
  key : WireBytes

/-- `OneOfManyKey::evaluator_client_v3`, step by step, with everything the client holds as its result: the masked entry, the
circuit, the labels and the half key. -/
def recorderClientV3 (C : Curve) (X : Crypto) (r : ClientDraws) (password : Bytes) (number index : Nat) :
    Proc (Bytes × HeldThree) := do
  let n := password.length * 8
  let gc ← deserializeGarbled (← recvP)
  let choices ← bitsUpTo password password.length
  let clientEncoding ← r.ot.run C X choices
  let encodedMask ← recvP
  let domain ← log2R X.dbg 32 number
  let masked ← manyRecv C X r.many index domain
  let maskedChoices ← bitsUpTo masked password.length
  let maskedEncoding ← r.ot2.run C X maskedChoices
  let rowLength := (← idxR maskedEncoding 0).length
  let client ← payloadToEncoding X.dbg clientEncoding n
  let mask ← bytesToEncoding X.dbg encodedMask n rowLength
  let server ← payloadToEncoding X.dbg maskedEncoding n
  let k ← evaluatedKey X.toEnv gc (client ++ mask ++ server)
  return (masked, ⟨gc, client, mask, server, k⟩)

/-- `OneOfManyKey::evaluator_server_v3`, step by step, with everything the server holds as its result. -/
def recorderServerV3 (C : Curve) (X : Crypto) (r : OTRecv) (passwords : List Bytes) (mask : Bytes) : Proc HeldThree := do
  let passwordBytes := (← idxR passwords 0).length
  let n := passwordBytes * 8
  let gc ← deserializeGarbled (← recvP)
  let client ← Codec.wires.deserialize (← recvP)
  let choices ← bitsUpTo mask passwordBytes
  let encodedMask ← r.run C X choices
  let serverEncoded ← recvP
  let rowLength := (← idxR encodedMask 0).length
  let maskEncoding ← payloadToEncoding X.dbg encodedMask n
  let server ← bytesToEncoding X.dbg serverEncoded n rowLength
  let k ← evaluatedKey X.toEnv gc (server ++ maskEncoding ++ client)
  return ⟨gc, server, maskEncoding, client, k⟩

/-- A server of the third implementation: it garbles first and evaluates then, with the mask it has drawn.  The result is
everything it holds: the key of the first half, the mask, and what it holds of the second half. -/
def serverV3 (C : Curve) (X : Crypto) (d : ServerDraws) (o : OTRecv) (passwords : List Bytes) (t : Nat) :
    Proc ((WireBytes × Bytes) × HeldThree) := do
  let r ← garblerServerV3 C X d passwords t
  let v ← recorderServerV3 C X o passwords r.2
  return (r, v)

/-- A client of the third implementation: it evaluates first and garbles then, with the masked entry it has obtained.  The
result is the key of the second half. -/
def clientV3 (C : Curve) (X : Crypto) (c : ClientDraws) (g : GarblerDraws) (password : Bytes) (number index t : Nat) :
    Proc WireBytes := do
  let r ← evaluatorClientV3 C X c password number index
  garblerClientV3 C X g password r.2 index number t

/-- Random choices for garbling the circuit of three inputs of `len` bytes, as `Wire::new` makes them. -/
def DrawnBits3 (len : Nat) (r : GarbleRand) : Prop :=
  ∀ i, i < 24 * len → ∃ d, Wire.new 2 (r.input i) = .ok ⟨d, r.input i⟩

end FP.Spec
