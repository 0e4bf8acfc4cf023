import Verif.Model.Fpake
/-
Model of src/many_fpake.rs.  Tracing (`instrument::begin`/`end`) has no effect on the protocol and is
left out; the lengths `password_bytes * 8` are not reduced modulo `2^64`.
-/
namespace FP

/-- Everything the sender of one 1-out-of-n transfer draws or depends on (src/many_fpake.rs:147-150):
cores, the order of its workers, the keys, the scalars of the base transfer. -/
structure ManySend where
  cores : Nat
  order : List Nat
  keys : Nat → WireBytes × WireBytes
  base : Nat → Nat

/-- `ManyOTSender { interal_sender: chou_orlandi::Sender }` (src/many_fpake.rs:147-150). -/
def ManySend.run (C : Curve) (X : Crypto) (o : ManySend) (messages : List Bytes) (domain : Nat) : Proc Unit :=
  manySender X o.cores o.order o.keys (coSender C X o.base) messages domain

/-- `ManyOTReceiver { internal_receiver: chou_orlandi::Receiver }` (src/many_fpake.rs:220-224); `base`
are the scalars of the base transfer. -/
def manyRecv (C : Curve) (X : Crypto) (base : Nat → Nat) (index domain : Nat) : Proc Bytes :=
  manyReceiver X (coReceiver C X base) index domain

/-- The first `8 * n` bits of a byte string, indexing byte by byte (src/many_fpake.rs:199-205, 229-235
and 380-387): panics when there are fewer than `n` bytes. -/
def bitsUpTo (bytes : Bytes) (n : Nat) : R (List Bool) :=
  (List.range (8 * n)).mapM fun i => do
    let byte ← idxR bytes (i / 8)
    return (byte >>> (i % 8)) &&& 1 == 1

/-- `payload_to_encoding` (src/many_fpake.rs:16-25, src/legacy_fpake.rs:18-27). -/
def payloadToEncoding (dbg : Bool) (payload : List Bytes) (bitCount : Nat) : R (List Wire) :=
  (List.range bitCount).mapM fun i => do Wire.fromBytes dbg (← idxR payload i) .binary

/-- `bytes_to_encoding` (src/many_fpake.rs:27-36, src/legacy_fpake.rs:29-38): `vector_row` does not
check bounds. -/
def bytesToEncoding (dbg : Bool) (bytes : Bytes) (bitCount encodedSize : Nat) : R (List Wire) :=
  (List.range bitCount).mapM fun i => do Wire.fromBytes dbg (← vectorRow bytes i encodedSize) .binary

/-- The pairs of labels `encoding[offset..offset + n]` as byte strings (src/many_fpake.rs:92-98,
155-161 and 319-326). -/
def labelPairs (e : List (Wire × Wire)) (offset n : Nat) : R (List (Bytes × Bytes)) :=
  (List.range n).mapM fun i => do
    let p ← idxR e (offset + i)
    return (p.1.bytes, p.2.bytes)

/-- The labels of `bits` in `encoding[offset..]` (src/many_fpake.rs:297-306). -/
def labelsAt (e : List (Wire × Wire)) (offset : Nat) (bits : List Bool) : R (List Wire) :=
  bits.zipIdx.mapM fun (b, i) => do
    let p ← idxR e (offset + i)
    return if b then p.2 else p.1

/-- The labels of the first `n` bits of `bytes` in `encoding[offset..]`, written row by row into one
buffer (src/many_fpake.rs:116-127 and 339-348). -/
def encodeRows (dbg : Bool) (e : List (Wire × Wire)) (offset n : Nat) (bytes : Bytes) : R Bytes :=
  (List.range n).foldlM (fun buf i => do
      let byte ← idxR bytes (i / 8)
      let p ← idxR e (offset + i)
      updateRow buf i 32 fun row => xorBytesInplace dbg row
        (if (byte >>> (i % 8)) &&& 1 == 1 then p.2 else p.1).bytes)
    (List.replicate (n * 32) 0)

/-- Masking all passwords (src/many_fpake.rs:138-142 and 483-490): into a buffer of `len` zeros first
the mask and then the password is xored. -/
def maskPasswords (dbg : Bool) (mask : Bytes) (len : Nat) (passwords : List Bytes) : R (List Bytes) :=
  passwords.mapM fun password => do
    let m ← xorBytesInplace dbg (List.replicate len 0) mask
    xorBytesInplace dbg m password

/-- A random mask of `len` bytes (src/many_fpake.rs:111-112): the bytes of the generator are the
argument. -/
def drawMask (rand : Nat → Byte) (len : Nat) : Bytes := (List.range len).map rand

/-- All draws behind one call of `garbler_server_v3`: garbling and first transfer, the mask, the
1-out-of-n transfer, the second transfer (src/many_fpake.rs:65-179). -/
structure ServerDraws where
  g : GarblerDraws
  mask : Nat → Byte
  many : ManySend
  ot2 : OTSend

/-- `OneOfManyKey::garbler_server_v3` (src/many_fpake.rs:65-179). -/
def garblerServerV3 (C : Curve) (X : Crypto) (r : ServerDraws) (passwords : List Bytes) (threshold : Nat) :
    Proc (WireBytes × Bytes) := do
  let passwordBytes := (← idxR passwords 0).length
  let n := passwordBytes * 8
  let circuit ← buildCircuitV2 X.dbg n threshold
  let g ← garbleBinary X.toEnv r.g.rnd circuit
  sendP (sendGarbled r.g.ord g.1)
  let clientMessage ← labelPairs g.2.1 0 n
  r.g.ot.run C X clientMessage
  let mask := drawMask r.mask passwordBytes
  let encodedMask ← encodeRows X.dbg g.2.1 n n mask
  sendP encodedMask
  let domain ← log2R X.dbg 64 passwords.length
  let masked ← maskPasswords X.dbg mask passwordBytes passwords
  r.many.run C X masked domain
  let maskedMessage ← labelPairs g.2.1 (n * 2) n
  r.ot2.run C X maskedMessage
  let k ← outputKey g.2.2
  return (k, mask)

/-- All draws behind one call of `evaluator_client_v3` (src/many_fpake.rs:180-270). -/
structure ClientDraws where
  ot : OTRecv
  many : Nat → Nat
  ot2 : OTRecv

/-- `OneOfManyKey::evaluator_client_v3` (src/many_fpake.rs:180-270). -/
def evaluatorClientV3 (C : Curve) (X : Crypto) (r : ClientDraws) (password : Bytes) (number index : Nat) :
    Proc (WireBytes × Bytes) := do
  let n := password.length * 8
  let gc ← deserializeGarbled (← recvP)
  let choices ← bitsUpTo password password.length
  let clientEncoding ← r.ot.run C X choices
  let encodedMask ← recvP
  let domain ← log2R X.dbg 32 number
  let masked ← manyRecv C X r.many index domain
  let maskedChoices ← bitsUpTo masked password.length
  let maskedEncoding ← r.ot2.run C X maskedChoices
  let rowLength := (← idxR maskedEncoding 0).length
  let client ← payloadToEncoding X.dbg clientEncoding n
  let mask ← bytesToEncoding X.dbg encodedMask n rowLength
  let server ← payloadToEncoding X.dbg maskedEncoding n
  let k ← evaluatedKey X.toEnv gc (client ++ mask ++ server)
  return (k, masked)

/-- `OneOfManyKey::garbler_client_v3` (src/many_fpake.rs:272-357).  The arguments `index` and
`number_of_passwords` are not used; `encoding[0][0].as_bytes().len()` is 32 if there is a first label. -/
def garblerClientV3 (C : Curve) (X : Crypto) (r : GarblerDraws) (password masked : Bytes)
    (_index _number threshold : Nat) : Proc WireBytes := do
  let n := password.length * 8
  let circuit ← buildCircuitV2 X.dbg n threshold
  let g ← garbleBinary X.toEnv r.rnd circuit
  let bits ← bitsUpTo password password.length
  let input ← labelsAt g.2.1 (n * 2) bits
  sendP (sendGarbled r.ord g.1)
  sendP (Codec.wires.enc input)
  let maskMessage ← labelPairs g.2.1 n n
  r.ot.run C X maskMessage
  let _ ← idxR g.2.1 0
  let rows ← encodeRows X.dbg g.2.1 0 n masked
  sendP rows
  outputKey g.2.2

/-- `OneOfManyKey::evaluator_server_v3` (src/many_fpake.rs:358-421). -/
def evaluatorServerV3 (C : Curve) (X : Crypto) (r : OTRecv) (passwords : List Bytes) (mask : Bytes) :
    Proc WireBytes := do
  let passwordBytes := (← idxR passwords 0).length
  let n := passwordBytes * 8
  let gc ← deserializeGarbled (← recvP)
  let client ← Codec.wires.deserialize (← recvP)
  let choices ← bitsUpTo mask passwordBytes
  let encodedMask ← r.run C X choices
  let serverEncoded ← recvP
  let rowLength := (← idxR encodedMask 0).length
  let maskEncoding ← payloadToEncoding X.dbg encodedMask n
  let server ← bytesToEncoding X.dbg serverEncoded n rowLength
  evaluatedKey X.toEnv gc (server ++ maskEncoding ++ client)

/-- All draws of the client of the fourth implementation (src/many_fpake.rs:434-466). -/
structure SingleDraws where
  many : Nat → Nat
  ot : OTRecv
  g : GarblerDraws

/-- `mfpake_single` (src/many_fpake.rs:434-466). -/
def mfpakeSingle (C : Curve) (X : Crypto) (r : SingleDraws) (password : Bytes) (index number threshold : Nat) :
    Proc WireBytes := do
  let domain ← log2R X.dbg 32 number
  let masked ← manyRecv C X r.many index domain
  let masked ← xorBytesInplace X.dbg masked password
  let k1 ← HalfKey.evaluator C X r.ot masked
  let k2 ← HalfKey.garbler C X r.g masked threshold
  return combine k1 k2

/-- All draws of the server of the fourth implementation (src/many_fpake.rs:470-512). -/
structure ManyDraws where
  mask : Nat → Byte
  many : ManySend
  g : GarblerDraws
  ot : OTRecv

/-- `mfpake_many` (src/many_fpake.rs:470-512). -/
def mfpakeMany (C : Curve) (X : Crypto) (r : ManyDraws) (passwords : List Bytes) (threshold : Nat) :
    Proc WireBytes := do
  let passwordBytes := (← idxR passwords 0).length
  let mask := drawMask r.mask passwordBytes
  let masked ← maskPasswords X.dbg mask passwordBytes passwords
  let domain ← log2R X.dbg 64 passwords.length
  r.many.run C X masked domain
  let k1 ← HalfKey.garbler C X r.g mask threshold
  let k2 ← HalfKey.evaluator C X r.ot mask
  return combine k1 k2

end FP
