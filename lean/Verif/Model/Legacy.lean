import Verif.Model.ManyFpake
/-
Model of src/legacy_fpake.rs, the first and the second implementation of the one-of-many key exchange.
Tracing is left out, as in Verif/Model/ManyFpake.lean; `payload_to_encoding` and `bytes_to_encoding` are
textually the same functions as in src/many_fpake.rs.
-/
namespace FP

/-- `bytes.chunks_exact(32)`: an incomplete last chunk is dropped (src/legacy_fpake.rs:52). -/
def chunks32 (bytes : Bytes) : List Bytes :=
  (List.range (bytes.length / 32)).map fun i => (bytes.drop (i * 32)).take 32

/-- `wires_from_bytes` (src/legacy_fpake.rs:50-57). -/
def wiresFromBytes (dbg : Bool) (bytes : Bytes) (domain : Domain) : R (List Wire) :=
  (chunks32 bytes).mapM fun chunk => do Wire.fromArray dbg (← toArray32 chunk) domain

/-- The encodings of all passwords: for every password the labels of its first `n` bits in
`encoding[n..]`, one after the other (src/legacy_fpake.rs:112-131). -/
def encodeAll (e : List (Wire × Wire)) (n : Nat) (passwords : List Bytes) : R (List Bytes) :=
  passwords.mapM fun (password : Bytes) => do
    let rows ← (List.range n).mapM fun i => do
      let byte ← idxR password (i / 8)
      let p ← idxR e (n + i)
      return (if (byte >>> (i % 8)) &&& 1 == 1 then p.2 else p.1).bytes
    return rows.flatten

/-- Draws behind one call of the first `garbler_server` (src/legacy_fpake.rs:66-149). -/
structure ServerDraws1 where
  g : GarblerDraws
  many : ManySend

/-- `OneOfManyKey::garbler_server` (src/legacy_fpake.rs:66-149). -/
def garblerServerV1 (C : Curve) (X : Crypto) (r : ServerDraws1) (passwords : List Bytes) (threshold : Nat) :
    Proc WireBytes := do
  let n := (← idxR passwords 0).length * 8
  let circuit ← buildCircuit X.dbg n threshold
  let g ← garbleBinary X.toEnv r.g.rnd circuit
  sendP (sendGarbled r.g.ord g.1)
  let clientMessage ← labelPairs g.2.1 0 n
  r.g.ot.run C X clientMessage
  let domain ← log2R X.dbg 64 passwords.length
  let encodings ← encodeAll g.2.1 n passwords
  r.many.run C X encodings domain
  outputKey g.2.2

/-- Draws behind one call of the first `evaluator_client` (src/legacy_fpake.rs:150-216). -/
structure ClientDraws1 where
  ot : OTRecv
  many : Nat → Nat

/-- `OneOfManyKey::evaluator_client` (src/legacy_fpake.rs:150-216): the server's labels are put first,
although they belong to the second half of the inputs. -/
def evaluatorClientV1 (C : Curve) (X : Crypto) (r : ClientDraws1) (password : Bytes) (number index : Nat) :
    Proc WireBytes := do
  let gc ← deserializeGarbled (← recvP)
  let choices ← bitsUpTo password password.length
  let clientPassword ← r.ot.run C X choices
  let domain ← log2R X.dbg 32 number
  let serverPassword ← manyRecv C X r.many index domain
  let client ← labelsOf X.dbg clientPassword
  let server ← wiresFromBytes X.dbg serverPassword .binary
  evaluatedKey X.toEnv gc (server ++ client)

/-- `OneOfManyKey::garbler_server_v2` (src/legacy_fpake.rs:219-332): the same steps as
`garbler_server_v3`, without the mask in the result. -/
def garblerServerV2 (C : Curve) (X : Crypto) (r : ServerDraws) (passwords : List Bytes) (threshold : Nat) :
    Proc WireBytes := do
  let passwordBytes := (← idxR passwords 0).length
  let n := passwordBytes * 8
  let circuit ← buildCircuitV2 X.dbg n threshold
  let g ← garbleBinary X.toEnv r.g.rnd circuit
  sendP (sendGarbled r.g.ord g.1)
  let clientMessage ← labelPairs g.2.1 0 n
  r.g.ot.run C X clientMessage
  let mask := drawMask r.mask passwordBytes
  let encodedMask ← encodeRows X.dbg g.2.1 n n mask
  sendP encodedMask
  let domain ← log2R X.dbg 64 passwords.length
  let masked ← maskPasswords X.dbg mask passwordBytes passwords
  r.many.run C X masked domain
  let maskedMessage ← labelPairs g.2.1 (n * 2) n
  r.ot2.run C X maskedMessage
  outputKey g.2.2

/-- `OneOfManyKey::evaluator_client_v2` (src/legacy_fpake.rs:333-421). -/
def evaluatorClientV2 (C : Curve) (X : Crypto) (r : ClientDraws) (password : Bytes) (number index : Nat) :
    Proc WireBytes := do
  let n := password.length * 8
  let gc ← deserializeGarbled (← recvP)
  let choices ← bitsUpTo password password.length
  let clientEncoding ← r.ot.run C X choices
  let encodedMask ← recvP
  let domain ← log2R X.dbg 32 number
  let masked ← manyRecv C X r.many index domain
  let maskedChoices ← bitsUpTo masked password.length
  let maskedEncoding ← r.ot2.run C X maskedChoices
  let rowLength := (← idxR maskedEncoding 0).length
  let client ← payloadToEncoding X.dbg clientEncoding n
  let mask ← bytesToEncoding X.dbg encodedMask n rowLength
  let server ← payloadToEncoding X.dbg maskedEncoding n
  evaluatedKey X.toEnv gc (client ++ mask ++ server)

/-- The blinding keys of the first `garbler_client` (src/legacy_fpake.rs:484-501): `number - 2` random
rows and one that cancels them.  `rk i j` is the `j`th draw of row `i`.  `with_capacity` of a wrapped
`usize` panics; the wrapped `u32` bound of a release build is kept as it is. -/
def blindingKeys (dbg : Bool) (rk : Nat → Nat → WireBytes) (number bits : Nat) : R (List (List Bytes)) := do
  let capacity ← subR dbg (2 ^ 64) number 1
  assertR (capacity < 2 ^ 32)
  let count ← subR dbg (2 ^ 32) number 2
  let cancelling ← (List.range count).foldlM (fun c i =>
      (List.range bits).foldlM (fun c j => do
        setR c j (← xorBytesInplace dbg (← idxR c j) (rk i j).toList)) c)
    (List.replicate bits (List.replicate 32 (0 : Byte)))
  return (List.range count).map (fun i => (List.range bits).map fun j => (rk i j).toList) ++ [cancelling]

/-- One round of the loop that lays out the pairs to be transferred (src/legacy_fpake.rs:503-519): the
true labels at `index`, otherwise the next blinding row twice; panics if there is none. -/
def selectStep (real : List (Bytes × Bytes)) (index bits : Nat) (s : List (Bytes × Bytes) × List (List Bytes)) (i : Nat) :
    R (List (Bytes × Bytes) × List (List Bytes)) :=
  if i = index then do
    let pairs ← (List.range bits).mapM fun j => idxR real j
    return (s.1 ++ pairs, s.2)
  else match s.2 with
    | [] => panicR
    | row :: rest => do
      let pairs ← (List.range bits).mapM fun j => do
        let k ← idxR row j
        return (k, k)
      return (s.1 ++ pairs, rest)

/-- The pairs the first `garbler_client` transfers (src/legacy_fpake.rs:503-519). -/
def selectKeys (real : List (Bytes × Bytes)) (blinding : List (List Bytes)) (number index bits : Nat) :
    R (List (Bytes × Bytes)) := do
  let s ← (List.range number).foldlM (selectStep real index bits) ([], blinding)
  return s.1

/-- Draws behind one call of the first `garbler_client` (src/legacy_fpake.rs:424-537). -/
structure ClientGarbler1 where
  g : GarblerDraws
  keys : Nat → Nat → WireBytes

/-- `OneOfManyKey::garbler_client` (src/legacy_fpake.rs:424-537). -/
def garblerClientV1 (C : Curve) (X : Crypto) (r : ClientGarbler1) (password : Bytes) (index number threshold : Nat) :
    Proc WireBytes := do
  let n := password.length * 8
  let circuit ← buildCircuit X.dbg n threshold
  let g ← garbleBinary X.toEnv r.g.rnd circuit
  let real ← labelPairs g.2.1 n n
  let bits ← bitsUpTo password password.length
  let encoded ← labelsAt g.2.1 0 bits
  sendP (sendGarbled r.g.ord g.1)
  sendP (Codec.wires.enc encoded)
  let blinding ← blindingKeys X.dbg r.keys number n
  let keys ← selectKeys real blinding number index n
  r.g.ot.run C X keys
  outputKey g.2.2

/-- The choice bits of all passwords (src/legacy_fpake.rs:555-563). -/
def allBits (passwords : List Bytes) (len : Nat) : R (List Bool) := do
  let rows ← passwords.mapM fun p => bitsUpTo p len
  return rows.flatten

/-- Xoring the transferred rows of every password into one (src/legacy_fpake.rs:574-579). -/
def unblind (dbg : Bool) (result : List Bytes) (count bits : Nat) : R (List Bytes) :=
  (List.range count).foldlM (fun c i =>
      (List.range bits).foldlM (fun c j => do
        setR c j (← xorBytesInplace dbg (← idxR c j) (← idxR result (i * bits + j)))) c)
    (List.replicate bits (List.replicate 32 (0 : Byte)))

/-- `OneOfManyKey::evaluator_server` (src/legacy_fpake.rs:538-605): the server's labels are put first,
although they belong to the second half of the inputs. -/
def evaluatorServerV1 (C : Curve) (X : Crypto) (r : OTRecv) (passwords : List Bytes) : Proc WireBytes := do
  let passwordBytes := (← idxR passwords 0).length
  let n := passwordBytes * 8
  let gc ← deserializeGarbled (← recvP)
  let client ← Codec.wires.deserialize (← recvP)
  let choices ← allBits passwords passwordBytes
  let result ← r.run C X choices
  let rows ← unblind X.dbg result passwords.length n
  let server ← payloadToEncoding X.dbg rows n
  evaluatedKey X.toEnv gc (server ++ client)

/-- Draws behind one call of the second `garbler_client` (src/legacy_fpake.rs:608-700). -/
structure ClientGarbler2 where
  g : GarblerDraws
  many : Nat → Nat

/-- `OneOfManyKey::garbler_client_v2` (src/legacy_fpake.rs:608-700). -/
def garblerClientV2 (C : Curve) (X : Crypto) (r : ClientGarbler2) (password : Bytes) (index number threshold : Nat) :
    Proc WireBytes := do
  let n := password.length * 8
  let circuit ← buildCircuitV2 X.dbg n threshold
  let g ← garbleBinary X.toEnv r.g.rnd circuit
  let bits ← bitsUpTo password password.length
  let input ← labelsAt g.2.1 (n * 2) bits
  sendP (sendGarbled r.g.ord g.1)
  sendP (Codec.wires.enc input)
  let maskMessage ← labelPairs g.2.1 n n
  r.g.ot.run C X maskMessage
  let domain ← log2R X.dbg 32 number
  let masked ← manyRecv C X r.many index domain
  let _ ← idxR g.2.1 0
  let rows ← encodeRows X.dbg g.2.1 0 n masked
  sendP rows
  outputKey g.2.2

/-- Draws behind one call of the second `evaluator_server` (src/legacy_fpake.rs:701-787). -/
structure ServerEvaluator2 where
  mask : Nat → Byte
  ot : OTRecv
  many : ManySend

/-- `OneOfManyKey::evaluator_server_v2` (src/legacy_fpake.rs:701-787). -/
def evaluatorServerV2 (C : Curve) (X : Crypto) (r : ServerEvaluator2) (passwords : List Bytes) : Proc WireBytes := do
  let passwordBytes := (← idxR passwords 0).length
  let n := passwordBytes * 8
  let gc ← deserializeGarbled (← recvP)
  let client ← Codec.wires.deserialize (← recvP)
  let mask := drawMask r.mask passwordBytes
  let choices ← bitsUpTo mask passwordBytes
  let masked ← maskPasswords X.dbg mask passwordBytes passwords
  let encodedMask ← r.ot.run C X choices
  let domain ← log2R X.dbg 64 passwords.length
  r.many.run C X masked domain
  let serverEncoded ← recvP
  let rowLength := (← idxR encodedMask 0).length
  let maskEncoding ← payloadToEncoding X.dbg encodedMask n
  let server ← bytesToEncoding X.dbg serverEncoded n rowLength
  evaluatedKey X.toEnv gc (server ++ maskEncoding ++ client)

end FP
