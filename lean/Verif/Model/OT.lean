import Verif.Model.Proc
import Verif.Model.Bincode
import Verif.Model.Util
import Verif.Model.Crypto
/-
Model of src/ot/common.rs, src/ot/coinflip.rs, src/ot/chou_orlandi.rs and src/ot/one_of_many.rs.
-/
namespace FP

/-- `validate_properties` (src/ot/common.rs:12-21). -/
def validateProperties (pb : TransactionProperties) : Proc Unit := do
  sendP (Codec.properties.enc pb)
  let pb2 ← recvP
  let pb2 ← Codec.properties.deserialize pb2
  if pb2 ≠ pb then
    errR .badProperties
  else
    pure ()

/-! ### Coin flip -/

/-- `for i in 0..N { w[i] = a[i] ^ b[i]; }` (src/ot/coinflip.rs:37-41 and 61-64). -/
def xorAt (a b : Bytes) : R Bytes :=
  (List.range a.length).mapM fun i => do return (← idxR a i) ^^^ (← idxR b i)

/-- `coinflip_sender` (src/ot/coinflip.rs:27-43); `v` is the random contribution, `N` its length
(the const generic). -/
def coinflipSender (E : Env) (v : Bytes) : Proc Bytes := do
  let commit := E.sha256 v
  sendP commit.toList
  let u ← recvP
  if u.length ≠ v.length then
    errR .coinflipLength
  else
    sendP v
    xorAt v u

/-- `coinflip_receiver` (src/ot/coinflip.rs:49-67); `u` is the random contribution. -/
def coinflipReceiver (E : Env) (u : Bytes) : Proc Bytes := do
  let commit ← recvP
  sendP u
  let v ← recvP
  if v.length ≠ u.length then
    errR .coinflipLength
  else if commit ≠ (E.sha256 v).toList then
    errR .coinflipCommitment
  else
    xorAt u v

/-! ### Chou-Orlandi -/

/-- `(0..n).map(|_| r.recv().unwrap()).map(f).collect()`: each message is handled before the next
one is received (src/ot/chou_orlandi.rs:58-61 and 120-123). -/
def recvEach {α} : Nat → (Bytes → R α) → Proc (List α)
  | 0, _ => pure []
  | n + 1, f => do
    let m ← recvP
    let a ← f m
    let as ← recvEach n f
    return a :: as

/-- `opt.unwrap()` (src/ot/chou_orlandi.rs:72-73 and 132). -/
def unwrapR {α} : Option α → R α
  | some a => .ok a
  | none => panicR

/-- The encryption of one message under a shared point (src/ot/chou_orlandi.rs:86-94 and 164-167):
hash the compressed point, expand, xor. -/
def coCrypt (C : Curve) (X : Crypto) (P : C.Pt) (m : Bytes) : R Bytes :=
  xorBytes X.dbg m (X.genBytes (X.sha256 (C.compress P).toList) m.length)

/-- Round 3 of the sender for pair number `i` (src/ot/chou_orlandi.rs:71-96). -/
def coEncryptPair (C : Curve) (X : Crypto) (publics theirs : List WireBytes) (secret : Nat)
    (i : Nat) (m : Bytes × Bytes) : R (Bytes × Bytes) := do
  let theirPublic ← unwrapR (C.decompress (← idxR theirs i))
  let pub ← unwrapR (C.decompress (← idxR publics i))
  let e0 ← coCrypt C X (secret • theirPublic) m.1
  let e1 ← coCrypt C X (secret • (theirPublic - pub)) m.2
  return (e0, e1)

/-- Round 3 of the sender (src/ot/chou_orlandi.rs:66-97).  The parallel map is a map: its items are
independent. -/
def coEncrypt (C : Curve) (X : Crypto) (publics theirs : List WireBytes) (secrets : Nat → Nat)
    (msg : List (Bytes × Bytes)) : R (List (Bytes × Bytes)) :=
  msg.zipIdx.mapM fun p => coEncryptPair C X publics theirs (secrets p.2) p.2 p.1

/-- `Sender::exchange` (src/ot/chou_orlandi.rs:32-102).  `secrets i` is the `i`-th random scalar. -/
def coSender (C : Curve) (X : Crypto) (secrets : Nat → Nat) (msg : List (Bytes × Bytes)) :
    Proc Unit := do
  validateProperties ⟨msg.length, "Chou-Orlandi"⟩
  let n := msg.length
  let publics := (List.range n).map fun i => C.compress (secrets i • C.base)
  -- round 1
  sendAll (publics.map (·.toList))
  -- round 2
  let theirs ← recvEach n fromSlice
  -- round 3
  assertR (publics.length == theirs.length)
  let payload ← coEncrypt C X publics theirs secrets msg
  sendP (Codec.payload.enc payload)

/-- Round 1 of the receiver for item `i` (src/ot/chou_orlandi.rs:131-143): the point to send and
the key. -/
def coRespond (C : Curve) (X : Crypto) (choices : List Bool) (secret : Nat) (i : Nat)
    (p : WireBytes) : R (WireBytes × WireBytes) := do
  let theirPublic ← unwrapR (C.decompress p)
  let c ← idxR choices i
  let pub := if c then theirPublic + secret • C.base else secret • C.base
  return (C.compress pub, X.sha256 (C.compress (secret • theirPublic)).toList)

/-- Round 1 of the receiver (src/ot/chou_orlandi.rs:127-145). -/
def coRespondAll (C : Curve) (X : Crypto) (choices : List Bool) (secrets : Nat → Nat)
    (theirs : List WireBytes) : R (List (WireBytes × WireBytes)) :=
  theirs.zipIdx.mapM fun p => coRespond C X choices (secrets p.2) p.2 p.1

/-- Round 3 of the receiver for item `i` (src/ot/chou_orlandi.rs:161-168). -/
def coDecrypt (X : Crypto) (choices : List Bool) (keys : List WireBytes) (i : Nat)
    (e : Bytes × Bytes) : R Bytes := do
  let c ← idxR choices i
  let e := if c then e.2 else e.1
  let k ← idxR keys i
  xorBytes X.dbg e (X.genBytes k e.length)

/-- Round 3 of the receiver (src/ot/chou_orlandi.rs:157-169). -/
def coDecryptAll (X : Crypto) (choices : List Bool) (keys : List WireBytes)
    (payload : List (Bytes × Bytes)) : R (List Bytes) :=
  payload.zipIdx.mapM fun p => coDecrypt X choices keys p.2 p.1

/-- `Receiver::exchange` (src/ot/chou_orlandi.rs:106-172).  `secrets i` is the `i`-th random
scalar. -/
def coReceiver (C : Curve) (X : Crypto) (secrets : Nat → Nat) (choices : List Bool) :
    Proc (List Bytes) := do
  validateProperties ⟨choices.length, "Chou-Orlandi"⟩
  let n := choices.length
  -- round 1
  let theirs ← recvEach n fromSlice
  debugAssertR X.dbg (choices.length = theirs.length)
  let pk ← coRespondAll C X choices secrets theirs
  let publics := pk.map Prod.fst
  let keys := pk.map Prod.snd
  -- round 2
  sendAll (publics.map (·.toList))
  -- round 3
  let payload ← recvP
  let payload ← Codec.payload.deserialize payload
  coDecryptAll X choices keys payload

/-! ### 1-out-of-n -/

/-- `1 << k` for a type of `bits` bits: too large a shift panics in debug builds and is taken
modulo `bits` in release builds (src/ot/one_of_many.rs:54 and 195). -/
def shlOneR (dbg : Bool) (bits k : Nat) : R Nat :=
  if k < bits then .ok (2 ^ k) else if dbg then panicR else .ok (2 ^ (k % bits))

/-- `fk` (src/ot/one_of_many.rs:18-26): the contents of `buffer` (of `len` bytes) afterwards. -/
def fk (X : Crypto) (key : Bytes) (choice : Nat) (len : Nat) : Bytes :=
  X.fill (X.sha256 (beBytes 4 choice ++ key)) len

/-- `vector_row_mut(v, row, width)` (src/util.rs:130-134) and an update of that row:
`get_unchecked_mut`, so undefined behaviour out of range. -/
def updateRow (v : Bytes) (row width : Nat) (f : Bytes → R Bytes) : R Bytes :=
  if width * row + width ≤ v.length then do
    let r ← f ((v.drop (width * row)).take width)
    return v.take (width * row) ++ r ++ v.drop (width * row + width)
  else ubR

/-- The row of `y` for index `i` (src/ot/one_of_many.rs:63-74 and 102-113): xor the message and one
mask for each bit of the index into it.  The index is a `usize`, so `i >> j` shifts by `j % 64`
(`j ≥ 64` only happens in release builds: in debug builds `manyY` has panicked before). -/
def manyRow (X : Crypto) (messages : List Bytes) (keys : List (Bytes × Bytes)) (domain len i : Nat)
    (row : Bytes) : R Bytes := do
  let row ← xorBytesInplace X.dbg row (← idxR messages i)
  (List.range domain).foldlM (fun row j => do
    let k ← idxR keys j
    let key := if (i >>> (j % 64)) % 2 = 1 then k.2 else k.1
    xorBytesInplace X.dbg row (fk X key (i % 2 ^ 32) len)) row

/-- `v.chunks_mut(k)`: panics when `k = 0`; the last chunk may be shorter
(src/ot/one_of_many.rs:92, src/ot/apricot.rs:158, 376 and 427). -/
def chunksR {α : Type} (v : List α) (k : Nat) : R (List (List α)) :=
  if k = 0 then panicR
  else .ok ((List.range ((v.length + k - 1) / k)).map fun i => (v.drop (i * k)).take k)

/-- `rayon::scope` with one job per chunk.  Each job owns its chunk exclusively, so the only freedom
of the scheduler that matters is the order of the jobs, `order`
(src/ot/one_of_many.rs:89-120, src/ot/apricot.rs:154-197, 373-395 and 422-455). -/
def runJobs {α : Type} (order : List Nat) (work : Nat → α → R α) (chunks : List α) :
    R (List α) :=
  order.foldlM (fun cs c => do setR cs c (← work c (← idxR cs c))) chunks

/-- The job for chunk `c` (src/ot/one_of_many.rs:94-118). -/
def manyJob (X : Crypto) (messages : List Bytes) (keys : List (Bytes × Bytes)) (domain len rows c : Nat)
    (chunk : Bytes) : R Bytes :=
  (List.range rows).foldlM (fun chunk i =>
    updateRow chunk i len (manyRow X messages keys domain len (rows * c + i))) chunk

/-- The computation of `y` (src/ot/one_of_many.rs:54-121) on a machine with `cores` logical cores;
`order` is the order in which rayon runs the jobs. -/
def manyY (X : Crypto) (cores : Nat) (order : List Nat) (messages : List Bytes)
    (keys : List (Bytes × Bytes)) (domain : Nat) : R Bytes := do
  let len := (← idxR messages 0).length
  let domainMax ← shlOneR X.dbg 64 domain
  let y := List.replicate (← mulR X.dbg (2 ^ 64) domainMax len) (0 : Byte)
  if domain ≤ 2 then
    (List.range domainMax).foldlM (fun y i =>
      updateRow y i len (manyRow X messages keys domain len i)) y
  else do
    let threads := if domainMax ≤ cores then domainMax else cores
    debugAssertR X.dbg (domainMax % threads = 0)
    let rows := domainMax / threads
    let chunks ← chunksR y (rows * len)
    let chunks ← runJobs order (manyJob X messages keys domain len rows) chunks
    return chunks.flatten

/-- `ManyOTSender::exchange` (src/ot/one_of_many.rs:33-147).  `keys j` are the two random keys for
bit `j`; `inner` is the bootstrap OT. -/
def manySender (X : Crypto) (cores : Nat) (order : List Nat) (keys : Nat → WireBytes × WireBytes)
    (inner : List (Bytes × Bytes) → Proc Unit) (messages : List Bytes) (domain : Nat) : Proc Unit := do
  let ks := (List.range domain).map fun j => ((keys j).1.toList, (keys j).2.toList)
  let y ← manyY X cores order messages ks domain
  sendP y
  inner ks

/-- The choice bits of the receiver (src/ot/one_of_many.rs:161-165), `u32` arithmetic. -/
def manyChoices (dbg : Bool) (choice domain : Nat) : R (List Bool) :=
  (List.range domain).mapM fun i => do
    let m ← shlOneR dbg 32 i
    return (choice &&& m) >>> (i % 32) == 1

/-- The keys from the bootstrap messages (src/ot/one_of_many.rs:179-190). -/
def manyKeys (dbg : Bool) (messages : List Bytes) (domain : Nat) : R (List Bytes) :=
  (List.range domain).mapM fun i => do
    let message ← idxR messages i
    debugAssertR dbg (message.length % 32 = 0)
    pure message

/-- Unmasking the row (src/ot/one_of_many.rs:195-205). -/
def manyUnmask (X : Crypto) (keys : List Bytes) (choice domain : Nat) (y : Bytes) : R Bytes := do
  let len := y.length / (← shlOneR X.dbg 64 domain)
  let x ← vectorRow y choice len
  (List.range domain).foldlM (fun x i => do
    xorBytesInplace X.dbg x (fk X (← idxR keys i) choice len)) x

/-- `ManyOTReceiver::exchange` (src/ot/one_of_many.rs:155-206). -/
def manyReceiver (X : Crypto) (inner : List Bool → Proc (List Bytes)) (choice domain : Nat) :
    Proc Bytes := do
  let choices ← manyChoices X.dbg choice domain
  let y ← recvP
  let messages ← inner choices
  let keys ← manyKeys X.dbg messages domain
  manyUnmask X keys choice domain y

end FP
