import Verif.Spec.ManyFpake
/-
Parties that do not follow the protocol.  None of them is given a password; they use only what an
implementation of the protocol sends and receives.
-/
namespace FP.Spec

/-- Read the first row of the table of each of the `n` projection gates at the wires `b + n`, `b + n + 1`, …
and take the first one whose colour is not zero, multiplied by half of `D - 1`. -/
def leakedDelta (dbg : Bool) (b n D : Nat) (gc : GarbledCircuit) : R Wire := do
  let rows ← (List.range n).mapM fun i => do idxR (← gc.f.getR (b + n + i)) 0
  match rows.find? fun r => r.color != 0 with
  | some r => Wire.mul dbg r ((D - 1) / 2)
  | none => panicR

/-- The label to which the table of the gate with output `k` leads from a label of its input. -/
def tableValue (E : Env) (gc : GarbledCircuit) (k : Nat) (w : Wire) : R Wire := do
  let row ← idxR (← gc.f.getR k) w.color
  Wire.sub E.dbg row (← hashWire E k w row)

/-- Evaluate the circuit as if its last *two* wires were outputs, add every multiple of the leaked
difference to the label of the last but one, and evaluate the last gate on each of these labels. -/
def outputLabels (E : Env) (b n D : Nat) (gc : GarbledCircuit) (x : List Wire) : R (List Wire) := do
  let labels ← evaluate E { gc with circuit := { gc.circuit with numOutputs := 2 } } x
  let sum ← idxR labels 0
  let δ ← leakedDelta E.dbg b n D gc
  (List.range D).mapM fun k => do tableValue E gc (b + 2 * n + 1) (← Wire.add E.dbg sum (← Wire.mul E.dbg δ k))

/-- The keys that belong to these labels. -/
def stolenKeys (E : Env) (b n D : Nat) (gc : GarbledCircuit) (x : List Wire) : R (List WireBytes) := do
  return (← outputLabels E b n D gc x).map (hashOut E (b + 2 * n + 1) 1)

/-- Of these keys the one that occurs `t + 1` times. -/
def stolenKey (E : Env) (b n D t : Nat) (gc : GarbledCircuit) (x : List Wire) : R WireBytes := do
  let keys ← stolenKeys E b n D gc x
  match keys.find? fun k => keys.count k == t + 1 with
  | some k => return k
  | none => idxR keys 0

/-- The difference of the labels of a bit, from two different labels of the output.  With it, evaluate each of
the `n` projection gates on both labels of its input: the difference of the results is the leaked
difference or its negative, and this tells which label stands for 0. -/
def readBits (E : Env) (b n D : Nat) (gc : GarbledCircuit) (x : List Wire) : R (List Bool) := do
  let outs ← outputLabels E b n D gc x
  let o ← idxR outs 0
  let δ2 ← match outs.find? fun w => w != o with
    | some w => Wire.sub E.dbg w o
    | none => panicR
  let δ ← leakedDelta E.dbg b n D gc
  let wires ← evaluate E { gc with circuit := { gc.circuit with numOutputs := 2 * n + 2 } } x
  (List.range n).mapM fun i => do
    let w ← idxR wires i
    let here ← tableValue E gc (b + n + i) w
    let there ← tableValue E gc (b + n + i) (← Wire.add E.dbg w δ2)
    return (← Wire.sub E.dbg there here) != δ

/-- A party that takes the place of the evaluating party of `HalfKey`.  It knows the number of bits of the
password; in the oblivious transfer it chooses zeros.  It computes something from the garbled circuit
and the labels of the inputs. -/
def spy {α : Type} (E : Env) (ot : List Bool → Proc (List Bytes)) (n : Nat) (goal : GarbledCircuit → List Wire → R α) : Proc α := do
  let encPassword ← ot (List.replicate n false)
  let ourPassword ← labelsOf E.dbg encPassword
  let gc ← deserializeGarbled (← recvP)
  let theirPassword ← Codec.wires.deserialize (← recvP)
  goal gc (theirPassword ++ ourPassword)

/-- The party that computes the key of the garbling party; it also knows the threshold. -/
def thief (E : Env) (ot : List Bool → Proc (List Bytes)) (n t : Nat) : Proc WireBytes :=
  spy E ot n (stolenKey E (2 * n) n (n + 1) t)

/-- The party that in addition computes the bits of the password of the garbling party. -/
def reader (E : Env) (ot : List Bool → Proc (List Bytes)) (n t : Nat) : Proc (WireBytes × List Bool) :=
  spy E ot n fun gc x => do
    return (← stolenKey E (2 * n) n (n + 1) t gc x, ← readBits E (2 * n) n (n + 1) gc x)

/-- A circuit with `n` inputs whose output is its first input. -/
def firstInput (n : Nat) : Circuit := ⟨n + 1, n, 1, [⟨n, 2, [0], .add⟩], List.replicate n 2⟩

/-- A party that takes the place of the garbling party of `HalfKey`: it sends a circuit of its own, with the
same label for all wires. -/
def forger (E : Env) (ot : List (Bytes × Bytes) → Proc Unit) (n : Nat) (label : WireBytes) : Proc WireBytes := do
  ot (List.replicate n (label.toList, label.toList))
  sendP (serializeGarbled ⟨firstInput (2 * n), [], []⟩ [] [])
  sendP (Codec.wires.enc (List.replicate n ⟨.binary, label⟩))
  return hashOut E (2 * n) 1 ⟨.binary, label⟩

/-- A party that takes the place of the second party of the key exchange. -/
def impostor (C : Curve) (X : Crypto) (s : OTSend) (r : OTRecv) (n t : Nat) (label : WireBytes) : Proc WireBytes := do
  let k1 ← thief X.toEnv (r.run C X) n t
  let k2 ← forger X.toEnv (s.run C X) n label
  return combine k1 k2

/-- A party that takes the place of the first party of the key exchange. -/
def impostorFirst (C : Curve) (X : Crypto) (s : OTSend) (r : OTRecv) (n t : Nat) (label : WireBytes) : Proc WireBytes := do
  let k2 ← forger X.toEnv (s.run C X) n label
  let k1 ← thief X.toEnv (r.run C X) n t
  return combine k1 k2

/-- For some of the first `n` inputs, the labels drawn for it and for the corresponding input of the other
party agree in the lowest bit of their last byte.  Of `2 ^ n` equally likely patterns, one does not have
this property. -/
def SomeColourAgrees (rnd : GarbleRand) (n : Nat) : Prop :=
  ∃ i < n, (rnd.input i)[31].toNat % 2 = (rnd.input (n + i))[31].toNat % 2

/-- The bits of a byte string, from the lowest of the first byte on. -/
def bitsOf (p : Bytes) : List Bool := (List.range (8 * p.length)).map (bitAt p)

/-- The party in the place of the second party, which in addition learns a password. -/
def burglar (C : Curve) (X : Crypto) (s : OTSend) (r : OTRecv) (n t : Nat) (label : WireBytes) :
    Proc (WireBytes × List Bool) := do
  let (k1, bits) ← reader X.toEnv (r.run C X) n t
  let k2 ← forger X.toEnv (s.run C X) n label
  return (combine k1 k2, bits)

/-- The party in the place of the first party. -/
def burglarFirst (C : Curve) (X : Crypto) (s : OTSend) (r : OTRecv) (n t : Nat) (label : WireBytes) :
    Proc (WireBytes × List Bool) := do
  let k2 ← forger X.toEnv (s.run C X) n label
  let (k1, bits) ← reader X.toEnv (r.run C X) n t
  return (combine k1 k2, bits)

/-- A client of the fourth one-of-many implementation that holds an index but no password. -/
def burglarSingle (C : Curve) (X : Crypto) (many : Nat → Nat) (s : OTSend) (r : OTRecv) (n index number t : Nat)
    (label : WireBytes) : Proc (WireBytes × List Bool) := do
  let domain ← log2R X.dbg 32 number
  let masked ← manyRecv C X many index domain
  let (k1, mask) ← reader X.toEnv (r.run C X) n t
  let k2 ← forger X.toEnv (s.run C X) n label
  return (combine k1 k2, List.zipWith xor (bitsOf masked) mask)

/-- A server of the fourth one-of-many implementation that holds no passwords: in their place it sends
zeros. -/
def fakeServer (C : Curve) (X : Crypto) (many : ManySend) (s : OTSend) (r : OTRecv) (len number t : Nat)
    (label : WireBytes) : Proc (WireBytes × List Bool) := do
  let domain ← log2R X.dbg 64 number
  many.run C X (List.replicate number (List.replicate len 0)) domain
  let k1 ← forger X.toEnv (s.run C X) (8 * len) label
  let (k2, bits) ← reader X.toEnv (r.run C X) (8 * len) t
  return (combine k1 k2, bits)

/-- A client of the third one-of-many implementation that holds an index but no password, in the half in
which the server garbles. -/
def readerV3 (C : Curve) (X : Crypto) (r : ClientDraws) (len number index t : Nat) : Proc (WireBytes × List Bool) := do
  let n := 8 * len
  let gc ← deserializeGarbled (← recvP)
  let clientEncoding ← r.ot.run C X (List.replicate n false)
  let encodedMask ← recvP
  let domain ← log2R X.dbg 32 number
  let masked ← manyRecv C X r.many index domain
  let maskedEncoding ← r.ot2.run C X (bitsOf masked)
  let client ← payloadToEncoding X.dbg clientEncoding n
  let mask ← bytesToEncoding X.dbg encodedMask n 32
  let server ← payloadToEncoding X.dbg maskedEncoding n
  let x := client ++ mask ++ server
  return (← stolenKey X.toEnv (3 * n) n (n + 1) t gc x, ← readBits X.toEnv (3 * n) n (n + 1) gc x)

/-- The same client in the half in which it garbles. -/
def forgerV3 (C : Curve) (X : Crypto) (s : OTSend) (n : Nat) (label : WireBytes) : Proc WireBytes := do
  sendP (serializeGarbled ⟨firstInput (3 * n), [], []⟩ [] [])
  sendP (Codec.wires.enc (List.replicate n ⟨.binary, label⟩))
  s.run C X (List.replicate n (label.toList, label.toList))
  sendP ((List.replicate n label.toList).flatten)
  return hashOut X.toEnv (3 * n) 1 ⟨.binary, label⟩

/-- A server of the third implementation that holds no passwords, in the half in which it garbles. -/
def forgerServerV3 (C : Curve) (X : Crypto) (s : OTSend) (many : ManySend) (s2 : OTSend) (len number : Nat)
    (label : WireBytes) : Proc WireBytes := do
  let n := 8 * len
  sendP (serializeGarbled ⟨firstInput (3 * n), [], []⟩ [] [])
  s.run C X (List.replicate n (label.toList, label.toList))
  sendP ((List.replicate n label.toList).flatten)
  let domain ← log2R X.dbg 64 number
  many.run C X (List.replicate number (List.replicate len 0)) domain
  s2.run C X (List.replicate n (label.toList, label.toList))
  return hashOut X.toEnv (3 * n) 1 ⟨.binary, label⟩

/-- The same server in the half in which the client garbles. -/
def readerServerV3 (C : Curve) (X : Crypto) (r : OTRecv) (n t : Nat) : Proc (WireBytes × List Bool) := do
  let gc ← deserializeGarbled (← recvP)
  let client ← Codec.wires.deserialize (← recvP)
  let encodedMask ← r.run C X (List.replicate n false)
  let serverEncoded ← recvP
  let mask ← payloadToEncoding X.dbg encodedMask n
  let server ← bytesToEncoding X.dbg serverEncoded n 32
  let x := server ++ mask ++ client
  return (← stolenKey X.toEnv (3 * n) n (n + 1) t gc x, ← readBits X.toEnv (3 * n) n (n + 1) gc x)

/-- For some of the first `n` inputs, the labels drawn for it and for the corresponding inputs of the other
two blocks have in the lowest bits of their last bytes an even number of ones. -/
def SomeColourEven (rnd : GarbleRand) (n : Nat) : Prop :=
  ∃ i < n, ((rnd.input i)[31].toNat + (rnd.input (n + i))[31].toNat + (rnd.input (2 * n + i))[31].toNat) % 2 = 0

end FP.Spec
