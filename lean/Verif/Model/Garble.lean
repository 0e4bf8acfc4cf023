import Verif.Model.Wire
import Verif.Model.Circuit
/-
Model of src/garble.rs.
-/
namespace FP

/-- `struct EncodingKey` (src/garble.rs:18-21). -/
structure EncodingKey where
  wires : List Wire
  delta : HMap Nat Wire

/-- `struct BinaryEncodingKey` (src/garble.rs:24). -/
structure BinaryEncodingKey where
  zeros : List Wire
  ones : List Wire

/-- `EncodingKey::encode` (src/garble.rs:27-42) and the free function `encode`
(src/garble.rs:354-369), which have the same body. -/
def EncodingKey.encode (dbg : Bool) (e : EncodingKey) (x : List Nat) : R (List Wire) := do
  debugAssertR dbg (e.wires.length = x.length)
  (e.wires.zip x).mapM fun (wire, x) => do
    Wire.add dbg wire (← Wire.mul dbg (← e.delta.getR wire.dom) x)

/-- `From<EncodingKey> for BinaryEncodingKey` (src/garble.rs:45-54). -/
def BinaryEncodingKey.ofKey (dbg : Bool) (key : EncodingKey) : R BinaryEncodingKey := do
  assertR (key.wires.all fun w => w.dom == 2)
  let delta ← key.delta.getR 2
  let ones ← key.wires.mapM fun w => Wire.add dbg w delta
  return ⟨key.wires, ones⟩

/-- `From<BinaryEncodingKey> for EncodingKey` (src/garble.rs:56-64). -/
def BinaryEncodingKey.toKey (dbg : Bool) (key : BinaryEncodingKey) : R EncodingKey := do
  let d ← Wire.add dbg (← idxR key.zeros 0) (← idxR key.ones 0)
  return ⟨key.zeros, HMap.insert [] 2 d⟩

/-- `BinaryEncodingKey::encode` (src/garble.rs:67-79). -/
def BinaryEncodingKey.encode (key : BinaryEncodingKey) (bits : List Bool) : R (List Wire) := do
  assertR (bits.length == key.zeros.length)
  bits.zipIdx.mapM fun (bit, i) => if bit then idxR key.ones i else idxR key.zeros i

/-- `BinaryEncodingKey::zipped` (src/garble.rs:81-87). -/
def BinaryEncodingKey.zipped (key : BinaryEncodingKey) : R (List (Wire × Wire)) :=
  (List.range key.zeros.length).mapM fun i => do return (← idxR key.zeros i, ← idxR key.ones i)

/-- `BinaryEncodingKey::unzipped` (src/garble.rs:89-95). -/
def BinaryEncodingKey.unzipped (z : List (Wire × Wire)) : BinaryEncodingKey :=
  ⟨z.unzip.1, z.unzip.2⟩

/-- `struct DecodingKey` (src/garble.rs:99-102). -/
structure DecodingKey where
  hashes : List (List WireBytes)
  offset : Nat

/-- The search `for k in 0..z.domain()` (src/garble.rs:123-130): first matching `k` of the
candidates `ks`, `none` when there is none. -/
def decodeSearch (E : Env) (output : Nat) (z : Wire) (hashes : List WireBytes) :
    List Nat → R (Option Nat)
  | [] => .ok none
  | k :: ks => do
    if hashOut E output k z = (← idxR hashes k) then return some k
    else decodeSearch E output z hashes ks

/-- Decoding of one wire, body of the loop at src/garble.rs:118-135. -/
def decodeOne (E : Env) (d : DecodingKey) (p : Wire × Nat) : R Nat := do
  match ← decodeSearch E (d.offset + p.2) p.1 (← idxR d.hashes p.2) (List.range p.1.dom) with
  | some k => return k
  | none => errR .decode

/-- `DecodingKey::decode` (src/garble.rs:116-138). -/
def DecodingKey.decode (E : Env) (d : DecodingKey) (z : List Wire) : R (List Nat) :=
  z.zipIdx.mapM (decodeOne E d)

/-- The free function `decode` (src/garble.rs:371-394): the result vector has one entry per
*hash list*, preset to 0. -/
def decodeFn (E : Env) (d : DecodingKey) (z : List Wire) : R (List Nat) :=
  z.zipIdx.foldlM (fun y p => do setR y p.2 (← decodeOne E d p))
    (List.replicate d.hashes.length 0)

/-- `struct GarbledCircuit` (src/garble.rs:289-293). -/
structure GarbledCircuit where
  circuit : Circuit
  f : HMap Nat (List Wire)
  fHalf : HMap Nat (Wire × Wire)

/-- The random choices of `garble`: the raw bytes behind `Wire::delta(domain)` for each domain
and behind `Wire::new(domain)` for each input (src/garble.rs:153, 160, 166 and 175, src/wires.rs:194-234). -/
structure GarbleRand where
  delta : Nat → WireBytes
  input : Nat → WireBytes

/-- `map.entry(k).or_insert_with(|| Wire::delta(k))` (src/garble.rs:151-153). -/
def ensureDelta (rnd : GarbleRand) (m : HMap Nat Wire) (k : Nat) : R (HMap Nat Wire) := do
  match List.lookup k m with
  | some _ => return m
  | none => return m.insert k (← Wire.delta k (rnd.delta k))

/-- Step 1 of `garble` (src/garble.rs:149-170). -/
def garbleDeltas (rnd : GarbleRand) (c : Circuit) : R (HMap Nat Wire) :=
  c.gates.foldlM (fun m g => do
    let m ← ensureDelta rnd m g.domain
    match g.kind with
    | .proj p => ensureDelta rnd m p.dom
    | _ => return m) []

/-- Loop state of step 4 of `garble` (src/garble.rs:185-190).  The counters `j0` and `j1` are
always equal and are one field. -/
structure GarbleState where
  wires : List Wire
  f : HMap Nat (List Wire)
  fHalf : HMap Nat (Wire × Wire)
  d : List (List WireBytes)
  j : Nat

/-- `Wire::from_array(hash!(w, j.to_be_bytes()), Domain::Binary)` (src/garble.rs:236). -/
def hashHalf (E : Env) (w : Wire) (j : Nat) : Wire :=
  ⟨.binary, E.sha256 (w.bytes ++ beBytes 8 j)⟩

/-- The projection case (src/garble.rs:197-225): the new zero label and the table.
`g[(x + color) % domain] = ciphertext` is done for each `x` in order, starting from a vector
of `gate.domain` empty wires. -/
def garbleProj (E : Env) (delta : HMap Nat Wire) (wires : List Wire) (g : Gate) (p : ProjKind) :
    R (Wire × List Wire) := do
  let range := p.dom
  let win ← idxR wires (← idxR g.inputs 0)
  let color := win.color
  let deltaM ← delta.getR g.domain
  let deltaN ← delta.getR range
  let hashed ← hashWire E g.output (← Wire.sub E.dbg win (← Wire.mul E.dbg deltaM color)) deltaN
  let w ← Wire.add E.dbg hashed
    (← Wire.mul E.dbg deltaN (← p.project (← subR E.dbg 65536 g.domain color)))
  let w ← Wire.neg E.dbg w
  let tbl ← (List.range g.domain).foldlM (fun tbl x => do
      let hashed ← hashWire E g.output
        (← Wire.add E.dbg win (← Wire.mul E.dbg deltaM x)) w
      let cipher ← Wire.add E.dbg (← Wire.add E.dbg hashed w)
        (← Wire.mul E.dbg deltaN (← p.project x))
      setR tbl (← remR (← addR E.dbg 65536 x color) g.domain) cipher)
    (List.replicate g.domain Wire.empty)
  return (w, tbl)

/-- The half-gates case (src/garble.rs:226-253); `j` is the counter after the increment. -/
def garbleAnd (E : Env) (delta : HMap Nat Wire) (wires : List Wire) (g : Gate) (j : Nat) :
    R (Wire × (Wire × Wire)) := do
  let dlt ← delta.getR 2
  let wa ← idxR wires (← idxR g.inputs 0)
  let wb ← idxR wires (← idxR g.inputs 1)
  let pa := wa.color ≠ 0
  let pb := wb.color ≠ 0
  let tg ← Wire.add E.dbg (hashHalf E wa j) (hashHalf E (← Wire.add E.dbg wa dlt) j)
  let tg ← if pb then Wire.add E.dbg tg dlt else pure tg
  let wg := hashHalf E wa j
  let wg ← if pa then Wire.add E.dbg wg tg else pure wg
  let te ← Wire.add E.dbg (hashHalf E wb j) (hashHalf E (← Wire.add E.dbg wb dlt) j)
  let te ← Wire.add E.dbg te wa
  let we := hashHalf E wb j
  let we ← if pb then Wire.add E.dbg we (← Wire.add E.dbg te wa) else pure we
  return (← Wire.add E.dbg wg we, (tg, te))

/-- The `match &gate.kind` of step 4 followed by `wires.push(wire)` (src/garble.rs:192-255). -/
def garbleGate (E : Env) (delta : HMap Nat Wire) (s : GarbleState) (g : Gate) :
    R GarbleState := do
  match g.kind with
  | .add =>
    let w ← Wire.sum E.dbg (← g.inputs.mapM (idxR s.wires))
    return { s with wires := s.wires ++ [w] }
  | .mul c =>
    let w ← Wire.mul E.dbg (← idxR s.wires (← idxR g.inputs 0)) c
    return { s with wires := s.wires ++ [w] }
  | .proj p =>
    let (w, tbl) ← garbleProj E delta s.wires g p
    return { s with wires := s.wires ++ [w], f := s.f.insert g.output tbl }
  | .and =>
    let (w, t) ← garbleAnd E delta s.wires g (s.j + 1)
    return { s with wires := s.wires ++ [w], fHalf := s.fHalf.insert g.output t, j := s.j + 1 }

/-- Step 5 of `garble` (src/garble.rs:257-271): decoding information for an output gate. -/
def garbleDecoding (E : Env) (delta : HMap Nat Wire) (outputsStartAt : Nat) (s : GarbleState)
    (g : Gate) : R GarbleState := do
  if outputsStartAt ≤ g.output then
    let values ← (List.range g.outputDomain).mapM fun x => do
      return hashOut E g.output x
        (← Wire.add E.dbg (← idxR s.wires g.output)
          (← Wire.mul E.dbg (← delta.getR g.outputDomain) x))
    return { s with d := s.d ++ [values] }
  else return s

/-- Everything `garble` computes: the loop state after the last gate (in particular the zero
labels of all wires, which the Rust function drops), the deltas, and the start of the
outputs (src/garble.rs:173-190 and 274-283). -/
structure GarbleRun where
  state : GarbleState
  delta : HMap Nat Wire
  encWires : List Wire
  outputsStartAt : Nat

/-- The body of `garble` (src/garble.rs:147-272).  `circuit.num_wires - circuit.num_outputs` is
a `usize` subtraction; in a release build it wraps mod `2^64`. -/
def garbleRun (E : Env) (rnd : GarbleRand) (c : Circuit) : R GarbleRun := do
  let delta ← garbleDeltas rnd c
  let wires ← c.inputDomains.zipIdx.mapM fun (domain, i) => Wire.new domain (rnd.input i)
  let encWires ← sliceR wires 0 c.numInputs
  let outputsStartAt ← subR E.dbg (2 ^ 64) c.numWires c.numOutputs
  let s ← c.gates.foldlM (fun s g => do
      garbleDecoding E delta outputsStartAt (← garbleGate E delta s g) g)
    (⟨wires, [], [], [], 0⟩ : GarbleState)
  return ⟨s, delta, encWires, outputsStartAt⟩

/-- `garble` (src/garble.rs:147-286): the returned triple (src/garble.rs:274-285). -/
def garble (E : Env) (rnd : GarbleRand) (c : Circuit) :
    R (GarbledCircuit × EncodingKey × DecodingKey) := do
  let r ← garbleRun E rnd c
  return (⟨c, r.state.f, r.state.fHalf⟩, ⟨r.encWires, r.delta⟩, ⟨r.state.d, r.outputsStartAt⟩)

/-- `wires[i].assume_init_ref()`: out of range panics, uninitialised is undefined behaviour
(src/garble.rs:316-330). -/
def readInit (wires : List (Option Wire)) (i : Nat) : R Wire := do
  match ← idxR wires i with
  | some w => return w
  | none => ubR

/-- One gate of `evaluate` (src/garble.rs:312-346); `j` is the counter before the gate. -/
def evalGate (E : Env) (gc : GarbledCircuit) (wires : List (Option Wire)) (j : Nat) (g : Gate) :
    R (Wire × Nat) := do
  match g.kind with
  | .add => return (← Wire.sum E.dbg (← g.inputs.mapM (readInit wires)), j)
  | .mul c => return (← Wire.mul E.dbg (← readInit wires (← idxR g.inputs 0)) c, j)
  | .proj _ =>
    let wire ← readInit wires (← idxR g.inputs 0)
    let cipher ← idxR (← gc.f.getR g.output) wire.color
    let hw ← hashWire E g.output wire cipher
    return (← Wire.sub E.dbg cipher hw, j)
  | .and =>
    let wa ← readInit wires (← idxR g.inputs 0)
    let wb ← readInit wires (← idxR g.inputs 1)
    let (tg, te) ← gc.fHalf.getR g.output
    let wg := hashHalf E wa (j + 1)
    let wg ← if wa.color ≠ 0 then Wire.add E.dbg wg tg else pure wg
    let we := hashHalf E wb (j + 1)
    let we ← if wb.color ≠ 0 then Wire.add E.dbg we (← Wire.add E.dbg te wa) else pure we
    return (← Wire.add E.dbg wg we, j + 1)

/-- `evaluate` (src/garble.rs:295-352).  Memory is `MaybeUninit`; returning an uninitialised
output is undefined behaviour. -/
def evaluate (E : Env) (gc : GarbledCircuit) (x : List Wire) : R (List Wire) := do
  let c := gc.circuit
  debugAssertR E.dbg (x.length = c.numInputs)
  let wires ← (List.range c.numInputs).foldlM
    (fun w i => do setR w i (some (← idxR x i))) (List.replicate c.numWires none)
  let (wires, _) ← c.gates.foldlM (fun (s : List (Option Wire) × Nat) g => do
      let (w, j) ← evalGate E gc s.1 s.2 g
      return (← setR s.1 g.output (some w), j)) (wires, 0)
  let out ← sliceR wires (← subR E.dbg (2 ^ 64) c.numWires c.numOutputs) c.numWires
  out.mapM fun w => match w with
    | some w => pure w
    | none => ubR

end FP
