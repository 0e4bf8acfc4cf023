import Verif.Spec.Attack
import Verif.Model.Channel
/-
Memory safety of a party against an arbitrary peer.
-/
namespace FP.Spec

/-- Whatever messages the peer sends, the party never accesses memory out of bounds and never reads
uninitialised memory: it finishes, waits, returns an error or panics. -/
def MemorySafe {α : Type} (p : Proc α) : Prop :=
  ∀ inputs, (p.against inputs).2 ≠ some (.error .ub)

/-- The same unless one of the messages of the peer is of the kind `B`. -/
def MemorySafeUnless {α : Type} (B : Bytes → Prop) (p : Proc α) : Prop :=
  ∀ inputs, (p.against inputs).2 = some (.error .ub) → ∃ m ∈ inputs, B m

/-- The wires of which a gate reads the labels. -/
def gateReads (g : Gate) : List Nat :=
  match g.kind with
  | .add => g.inputs
  | .mul _ => g.inputs.take 1
  | .proj _ => g.inputs.take 1
  | .and => g.inputs.take 2

/-- Every gate reads only inputs of the circuit and outputs of gates before it, and every output of the
circuit is an input or the output of a gate. -/
def Ordered (c : Circuit) : Prop :=
  (∀ pre g post, c.gates = pre ++ g :: post →
    ∀ i ∈ gateReads g, i < c.numInputs ∨ ∃ g' ∈ pre, g'.output = i) ∧
  ∀ i, c.numWires - c.numOutputs ≤ i → i < c.numWires → i < c.numInputs ∨ ∃ g ∈ c.gates, g.output = i

/-- A message that is understood as a garbled circuit in which a gate comes before one whose output it
reads, or an output has no gate. -/
def DisorderlyCircuit (m : Bytes) : Prop := ∃ gc, deserializeGarbled m = .ok gc ∧ ¬ Ordered gc.circuit

/-- Whatever the scheduler does, the left party returns and the right one ends with the fault `e`. -/
def RightFaults {α β : Type} (p : Proc α) (q : Proc β) (e : Fault) : Prop :=
  ∃ n, ∀ m d, StepsN m (start p q) d → m ≤ n ∧ (Stuck d → (∃ a, d.left = .ret a) ∧ d.right = .fail e)

/-- A circuit with `n` inputs whose only gate reads its own output. -/
def selfReading (n : Nat) : Circuit := ⟨n + 1, n, 1, [⟨n, 2, [n], .add⟩], List.replicate n 2⟩

/-- A party that takes the place of the garbling party of `HalfKey` and sends this circuit. -/
def saboteur (ot : List (Bytes × Bytes) → Proc Unit) (n : Nat) (label : WireBytes) : Proc Unit := do
  ot (List.replicate n (label.toList, label.toList))
  sendP (serializeGarbled ⟨selfReading (2 * n), [], []⟩ [] [])
  sendP (Codec.wires.enc (List.replicate n ⟨.binary, label⟩))

/-- A party that takes the place of the garbling server of the second or third one-of-many exchange.  It
follows the messages, but the labels of the mask it sends are no bytes at all. -/
def shortServer (C : Curve) (X : Crypto) (s : OTSend) (many : ManySend) (s2 : OTSend) (len count : Nat) (label : WireBytes) :
    Proc Unit := do
  sendP (serializeGarbled ⟨firstInput (3 * (len * 8)), [], []⟩ [] [])
  s.run C X (List.replicate (len * 8) (label.toList, label.toList))
  sendP []
  let domain ← log2R X.dbg 64 count
  many.run C X (List.replicate count (List.replicate len 0)) domain
  s2.run C X (List.replicate (len * 8) (label.toList, label.toList))

/-- A party that takes the place of the garbling client of the third exchange; the labels it sends for the
masked password are no bytes at all. -/
def shortClient (C : Curve) (X : Crypto) (s : OTSend) (len : Nat) (label : WireBytes) : Proc Unit := do
  sendP (serializeGarbled ⟨firstInput (3 * (len * 8)), [], []⟩ [] [])
  sendP (Codec.wires.enc [])
  s.run C X (List.replicate (len * 8) (label.toList, label.toList))
  sendP []

/-- The same for the second exchange, in which the client also receives a masked password. -/
def shortClient2 (C : Curve) (X : Crypto) (s : OTSend) (many : Nat → Nat) (len count : Nat) (label : WireBytes) : Proc Unit := do
  sendP (serializeGarbled ⟨firstInput (3 * (len * 8)), [], []⟩ [] [])
  sendP (Codec.wires.enc [])
  s.run C X (List.replicate (len * 8) (label.toList, label.toList))
  let domain ← log2R X.dbg 32 count
  let _ ← manyRecv C X many 0 domain
  sendP []

/-- The saboteur in the place of the two-party program with `--server`. -/
def saboteurServer (C : Curve) (X : Crypto) (M : ChannelCrypto) (secret : M.Secret) (s : OTSend) (n : Nat) (label : WireBytes) :
    Proc Unit := do
  let key ← serverHandshake M secret
  (saboteur (s.run C X) n label).overAuth M key key

end FP.Spec
