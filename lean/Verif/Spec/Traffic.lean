import Verif.Model.Legacy
import Verif.Model.Classic
import Mathlib.Data.Nat.Log
/-
What an observer of a connection can see without reading the messages: how many there are in each direction, and how
long they are.  The sizes below are given by formulas over public numbers only.
-/
namespace FP.Spec

/-- Whatever the peer delivers, the party sends messages of the sizes `sizes`, in this order.  It may stop early, because
it fails or waits for a message; if it ends with a result, it has sent them all. -/
def Traffic {α : Type} (p : Proc α) (sizes : List Nat) : Prop :=
  ∀ incoming : List Bytes,
    (p.against incoming).1.map List.length <+: sizes ∧
      ∀ a, (p.against incoming).2 = some (.ok a) → (p.against incoming).1.map List.length = sizes

/-- The same for a party that starts by waiting for a message: the sizes may depend on that message. -/
def TrafficAfter {α : Type} (p : Proc α) (sizes : Bytes → List Nat) : Prop :=
  (p.against []).1 = [] ∧ ∀ (first : Bytes) (incoming : List Bytes),
    (p.against (first :: incoming)).1.map List.length <+: sizes first ∧
      ∀ a, (p.against (first :: incoming)).2 = some (.ok a) → (p.against (first :: incoming)).1.map List.length = sizes first

/-! ### Transfers -/

/-- The receiver of a base transfer of `n` pairs: a greeting and `n` points. -/
def baseReceiverSizes (n : Nat) : List Nat := 28 :: List.replicate n 32

/-- The sender of a base transfer of `n` pairs of `total` bytes altogether: a greeting, `n` points, and the ciphertexts
with two lengths for each pair. -/
def baseSenderSizes (n total : Nat) : List Nat := 28 :: (List.replicate n 32 ++ [8 + 16 * n + total])

/-- The sender of an extended transfer of `n` pairs of strings of `s` bytes. -/
def extSenderSizes (n s : Nat) : List Nat := 23 :: 32 :: 2 :: (baseReceiverSizes 128 ++ [n * (s * 2)])

/-- The receiver of an extended transfer of `n` pairs. -/
def extReceiverSizes (n : Nat) : List Nat :=
  23 :: 32 :: 32 :: (baseSenderSizes 128 (128 * 64) ++ [128 * ((n + 256) / 8), 16, 16])

/-- The sender of the other implementation of the extended transfer; `n` pairs, of which the first strings have `a` bytes
altogether and the second strings `b` bytes. -/
def classicSenderSizes (n a b : Nat) : List Nat :=
  23 :: (baseReceiverSizes 128 ++ [32, 8 + 8 * n + a, 8 + 8 * n + b])

/-- The receiver of the other implementation. -/
def classicReceiverSizes (n : Nat) : List Nat :=
  23 :: (baseSenderSizes 128 (128 * 64) ++ [8 + 128 * (8 + (n + 192) / 8), 32, 32, 24, 24])

/-- The sender of a transfer of one of `2 ^ domain` strings of `len` bytes. -/
def manySenderSizes (domain len : Nat) : List Nat := 2 ^ domain * len :: baseSenderSizes domain (domain * 64)

/-! ### Garbled circuits -/

/-- A label on the wire: 32 bytes, a tag for the domain, and the domain itself if the tag does not determine it. -/
def labelSize (d : Nat) : Nat := if d = 2 ∨ d = 256 then 36 else if d < 255 then 37 else 38

/-- The kind of a gate. -/
def kindSize : GateKind → Nat
  | .add => 4
  | .mul _ => 6
  | .proj _ => 10
  | .and => 4

/-- A gate: its output, its domain, its inputs and its kind. -/
def gateSize (g : Gate) : Nat := 8 + 2 + (8 + 8 * g.inputs.length) + kindSize g.kind

/-- The table of a gate, with the number of the wire it belongs to. -/
def tableSize (g : Gate) : Nat :=
  match g.kind with
  | .proj p => 8 + 8 + g.domain * labelSize p.dom
  | .and => 8 + 2 * 36
  | _ => 0

/-- A garbled circuit. -/
def garbledSize (c : Circuit) : Nat :=
  (24 + 8 + (c.gates.map gateSize).sum + 8 + 2 * c.inputDomains.length) + (16 + (c.gates.map tableSize).sum)

/-- The projections of a circuit read single bits or produce single bits. -/
def BitProjections (c : Circuit) : Prop := ∀ g ∈ c.gates, ∀ p, g.kind = .proj p → g.domain = 2 ∨ p.dom = 2

/-- The garbled circuit of the key exchange for passwords of `n` bits, in which `k` strings are added: the circuit itself
(its header and inputs, the additions, the conversions, the sum, the comparison) and its tables (a pair of labels for each
conversion, and one label for each possible sum). -/
def thresholdSize (k n : Nat) : Nat :=
  (40 + 2 * (k * n) + n * (22 + 8 * k) + n * 36 + (22 + 8 * n) + 36) +
    (16 + n * (16 + 2 * labelSize (n % 65536 + 1)) + (16 + (n % 65536 + 1) * 36))

/-! ### Key exchanges -/

/-- The garbling party of a half of the key exchange; passwords of `len` bytes. -/
def halfGarblerSizes (len : Nat) : List Nat :=
  extSenderSizes (len * 8) 32 ++ [thresholdSize 2 (len * 8), 8 + len * 8 * 36]

/-- The evaluating party. -/
def halfEvaluatorSizes (len : Nat) : List Nat := extReceiverSizes (len * 8)

/-- The garbling server, third and second implementation; `count` passwords of `len` bytes. -/
def serverGarblerSizes (count len : Nat) : List Nat :=
  thresholdSize 3 (len * 8) :: (extSenderSizes (len * 8) 32 ++ (len * 8 * 32 :: (manySenderSizes (Nat.clog 2 count) len ++
    extSenderSizes (len * 8) 32)))

/-- The client that evaluates, third and second implementation. -/
def clientEvaluatorSizes (count len : Nat) : List Nat :=
  extReceiverSizes (len * 8) ++ (baseReceiverSizes (Nat.clog 2 count) ++ extReceiverSizes (len * 8))

/-- The client that garbles, third implementation. -/
def clientGarblerSizes (len : Nat) : List Nat :=
  thresholdSize 3 (len * 8) :: (8 + len * 8 * 36) :: (extSenderSizes (len * 8) 32 ++ [len * 8 * 32])

/-- The client that garbles, second implementation. -/
def clientGarblerSizes2 (count len : Nat) : List Nat :=
  thresholdSize 3 (len * 8) :: (8 + len * 8 * 36) :: (extSenderSizes (len * 8) 32 ++
    (baseReceiverSizes (Nat.clog 2 count) ++ [len * 8 * 32]))

/-- The server that evaluates, second implementation. -/
def serverEvaluatorSizes2 (count len : Nat) : List Nat :=
  extReceiverSizes (len * 8) ++ manySenderSizes (Nat.clog 2 count) len

/-- The garbling server, first implementation. -/
def serverGarblerSizes1 (count len : Nat) : List Nat :=
  thresholdSize 2 (len * 8) :: (extSenderSizes (len * 8) 32 ++ manySenderSizes (Nat.clog 2 count) (len * 8 * 32))

/-- The client that garbles, first implementation. -/
def clientGarblerSizes1 (count len : Nat) : List Nat :=
  thresholdSize 2 (len * 8) :: (8 + len * 8 * 36) :: extSenderSizes (count * (len * 8)) 32

end FP.Spec
