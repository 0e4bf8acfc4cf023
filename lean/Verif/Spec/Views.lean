import Verif.Spec.Encoded
import Verif.Spec.Curious
/-
What an evaluating party of the key exchange holds at the end.
-/
namespace FP.Spec

/-- Everything an evaluating party holds at the end: the garbled circuit, the labels of the other party's password, the
labels of its own, and the half key. -/
structure Held where
  gc : GarbledCircuit
  theirs : List Wire
  ours : List Wire
  key : WireBytes

/-- `HalfKey::evaluator`, step by step, with everything the party holds at the end as its result. -/
def recorder (E : Env) (ot : List Bool → Proc (List Bytes)) (password : Bytes) : Proc Held := do
  let password := u8VecToBoolVec password
  let encPassword ← ot password
  let ourPassword ← labelsOf E.dbg encPassword
  let gc ← deserializeGarbled (← recvP)
  let theirPassword ← Codec.wires.deserialize (← recvP)
  let key ← evaluatedKey E gc (theirPassword ++ ourPassword)
  return ⟨gc, theirPassword, ourPassword, key⟩

/-- Random choices for garbling the circuit the key exchange uses for passwords of `len` bytes, as `Wire::new` makes
them: the two parties' bits are the inputs, `2 * 8 * len` of them. -/
def DrawnBits (len : Nat) (r : GarbleRand) : Prop :=
  ∀ i, i < 16 * len → ∃ d, Wire.new 2 (r.input i) = .ok ⟨d, r.input i⟩

/-- Pairs of messages, in the other order where `bits` says so. -/
def swapWhere (bits : List Bool) (msgs : List (Bytes × Bytes)) : List (Bytes × Bytes) :=
  List.zipWith (fun (b : Bool) m => if b then (m.2, m.1) else m) bits msgs

end FP.Spec
