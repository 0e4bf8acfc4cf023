import Verif.Spec.Bits
import Verif.Spec.Workers
import Verif.Spec.Run
import Verif.Spec.Garble
import Verif.Model.Fpake
/-
What password authenticated key exchange is supposed to achieve.
-/
namespace FP.Spec

/-- The number of bits in which two passwords differ. -/
def bitDistance (p q : Bytes) : Nat :=
  (List.range (8 * p.length)).countP fun i => bitAt p i != bitAt q i

/-- Password lengths in bytes for which label arithmetic modulo `8 * len + 1` is implemented
correctly. -/
def GoodLength (len : Nat) : Prop := (0 < len ∧ len ≤ 15) ∨ (32 ≤ len ∧ len ≤ 4095)

instance (len : Nat) : Decidable (GoodLength len) := inferInstanceAs (Decidable (_ ∨ _))

/-- Draws of an OT sender that can occur: at least one core, and every worker runs once. -/
structure _root_.FP.OTSend.Valid (o : OTSend) : Prop where
  cores : 0 < o.cores
  sched : ∀ m, IsOrder m (o.sched m)

/-- The same for an OT receiver. -/
structure _root_.FP.OTRecv.Valid (o : OTRecv) : Prop where
  cores : 0 < o.cores
  sched1 : ∀ m, IsOrder m (o.sched1 m)
  sched2 : ∀ m, IsOrder m (o.sched2 m)

/-- Iteration orders that visit every entry of a map exactly once. -/
structure _root_.FP.MapOrder.Valid (ord : MapOrder) : Prop where
  f : ∀ m, IsIteration m (ord.f m)
  h : ∀ m, IsIteration m (ord.h m)

/-- Draws of a garbling party that can occur. -/
structure _root_.FP.GarblerDraws.Valid (g : GarblerDraws) : Prop where
  ord : g.ord.Valid
  ot : g.ot.Valid

/-- Garbling the given circuit with these draws gives output labels on which the hash of the output
decoding has no collision. -/
def NoOutputCollision (E : Env) (rnd : GarbleRand) (circuit : R Circuit) : Prop :=
  ∀ c run, circuit = .ok c → garbleRun E rnd c = .ok run → NoCollision E run

/-- The full statement of C29 for passwords of one length and one threshold. -/
def HalfKeysOK (C : Curve) (len t : Nat) : Prop :=
  ∀ (X : Crypto) (g : GarblerDraws) (o : OTRecv), g.Valid → o.Valid → ∀ p q : Bytes, p.length = len → q.length = len →
    ∃ k k', Completes (HalfKey.garbler C X g p t) (HalfKey.evaluator C X o q) k k' ∧
      (bitDistance p q ≤ t → k = k') ∧
      (t < bitDistance p q → NoOutputCollision X.toEnv g.rnd (buildCircuit X.dbg (8 * len) t) → k ≠ k')

/-- The full statement of C30 for passwords of one length and two thresholds. -/
def SameKeyOK (C : Curve) (len t1 t2 : Nat) : Prop :=
  ∀ (X : Crypto) (g1 g2 : GarblerDraws) (o1 o2 : OTRecv), g1.Valid → g2.Valid → o1.Valid → o2.Valid →
    ∀ p q : Bytes, p.length = len → q.length = len → bitDistance p q ≤ t1 → bitDistance p q ≤ t2 →
    ∃ key, Completes (fpakeFirst C X g1 o1 p t1) (fpakeSecond C X o2 g2 q t2) key key

end FP.Spec
