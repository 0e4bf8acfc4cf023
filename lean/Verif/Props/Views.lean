import Verif.Proof.ViewsHalf
import Verif.Proof.Witness
/-
C91: exactly what a half of the key exchange says about the passwords.
-/
namespace FP.Props
open FP.Spec

/-- The recording party is the party of the protocol: forgetting what it has recorded leaves the same program. -/
theorem C91_same_messages (E : Env) (ot : List Bool → Proc (List Bytes)) (q : Bytes) :
    (do let v ← recorder E ot q
        return v.key) = halfEvaluator E ot q := by
  unfold recorder halfEvaluator
  simp [bindP_assoc, bindP_pure]

/-- A half of the key exchange says nothing about the passwords but in which bits they differ.  For two pairs of passwords
with the same differences there is a one-to-one correspondence between the garbler's random choices under which the garbler
ends with the same half key and the evaluator with the same garbled circuit, the same labels and the same half key.  What
the evaluator gets of the oblivious transfer here is its result. -/
theorem C91_half (C : Curve) (X : Crypto) (g : GarblerDraws) (o : OTRecv) (hg : g.Valid) (ho : o.Valid) (len t : Nat)
    (hlen : GoodLength len) (ht : t < 65535) :
    ∃ Φ : Bytes × Bytes → Bytes × Bytes → GarbleRand → GarbleRand, ∀ p q p' q' : Bytes, p.length = len → q.length = len →
      p'.length = len → q'.length = len → xorBits (bitsOf p) (bitsOf q) = xorBits (bitsOf p') (bitsOf q') →
      ∀ r, DrawnBits len r → DrawnBits len (Φ (p, q) (p', q') r) ∧ Φ (p', q') (p, q) (Φ (p, q) (p', q') r) = r ∧
        (Φ (p, q) (p', q') r).delta = r.delta ∧
        ∃ k v, Completes (HalfKey.garbler C X { g with rnd := r } p t) (recorder X.toEnv (o.run C X) q) k v ∧
          Completes (HalfKey.garbler C X { g with rnd := Φ (p, q) (p', q') r } p' t) (recorder X.toEnv (o.run C X) q') k v := by
  obtain ⟨h1, h2, h3⟩ := goodLength hlen
  have hc := thr_typedD (n := 8 * len) (T := t + 1) (by omega) good2 h3
  refine ⟨fun a b => otherDraws (thrCircuit (8 * len) (8 * len + 1) (t + 1)) (bitsNat (bitsOf a.1 ++ bitsOf a.2))
    (bitsNat (bitsOf b.1 ++ bitsOf b.2)), ?_⟩
  intro p q p' q' e1 e2 e3 e4 hx r hr
  have hin : ∀ a b : Bytes, a.length = len → b.length = len →
      InputOK (thrCircuit (8 * len) (8 * len + 1) (t + 1)) (bitsNat (bitsOf a ++ bitsOf b)) := by
    intro a b ha hb
    obtain ⟨_, _, _, _, _, _, _, _, _, _, _, _, _, _, henc⟩ := half_detail X.toEnv r hc
      (by intro d hd; exact (List.mem_replicate.mp hd).2) (by show 0 < 8 * len * 2; omega) rfl (thr_last _ _ _)
    exact (henc (bitsOf a ++ bitsOf b) (by simp [bitsOf, ha, hb]; show 8 * len + 8 * len = 8 * len * 2; omega)).1
  rw [← drawn_bits (n := 8 * len) (D := 8 * len + 1) (T := t + 1) rfl] at hr ⊢
  refine ⟨otherDraws_drawn hc (hin p' q' e3 e4) r, otherDraws_back hc (hin p q e1 e2) (hin p' q' e3 e4) hr, rfl, ?_⟩
  subst e1
  obtain ⟨k, v, a1, a2⟩ := recorder_other X.toEnv r g.ord hg.ord p q p' q' t (8 * p.length) _ _ rfl e2 e3 e4 h1 (by omega)
    (buildCircuit_ok X.dbg h2 ht) h3 (by omega)
    (ot_correct C X hg.ot ho (n := 8 * p.length) (by omega) (by omega) (by omega)) hx
  exact ⟨k, v, a1.completes, a2.completes⟩

example := C91_half Witness.curve (Witness.crypto true) Witness.g Witness.recv (by meets) (by meets) 2 1 (by meets) (by meets)

example : xorBits (bitsOf [3, 4]) (bitsOf [1, 4]) = xorBits (bitsOf [0x53, 0xff]) (bitsOf [0x51, 0xff]) := by decide

/-- And that much it does say: two pairs of passwords can leave the evaluator with the same things exactly if they differ in
the same places. -/
theorem C91_half_exact (C : Curve) (X : Crypto) (g : GarblerDraws) (o : OTRecv) (hg : g.Valid) (ho : o.Valid) (len t : Nat)
    (hlen : GoodLength len) (ht : t < 65535) (r : GarbleRand) (hr : DrawnBits len r) (p q p' q' : Bytes) (hp : p.length = len)
    (hq : q.length = len) (hp' : p'.length = len) (hq' : q'.length = len) :
    (∃ r' k k' v, DrawnBits len r' ∧
      Completes (HalfKey.garbler C X { g with rnd := r } p t) (recorder X.toEnv (o.run C X) q) k v ∧
      Completes (HalfKey.garbler C X { g with rnd := r' } p' t) (recorder X.toEnv (o.run C X) q') k' v) ↔
    xorBits (bitsOf p) (bitsOf q) = xorBits (bitsOf p') (bitsOf q') := by
  constructor
  · rintro ⟨r', k, k', v, -, h1, h2⟩
    rw [recorder_reads C X (g := { g with rnd := r }) ⟨hg.ord, hg.ot⟩ ho (by rw [hp]; exact hlen) (by omega) ht h1,
      recorder_reads C X (g := { g with rnd := r' }) ⟨hg.ord, hg.ot⟩ ho (by rw [hp']; exact hlen) (by omega) ht h2, hp, hp']
  · intro h
    obtain ⟨Φ, hΦ⟩ := C91_half C X g o hg ho len t hlen ht
    obtain ⟨h1, -, -, k, v, h2, h3⟩ := hΦ p q p' q' hp hq hp' hq' h r hr
    exact ⟨_, k, k, v, h1, h2, h3⟩

theorem rand_drawn (len : Nat) : DrawnBits len Witness.rand := fun _ _ => ⟨_, rfl⟩

example := C91_half_exact Witness.curve (Witness.crypto true) Witness.g Witness.recv (by meets) (by meets) 2 1 (by meets)
    (by meets) Witness.rand (rand_drawn 2) [3, 4] [1, 4] [0x53, 0xff] [0x51, 0xff] rfl rfl rfl rfl

/-- The garbling party's password is in nothing but the order of the pairs it puts into the oblivious transfer: for two
passwords there is a one-to-one correspondence between its random choices under which the party with the one password is
the party with the other, except that the pairs at the bits where the passwords differ are in the other order.  This holds
for every peer, honest or not, and for every transfer. -/
theorem C91_garbler (len t : Nat) (hlen : GoodLength len) (ht : t < 65535) :
    ∃ Φ : Bytes → Bytes → GarbleRand → GarbleRand, ∀ p p' : Bytes, p.length = len → p'.length = len →
      ∀ r, DrawnBits len r → DrawnBits len (Φ p p' r) ∧ Φ p' p (Φ p p' r) = r ∧ (Φ p p' r).delta = r.delta ∧
        ∀ (E : Env) (ord : MapOrder) (S : List (Bytes × Bytes) → Proc Unit),
          halfGarbler E (Φ p p' r) ord S p' t =
            halfGarbler E r ord (fun msgs => S (swapWhere (xorBits (bitsOf p) (bitsOf p')) msgs)) p t := by
  obtain ⟨h1, h2, h3⟩ := goodLength hlen
  have hc := thr_typedD (n := 8 * len) (T := t + 1) (by omega) good2 h3
  refine ⟨fun a b => otherDraws (thrCircuit (8 * len) (8 * len + 1) (t + 1)) (bitsNat (bitsOf a ++ bitsOf a))
    (bitsNat (bitsOf b ++ bitsOf b)), ?_⟩
  intro p p' e1 e2 r hr
  have hin : ∀ a : Bytes, a.length = len →
      InputOK (thrCircuit (8 * len) (8 * len + 1) (t + 1)) (bitsNat (bitsOf a ++ bitsOf a)) :=
    fun a ha => inputOK_bits (k := 8 * len * 2) (by simp [bitsOf, ha]; omega) rfl
  rw [← drawn_bits (n := 8 * len) (D := 8 * len + 1) (T := t + 1) rfl] at hr ⊢
  refine ⟨otherDraws_drawn hc (hin p' e2) r, otherDraws_back hc (hin p e1) (hin p' e2) hr, rfl, fun E ord S => ?_⟩
  subst e1
  exact garbler_other E r ord S p p' t (8 * p.length) _ _ rfl e2 h1 (buildCircuit_ok E.dbg h2 ht) h3

example := C91_garbler 2 1 (by meets) (by meets)

example : swapWhere [true, false] [([1], [2]), ([3], [4])] = [([2], [1]), ([3], [4])] := rfl

/-- So all else it sends says nothing about the password, and neither does its half key: with a transfer that does not use
its messages, the party is the same. -/
theorem C91_outside (len t : Nat) (hlen : GoodLength len) (ht : t < 65535) :
    ∃ Φ : Bytes → Bytes → GarbleRand → GarbleRand, ∀ p p' : Bytes, p.length = len → p'.length = len →
      ∀ r, DrawnBits len r → DrawnBits len (Φ p p' r) ∧ Φ p' p (Φ p p' r) = r ∧ (Φ p p' r).delta = r.delta ∧
        ∀ (E : Env) (ord : MapOrder) (P : Proc Unit),
          halfGarbler E (Φ p p' r) ord (fun _ => P) p' t = halfGarbler E r ord (fun _ => P) p t := by
  obtain ⟨Φ, h⟩ := C91_garbler len t hlen ht
  refine ⟨Φ, fun p p' e1 e2 r hr => ?_⟩
  obtain ⟨a, b, c, d⟩ := h p p' e1 e2 r hr
  exact ⟨a, b, c, fun E ord P => d E ord fun _ => P⟩

example := C91_outside 2 1 (by meets) (by meets)

end FP.Props
