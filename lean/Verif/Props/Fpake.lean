import Verif.Proof.Fpake
import Verif.Props.Util
import Verif.Props.BaseOT
import Verif.Proof.Witness
/-
C29, C30, C31: the fuzzy password authenticated key exchange of src/fpake.rs and src/main.rs.
-/
namespace FP.Props
open Spec

/-- What both parties of one direction obtain, for every non-empty password length: the keys agree
exactly if the distance modulo `D` is below `T`. -/
theorem half_exact (C : Curve) (X : Crypto) (g : GarblerDraws) (o : OTRecv) (hg : g.Valid) (ho : o.Valid) (p q : Bytes)
    (t D T : Nat) (hl : q.length = p.length) (hp : 0 < p.length) (hfit : 4 * (8 * p.length) + 2 < 2 ^ 64)
    (hbuild : buildCircuit X.dbg (8 * p.length) t = .ok (thrCircuit (8 * p.length) D T)) (hD : GoodDomain D)
    (hT : T < 65536) :
    ∃ k k', Ends (HalfKey.garbler C X g p t) (HalfKey.evaluator C X o q) k k' ∧
      (bitDistance p q % D < T → k = k') ∧
      (T ≤ bitDistance p q % D → NoOutputCollision X.toEnv g.rnd (buildCircuit X.dbg (8 * p.length) t) → k ≠ k') := by
  obtain ⟨run, k, k', hrun, he, h1, h0⟩ := half_ends X.toEnv g.rnd g.ord hg.ord p q t (8 * p.length) D T rfl hl hp hfit
    hbuild hD hT (ot_correct C X hg.ot ho (n := 8 * p.length) (by omega) (by omega) (by omega))
  rw [meaning_thr (by rw [unpack_length]) (by rw [unpack_length, hl]), weight_mod, ← hamming_eq_weight,
    bitDistance_eq p q hl] at h1 h0
  refine ⟨k, k', he, fun h => (h1 (by rw [if_pos h])).symm, fun h hnc => ?_⟩
  exact (h0 (by rw [if_neg (by omega)]) (hnc _ run hbuild hrun)).symm

theorem distance_le (p q : Bytes) : bitDistance p q ≤ 8 * p.length := by
  unfold bitDistance
  exact Nat.le_trans List.countP_le_length (by simp)

theorem half_good (C : Curve) (X : Crypto) (g : GarblerDraws) (o : OTRecv) (hg : g.Valid) (ho : o.Valid) (p q : Bytes)
    (t : Nat) (hl : q.length = p.length) (hlen : GoodLength p.length) (ht : t < 65535) :
    ∃ k k', Ends (HalfKey.garbler C X g p t) (HalfKey.evaluator C X o q) k k' ∧
      (bitDistance p q ≤ t → k = k') ∧
      (t < bitDistance p q → NoOutputCollision X.toEnv g.rnd (buildCircuit X.dbg (8 * p.length) t) → k ≠ k') := by
  obtain ⟨h1, h2, h3⟩ := goodLength hlen
  obtain ⟨k, k', he, ha, hb⟩ := half_exact C X g o hg ho p q t _ _ hl h1 (by omega) (buildCircuit_ok X.dbg h2 ht) h3
    (by omega)
  rw [Nat.mod_eq_of_lt (by have := distance_le p q; omega)] at ha hb
  exact ⟨k, k', he, fun h => ha (by omega), fun h => hb (by omega)⟩

/-! ### C29 -/

/-- C29: run against each other with passwords of equal length, the garbling and the evaluating party
both finish, on every schedule; their half keys are equal if the passwords differ in at most `t` bits,
and different if they differ in more and the output labels do not collide.  Missing from the full
statement: the lengths excluded by `GoodLength`, for which it is false, see below. -/
theorem C29_half_keys_partial (C : Curve) (X : Crypto) (g : GarblerDraws) (o : OTRecv) (hg : g.Valid) (ho : o.Valid)
    (p q : Bytes) (t : Nat) (hl : q.length = p.length) (hlen : GoodLength p.length) (ht : t < 65535) :
    ∃ k k', Completes (HalfKey.garbler C X g p t) (HalfKey.evaluator C X o q) k k' ∧
      (bitDistance p q ≤ t → k = k') ∧
      (t < bitDistance p q → NoOutputCollision X.toEnv g.rnd (buildCircuit X.dbg (8 * p.length) t) → k ≠ k') := by
  obtain ⟨k, k', he, h⟩ := half_good C X g o hg ho p q t hl hlen ht
  exact ⟨k, k', he.completes, h⟩

example := C29_half_keys_partial Witness.curve (Witness.crypto true) Witness.g Witness.recv (by meets) (by meets) [3, 4]
    Witness.password 1 (by meets) (by meets) (by meets)

/-- C29 for passwords of 8192 bytes or more, for which the number of bits is truncated to 16 bits: the
half keys agree exactly if the distance *modulo* `(8 * length) % 65536 + 1` is at most `t`. -/
theorem C29_long_passwords (C : Curve) (X : Crypto) (g : GarblerDraws) (o : OTRecv) (hg : g.Valid) (ho : o.Valid)
    (p q : Bytes) (t : Nat) (hl : q.length = p.length) (hlen : 8192 ≤ p.length) (hfit : p.length < 2 ^ 58)
    (hgood : GoodDomain (8 * p.length % 65536 + 1)) (ht : t < 65535) :
    ∃ k k', Completes (HalfKey.garbler C X g p t) (HalfKey.evaluator C X o q) k k' ∧
      (bitDistance p q % (8 * p.length % 65536 + 1) ≤ t → k = k') ∧
      (t < bitDistance p q % (8 * p.length % 65536 + 1) → NoOutputCollision X.toEnv g.rnd (buildCircuit X.dbg (8 * p.length) t) → k ≠ k') := by
  have hb : buildCircuit X.dbg (8 * p.length) t = .ok (thrCircuit (8 * p.length) (8 * p.length % 65536 + 1) (t + 1)) :=
    buildCircuit_eq (addR_ok X.dbg (by unfold GoodDomain at hgood; omega)) (addR_ok X.dbg (by omega))
  obtain ⟨k, k', he, h1, h0⟩ := half_exact C X g o hg ho p q t _ _ hl (by omega) (by omega) hb hgood (by omega)
  exact ⟨k, k', he.completes, fun h => h1 (by omega), fun h => h0 (by omega)⟩

example := C29_long_passwords Witness.curve (Witness.crypto true) Witness.g Witness.recv (by meets) (by meets)
    (List.replicate 8200 7) (List.replicate 8200 6) 1 (by meets) (by meets) (by meets)
    (by rw [List.length_replicate]; unfold GoodDomain; decide) (by meets)

/-- C29 is false of the code for passwords whose length is a positive multiple of 8192 bytes: *any* two
passwords of that length give equal half keys, whatever the threshold. -/
theorem C29_fails_any_password (C : Curve) (X : Crypto) (g : GarblerDraws) (o : OTRecv) (hg : g.Valid) (ho : o.Valid)
    (k t : Nat) (hk : 0 < k) (hk' : k < 2 ^ 45) (ht : t < 65535) (p q : Bytes) (hp : p.length = 8192 * k)
    (hq : q.length = 8192 * k) :
    ∃ key, Completes (HalfKey.garbler C X g p t) (HalfKey.evaluator C X o q) key key := by
  have hmod : 8 * p.length % 65536 = 0 := by omega
  obtain ⟨a, b, h, h1, -⟩ := C29_long_passwords C X g o hg ho p q t (by omega) (by omega) (by omega)
    (by rw [hmod]; decide) ht
  rw [hmod, Nat.mod_one] at h1
  have := h1 (Nat.zero_le _)
  subst this
  exact ⟨a, h⟩

example := C29_fails_any_password Witness.curve (Witness.crypto true) Witness.g Witness.recv (by meets) (by meets) 1 1
    (by meets) (by meets) (by meets) (List.replicate 8192 0) (List.replicate 8192 255) (by meets) (by meets)

/-- C29 is false of the code at the largest threshold in a release build: it wraps around to zero, and
even equal passwords give different half keys; a debug build panics. -/
theorem C29_fails_threshold_max (C : Curve) (X : Crypto) (g : GarblerDraws) (o : OTRecv) (hg : g.Valid) (ho : o.Valid)
    (p : Bytes) (hlen : GoodLength p.length) :
    (X.dbg = false → NoOutputCollision X.toEnv g.rnd (buildCircuit X.dbg (8 * p.length) 65535) →
      ∃ k k', Completes (HalfKey.garbler C X g p 65535) (HalfKey.evaluator C X o p) k k' ∧ k ≠ k') ∧
    (X.dbg = true → HalfKey.garbler C X g p 65535 = .fail .panic) := by
  obtain ⟨h1, h2, h3⟩ := goodLength hlen
  have hD : addR X.dbg 65536 ((8 * p.length) % 65536) 1 = .ok (8 * p.length + 1) := by
    rw [Nat.mod_eq_of_lt (by omega)]; exact addR_ok X.dbg (by omega)
  constructor
  · intro hdbg hnc
    obtain ⟨k, k', he, -, h0⟩ := half_exact C X g o hg ho p p 65535 _ 0 rfl h1 (by omega)
      (buildCircuit_eq hD (by rw [hdbg]; rfl)) h3 (by omega)
    exact ⟨k, k', he.completes, h0 (Nat.zero_le _) hnc⟩
  · intro hdbg
    unfold HalfKey.garbler halfGarbler
    dsimp only
    rw [unpack_length]
    have : buildCircuit X.dbg (8 * p.length) 65535 = .error .panic := by
      unfold buildCircuit
      rw [hD, okb]
      rw [hdbg]
      rfl
    rw [this]
    rfl

example := C29_fails_threshold_max Witness.curve (Witness.crypto true) Witness.g Witness.recv (by meets) (by meets)
    [3, 4] (by meets)

/-- C29 is false of the code for empty passwords: the garbling party panics. -/
theorem C29_fails_empty (C : Curve) (X : Crypto) (g : GarblerDraws) (t : Nat) :
    HalfKey.garbler C X g [] t = .fail .panic := by
  unfold HalfKey.garbler halfGarbler
  show (liftM (buildCircuit X.dbg 0 t) >>= _) = _
  by_cases ht : ∃ T, addR X.dbg 65536 t 1 = .ok T
  · obtain ⟨T, hT⟩ := ht
    rw [buildCircuit_eq (D := 1) (addR_ok X.dbg (by omega)) hT, liftM_ok, ret_bind]
    have : garbleBinary X.toEnv g.rnd (thrCircuit 0 1 T) = .error .panic := by
      unfold garbleBinary garble garbleRun
      obtain ⟨d, hd⟩ : ∃ d, garbleDeltas g.rnd (thrCircuit 0 1 T) = .ok d := by
        obtain ⟨w1, h1⟩ : ∃ w, Wire.delta 1 (g.rnd.delta 1) = .ok w := ⟨_, rfl⟩
        obtain ⟨w2, h2⟩ : ∃ w, Wire.delta 2 (g.rnd.delta 2) = .ok w := ⟨_, rfl⟩
        refine ⟨HMap.insert (HMap.insert [] 1 w1) 2 w2, ?_⟩
        have hgates : (thrCircuit 0 1 T).gates = [⟨0, 1, [], .add⟩, ⟨1, 1, [0], .proj (.less T)⟩] := rfl
        have e1 : ensureDelta g.rnd [] 1 = .ok (HMap.insert [] 1 w1) := by
          unfold ensureDelta; rw [h1]; rfl
        have e2 : ensureDelta g.rnd (HMap.insert [] 1 w1) 1 = .ok (HMap.insert [] 1 w1) := rfl
        have e3 : ensureDelta g.rnd (HMap.insert [] 1 w1) 2 = .ok ((HMap.insert [] 1 w1).insert 2 w2) := by
          unfold ensureDelta
          rw [h2]; rfl
        unfold garbleDeltas
        rw [hgates]
        simp only [List.foldlM_cons, List.foldlM_nil, e1, okb, purek, e2]
        exact congrArg (· >>= pure) e3
      rw [hd, okb]
      have hs : subR X.dbg (2 ^ 64) (thrCircuit 0 1 T).numWires (thrCircuit 0 1 T).numOutputs = .ok 1 := rfl
      have hw : (thrCircuit 0 1 T).inputDomains = [] := rfl
      rw [hs, hw]
      rfl
    rw [this]
    rfl
  · have : addR X.dbg 65536 t 1 = .error .panic := by
      unfold addR at ht ⊢
      by_cases h1 : t + 1 < 65536
      · exact absurd ⟨_, if_pos h1⟩ ht
      · rw [if_neg h1] at ht ⊢
        cases hd : X.dbg
        · rw [hd] at ht; exact absurd ⟨_, rfl⟩ ht
        · rfl
    unfold buildCircuit
    rw [addR_ok X.dbg (by omega), okb, this]
    rfl

theorem half_mismatch (C : Curve) (X : Crypto) (g : GarblerDraws) (o : OTRecv) (p q : Bytes) (t : Nat)
    (hl : q.length ≠ p.length) (hlen : GoodLength p.length) (hq : q.length < 2 ^ 60) (ht : t < 65535) :
    EndsErr (HalfKey.garbler C X g p t) (HalfKey.evaluator C X o q) (.err .badProperties) (.err .badProperties) := by
  obtain ⟨h1, h2, h3⟩ := goodLength hlen
  have hbuild := buildCircuit_ok X.dbg h2 ht
  generalize hn : 8 * p.length = n at *
  obtain ⟨run, z, d, K, hrun, hgb, hzl, hzb, hK, hev⟩ := half_key X.toEnv g.rnd
    (thr_typedD (T := t + 1) (show 0 < n by omega) good2 h3)
    (by intro d hd; exact (List.mem_replicate.mp hd).2) (by show 0 < n * 2; omega) rfl (thr_last n (n + 1) (t + 1))
  change z.length = n * 2 at hzl
  unfold HalfKey.garbler HalfKey.evaluator halfGarbler halfEvaluator
  dsimp only
  rw [unpack_length, hn, hbuild, liftM_ok, ret_bind, hgb, liftM_ok, ret_bind]
  dsimp only
  rw [sliceR_ok (by omega) (by omega), liftM_ok, ret_bind, sliceR_ok (by omega) (by omega), liftM_ok, ret_bind]
  have hl1 : (bytePairs ((z.drop n).take (z.length - n))).length = n := by simp [bytePairs]; omega
  have hl2 : (u8VecToBoolVec q).length = 8 * q.length := unpack_length q
  exact (apricot_mismatch X _ _ _ _ _ _ _ _ _ _ _ _ _ _ _ _ _ (by omega) (by omega) (by omega) (by omega) (by omega)).bind _ _

/-- Passwords of different lengths: both parties report bad properties, on every schedule. -/
theorem C29_lengths_differ (C : Curve) (X : Crypto) (g : GarblerDraws) (o : OTRecv) (p q : Bytes) (t : Nat)
    (hl : q.length ≠ p.length) (hlen : GoodLength p.length) (hq : q.length < 2 ^ 60) (ht : t < 65535) :
    BothFail (HalfKey.garbler C X g p t) (HalfKey.evaluator C X o q) (.err .badProperties) (.err .badProperties) :=
  (half_mismatch C X g o p q t hl hlen hq ht).bothFail

example := C29_lengths_differ Witness.curve (Witness.crypto true) Witness.g Witness.recv [3, 4] [3, 4, 5] 1 (by meets)
    (by meets) (by meets) (by meets)

/-! ### C30 and C31 -/

/-- Both directions, for all good lengths. -/
theorem both_ends (C : Curve) (X : Crypto) (g1 g2 : GarblerDraws) (o1 o2 : OTRecv) (hg1 : g1.Valid)
    (hg2 : g2.Valid) (ho1 : o1.Valid) (ho2 : o2.Valid) (p q : Bytes) (t1 t2 : Nat) (hl : q.length = p.length)
    (hlen : GoodLength p.length) (ht1 : t1 < 65535) (ht2 : t2 < 65535) :
    ∃ a a' b b', Ends (HalfKey.garbler C X g1 p t1) (HalfKey.evaluator C X o2 q) a a' ∧
      Ends (HalfKey.evaluator C X o1 p) (HalfKey.garbler C X g2 q t2) b b' ∧
      (bitDistance p q ≤ t1 → a = a') ∧ (bitDistance p q ≤ t2 → b = b') ∧
      (t1 < bitDistance p q → NoOutputCollision X.toEnv g1.rnd (buildCircuit X.dbg (8 * p.length) t1) → a ≠ a') ∧
      (t2 < bitDistance p q → NoOutputCollision X.toEnv g2.rnd (buildCircuit X.dbg (8 * p.length) t2) → b ≠ b') := by
  obtain ⟨a, a', h1, h2, h3⟩ := half_good C X g1 o2 hg1 ho2 p q t1 hl hlen ht1
  obtain ⟨b', b, h4, h5, h6⟩ := half_good C X g2 o1 hg2 ho1 q p t2 hl.symm (by rw [hl]; exact hlen) ht2
  rw [hl, ← bitDistance_comm p q hl] at h6
  rw [← bitDistance_comm p q hl] at h5
  exact ⟨a, a', b, b', h1, h4.swap, h2, fun h => (h5 h).symm, h3, fun h hc => (h6 h hc).symm⟩

theorem both_directions (C : Curve) (X : Crypto) (g1 g2 : GarblerDraws) (o1 o2 : OTRecv) (hg1 : g1.Valid)
    (hg2 : g2.Valid) (ho1 : o1.Valid) (ho2 : o2.Valid) (p q : Bytes) (t1 t2 : Nat) (hl : q.length = p.length)
    (hlen : GoodLength p.length) (ht1 : t1 < 65535) (ht2 : t2 < 65535) :
    ∃ a a' b b', Completes (HalfKey.garbler C X g1 p t1) (HalfKey.evaluator C X o2 q) a a' ∧
      Completes (HalfKey.evaluator C X o1 p) (HalfKey.garbler C X g2 q t2) b b' ∧
      Completes (fpakeFirst C X g1 o1 p t1) (fpakeSecond C X o2 g2 q t2) (combine a b) (combine b' a') ∧
      (bitDistance p q ≤ t1 → a = a') ∧ (bitDistance p q ≤ t2 → b = b') ∧
      (t1 < bitDistance p q → NoOutputCollision X.toEnv g1.rnd (buildCircuit X.dbg (8 * p.length) t1) → a ≠ a') ∧
      (t2 < bitDistance p q → NoOutputCollision X.toEnv g2.rnd (buildCircuit X.dbg (8 * p.length) t2) → b ≠ b') := by
  obtain ⟨a, a', b, b', h1, h4, h⟩ := both_ends C X g1 g2 o1 o2 hg1 hg2 ho1 ho2 p q t1 t2 hl hlen ht1 ht2
  refine ⟨a, a', b, b', h1.completes, h4.completes, Ends.completes ?_, h⟩
  unfold fpakeFirst fpakeSecond
  exact .bind h1 (.bind h4 (.ret _ _))

/-- C30: two parties whose passwords differ in at most both thresholds derive the same key, on every
schedule. -/
theorem C30_same_key_partial (C : Curve) (X : Crypto) (g1 g2 : GarblerDraws) (o1 o2 : OTRecv) (hg1 : g1.Valid)
    (hg2 : g2.Valid) (ho1 : o1.Valid) (ho2 : o2.Valid) (p q : Bytes) (t1 t2 : Nat) (hl : q.length = p.length)
    (hlen : GoodLength p.length) (ht1 : t1 < 65535) (ht2 : t2 < 65535) (h1 : bitDistance p q ≤ t1)
    (h2 : bitDistance p q ≤ t2) :
    ∃ key, Completes (fpakeFirst C X g1 o1 p t1) (fpakeSecond C X o2 g2 q t2) key key := by
  obtain ⟨a, a', b, b', -, -, h, ha, hb, -, -⟩ :=
    both_directions C X g1 g2 o1 o2 hg1 hg2 ho1 ho2 p q t1 t2 hl hlen ht1 ht2
  rw [← ha h1, ← hb h2, C12_combine_comm b a] at h
  exact ⟨_, h⟩

example := C30_same_key_partial Witness.curve (Witness.crypto true) Witness.g Witness.g' Witness.recv Witness.recv
    (by meets) (by meets) (by meets) (by meets) [3, 4] Witness.password 1 2 (by meets) (by meets) (by meets) (by meets)
    (by meets) (by meets)

theorem combine_cross (a a' b b' : WireBytes) : combine a b = combine b' a' ↔ combine a a' = combine b b' := by
  have key : ∀ x y z w : BitVec 8, x ^^^ y = z ^^^ w ↔ x ^^^ w = y ^^^ z := by
    intro x y z w
    constructor
    · intro h
      have : x = z ^^^ w ^^^ y := by rw [← h, BitVec.xor_assoc, BitVec.xor_self, BitVec.xor_zero]
      rw [this, BitVec.xor_assoc, BitVec.xor_assoc, BitVec.xor_comm y w, ← BitVec.xor_assoc w w y, BitVec.xor_self,
        BitVec.zero_xor, BitVec.xor_comm]
    · intro h
      have : x = y ^^^ z ^^^ w := by rw [← h, BitVec.xor_assoc, BitVec.xor_self, BitVec.xor_zero]
      rw [this, BitVec.xor_assoc, BitVec.xor_comm, ← BitVec.xor_assoc,
        BitVec.xor_assoc w y y, BitVec.xor_self, BitVec.xor_zero, BitVec.xor_comm]
  constructor
  · intro h
    apply Vector.ext
    intro i hi
    have := congrArg (·[i]) h
    simp only [combine, xor32, Vector.getElem_ofFn, Fin.getElem_fin] at this ⊢
    exact (key ..).mp this
  · intro h
    apply Vector.ext
    intro i hi
    have := congrArg (·[i]) h
    simp only [combine, xor32, Vector.getElem_ofFn, Fin.getElem_fin] at this ⊢
    exact (key ..).mpr this

/-- C31: if the passwords are beyond the threshold in exactly one direction, the keys differ (unless
output labels collide); if in both, they agree exactly if the two pairs of half keys differ by the same
string. -/
theorem C31_distant_partial (C : Curve) (X : Crypto) (g1 g2 : GarblerDraws) (o1 o2 : OTRecv) (hg1 : g1.Valid)
    (hg2 : g2.Valid) (ho1 : o1.Valid) (ho2 : o2.Valid) (p q : Bytes) (t1 t2 : Nat) (hl : q.length = p.length)
    (hlen : GoodLength p.length) (ht1 : t1 < 65535) (ht2 : t2 < 65535) :
    ∃ key key' a a' b b', Completes (fpakeFirst C X g1 o1 p t1) (fpakeSecond C X o2 g2 q t2) key key' ∧
      Completes (HalfKey.garbler C X g1 p t1) (HalfKey.evaluator C X o2 q) a a' ∧
      Completes (HalfKey.evaluator C X o1 p) (HalfKey.garbler C X g2 q t2) b b' ∧
      (key = key' ↔ xor32 a a' = xor32 b b') ∧
      (t1 < bitDistance p q → bitDistance p q ≤ t2 → NoOutputCollision X.toEnv g1.rnd (buildCircuit X.dbg (8 * p.length) t1) → key ≠ key') ∧
      (bitDistance p q ≤ t1 → t2 < bitDistance p q → NoOutputCollision X.toEnv g2.rnd (buildCircuit X.dbg (8 * p.length) t2) → key ≠ key') := by
  obtain ⟨a, a', b, b', e1, e2, h, ha, hb, ha', hb'⟩ :=
    both_directions C X g1 g2 o1 o2 hg1 hg2 ho1 ho2 p q t1 t2 hl hlen ht1 ht2
  refine ⟨_, _, a, a', b, b', h, e1, e2, combine_cross a a' b b', ?_, ?_⟩
  · intro h1 h2 hnc heq
    have hb := hb h2
    subst hb
    rw [C12_combine_comm a b] at heq
    exact ha' h1 hnc (C12_combine_inj _ _ _ heq)
  · intro h1 h2 hnc heq
    have ha := ha h1
    subst ha
    rw [C12_combine_comm b' a] at heq
    exact hb' h2 hnc (C12_combine_inj _ _ _ heq)

example := C31_distant_partial Witness.curve (Witness.crypto true) Witness.g Witness.g' Witness.recv Witness.recv
    (by meets) (by meets) (by meets) (by meets) [3, 4] Witness.password 1 2 (by meets) (by meets) (by meets) (by meets)

/-- C31 for passwords of 8192 bytes or more: what counts is the distance modulo `(8 * length) % 65536 + 1`. -/
theorem C31_long_passwords (C : Curve) (X : Crypto) (g1 g2 : GarblerDraws) (o1 o2 : OTRecv) (hg1 : g1.Valid)
    (hg2 : g2.Valid) (ho1 : o1.Valid) (ho2 : o2.Valid) (p q : Bytes) (t1 t2 : Nat) (hl : q.length = p.length)
    (hlen : 8192 ≤ p.length) (hfit : p.length < 2 ^ 58) (hgood : GoodDomain (8 * p.length % 65536 + 1)) (ht1 : t1 < 65535)
    (ht2 : t2 < 65535) (d : Nat) (hd : d = bitDistance p q % (8 * p.length % 65536 + 1)) :
    ∃ key key', Completes (fpakeFirst C X g1 o1 p t1) (fpakeSecond C X o2 g2 q t2) key key' ∧
      (d ≤ t1 → d ≤ t2 → key = key') ∧
      (t1 < d → d ≤ t2 → NoOutputCollision X.toEnv g1.rnd (buildCircuit X.dbg (8 * p.length) t1) → key ≠ key') ∧
      (d ≤ t1 → t2 < d → NoOutputCollision X.toEnv g2.rnd (buildCircuit X.dbg (8 * p.length) t2) → key ≠ key') := by
  obtain ⟨a, a', h1, ha, ha'⟩ := C29_long_passwords C X g1 o2 hg1 ho2 p q t1 hl hlen hfit hgood ht1
  obtain ⟨b', b, h2, hb, hb'⟩ := C29_long_passwords C X g2 o1 hg2 ho1 q p t2 hl.symm (by omega) (by omega) (by rw [hl]; exact hgood) ht2
  rw [bitDistance_comm q p hl.symm, hl, ← hd] at hb hb'
  rw [← hd] at ha ha'
  refine ⟨combine a b, combine b' a', Ends.completes ?_, fun h1 h2 => ?_, fun h1 h2 hnc heq => ?_, fun h1 h2 hnc heq => ?_⟩
  · unfold fpakeFirst fpakeSecond
    exact .bind h1.ends (.bind h2.ends.swap (.ret _ _))
  · rw [← ha h1, ← hb h2, C12_combine_comm]
  · have hb := hb h2
    subst hb
    rw [C12_combine_comm a b'] at heq
    exact ha' h1 hnc (C12_combine_inj _ _ _ heq)
  · have ha := ha h1
    subst ha
    rw [C12_combine_comm b' a] at heq
    exact hb' h2 hnc (C12_combine_inj _ _ _ heq).symm

example := C31_long_passwords Witness.curve (Witness.crypto true) Witness.g Witness.g' Witness.recv Witness.recv
    (by meets) (by meets) (by meets) (by meets) (List.replicate 8200 7) (List.replicate 8200 6) 1 2 (by meets) (by meets)
    (by meets) (by rw [List.length_replicate]; unfold GoodDomain; decide) (by meets) (by meets) _ rfl

/-- C31 is false of the code for passwords whose length is a positive multiple of 8192 bytes: *any* two passwords of that
length give the same key, whatever the thresholds. -/
theorem C31_fails_any_password (C : Curve) (X : Crypto) (g1 g2 : GarblerDraws) (o1 o2 : OTRecv) (hg1 : g1.Valid)
    (hg2 : g2.Valid) (ho1 : o1.Valid) (ho2 : o2.Valid) (k t1 t2 : Nat) (hk : 0 < k) (hk' : k < 2 ^ 45) (ht1 : t1 < 65535)
    (ht2 : t2 < 65535) (p q : Bytes) (hp : p.length = 8192 * k) (hq : q.length = 8192 * k) :
    ∃ key, Completes (fpakeFirst C X g1 o1 p t1) (fpakeSecond C X o2 g2 q t2) key key := by
  have hmod : 8 * p.length % 65536 = 0 := by omega
  obtain ⟨key, key', h, h1, -⟩ := C31_long_passwords C X g1 g2 o1 o2 hg1 hg2 ho1 ho2 p q t1 t2 (by omega) (by omega) (by omega)
    (by rw [hmod]; decide) ht1 ht2 _ rfl
  rw [hmod, Nat.mod_one] at h1
  have := h1 (Nat.zero_le _) (Nat.zero_le _)
  subst this
  exact ⟨key, h⟩

example := C31_fails_any_password Witness.curve (Witness.crypto true) Witness.g Witness.g' Witness.recv Witness.recv
    (by meets) (by meets) (by meets) (by meets) 1 1 2 (by meets) (by meets) (by meets) (by meets) (List.replicate 8192 0)
    (List.replicate 8192 255) (by meets) (by meets)

/-! ### The hypotheses can be met -/

/-- The hash of the examples returns the label itself, so that output labels never collide. -/
example (dbg : Bool) (rnd : GarbleRand) (c : R Circuit) : NoOutputCollision (toyEnv dbg) rnd c := by
  exact fun _ run _ _ => toy_noCollision dbg run

/-- Orders that visit every entry exist. -/
noncomputable def someOrder : MapOrder where
  f m := (exists_iteration m).choose
  h m := (exists_iteration m).choose

example : someOrder.Valid := ⟨fun m => (exists_iteration m).choose_spec, fun m => (exists_iteration m).choose_spec⟩

example : bitDistance [0x0f, 0x01] [0x00, 0x03] = 5 := by decide

end FP.Props
