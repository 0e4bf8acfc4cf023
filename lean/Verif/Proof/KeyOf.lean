import Verif.Props.Legacy
/-
The two values a half key can have.
-/
namespace FP
open Spec Props

/-- The labels of the output wire, and the keys hashed from them. -/
theorem half_labels (E : Env) (rnd : GarbleRand) {c : Circuit} (hc : WellTyped c)
    (hbin : ∀ d ∈ c.inputDomains, d = 2) (hpos : 0 < c.numInputs) (hone : c.numOutputs = 1)
    (hdom : (c.inputDomains ++ c.gates.map Gate.outputDomain)[c.numWires - 1]? = some 2) :
    ∃ run z d zl w1, garbleRun E rnd c = .ok run ∧
      garbleBinary E rnd c = .ok (⟨c, run.state.f, run.state.fHalf⟩, z, d) ∧ z.length = c.numInputs ∧
      (∀ p ∈ z, p.1.domain = .binary ∧ p.2.domain = .binary) ∧ outputKey d = .ok (hashOut E (c.numWires - 1) 1 w1) ∧
      run.state.wires[c.numWires - 1]? = some zl ∧ IsLabel 2 zl ∧ Carries run.delta 2 zl 1 w1 ∧ DeltaOK run.delta 2 ∧
      ∀ bits : List Bool, bits.length = c.numInputs →
        (meaning c (bitsNat bits) = [1] → evaluatedKey E ⟨c, run.state.f, run.state.fHalf⟩ (pick z bits) =
          .ok (hashOut E (c.numWires - 1) 1 w1)) ∧
        (meaning c (bitsNat bits) = [0] → evaluatedKey E ⟨c, run.state.f, run.state.fHalf⟩ (pick z bits) =
          .ok (hashOut E (c.numWires - 1) 1 zl)) := by
  obtain ⟨run, z, d, zl, w1, hrun, hok, hgb, hzlen, hbz, hK, hzl, hlab, hw1, henc⟩ := half_detail E rnd hc hbin hpos hone hdom
  obtain ⟨δ, hδ, hδi⟩ : DeltaOK run.delta 2 := by
    have hi := hc.inputs
    obtain ⟨d, hd⟩ : ∃ d, c.inputDomains[0]? = some d := ⟨_, List.getElem?_eq_getElem (by omega)⟩
    have := hbin d (List.mem_of_getElem? hd)
    subst this
    exact hok.deltas 2 (hc.inputGood 2 (List.mem_of_getElem? hd)).2
  refine ⟨run, z, d, zl, w1, hrun, hgb, hzlen, hbz, hK, hzl, hlab, hw1, ⟨δ, hδ, hδi⟩, fun bits hb => ?_⟩
  obtain ⟨hin, hXl, hXi⟩ := henc bits hb
  have hwires : 0 < c.numWires := by have := hc.wires; omega
  have hst := hok.start
  obtain ⟨Z, hZ, hZl, hZi⟩ := evaluate_ok hc hok hin hXl hXi
  obtain ⟨m', z', W, v, hm', hz', hW, hv, hcar⟩ := hZi 0 (by omega)
  rw [hst, hone, Nat.add_zero] at hm' hz'
  rw [hdom] at hm'
  injection hm' with hm'
  subst hm'
  rw [hzl] at hz'
  injection hz' with hz'
  subst hz'
  have hkey : evaluatedKey E ⟨c, run.state.f, run.state.fHalf⟩ (pick z bits) = .ok (hashOut E (c.numWires - 1) 1 W) := by
    unfold evaluatedKey
    rw [hZ, okb]
    simp only [subR, show 1 ≤ c.numWires from hwires, if_true, okb, idxR_ok hW, purek]
  constructor
  · intro hmean
    rw [hmean] at hv
    injection hv with hv
    subst hv
    rw [hkey, label_ext hcar.lab hw1.lab fun i => by rw [hcar.eq δ hδ, hw1.eq δ hδ]]
  · intro hmean
    rw [hmean] at hv
    injection hv with hv
    subst hv
    rw [hkey, label_ext hcar.lab hlab fun i => by rw [hcar.eq δ hδ]; simp]

theorem carries_zero {delta : HMap Nat Wire} {z : Wire} (h : IsLabel 2 z) : Carries delta 2 z 0 z :=
  ⟨by decide, h, fun δ _ i => by simp⟩

/-- The garbler's key and the two keys an evaluator can end up with, all fixed by the labels drawn. -/
theorem half_values (E : Env) (rnd : GarbleRand) {c : Circuit} (hc : WellTyped c)
    (hbin : ∀ d ∈ c.inputDomains, d = 2) (hpos : 0 < c.numInputs) (hone : c.numOutputs = 1)
    (hdom : (c.inputDomains ++ c.gates.map Gate.outputDomain)[c.numWires - 1]? = some 2) :
    ∃ run z d K K0, garbleRun E rnd c = .ok run ∧
      garbleBinary E rnd c = .ok (⟨c, run.state.f, run.state.fHalf⟩, z, d) ∧ z.length = c.numInputs ∧
      (∀ p ∈ z, p.1.domain = .binary ∧ p.2.domain = .binary) ∧ outputKey d = .ok K ∧ (NoCollision E run → K ≠ K0) ∧
      ∀ bits : List Bool, bits.length = c.numInputs →
        (meaning c (bitsNat bits) = [1] → evaluatedKey E ⟨c, run.state.f, run.state.fHalf⟩ (pick z bits) = .ok K) ∧
        (meaning c (bitsNat bits) = [0] → evaluatedKey E ⟨c, run.state.f, run.state.fHalf⟩ (pick z bits) = .ok K0) := by
  obtain ⟨run, z, d, zl, w1, hrun, hgb, hzlen, hbz, hK, hzl, hlab, hw1, ⟨δ, hδ, hδi⟩, hev⟩ :=
    half_labels E rnd hc hbin hpos hone hdom
  refine ⟨run, z, d, _, _, hrun, hgb, hzlen, hbz, hK, fun hnc heq => ?_, hev⟩
  have hcar0 := carries_zero (delta := run.delta) hlab
  have hWw := hnc (c.numWires - 1) 2 0 1 zl w1 1
    ⟨zl, δ, hzl, hlab.dom, hδ, by decide, hcar0.labelOf hδ⟩
    ⟨zl, δ, hzl, hlab.dom, hδ, by decide, hw1.labelOf hδ⟩ heq.symm
  subst hWw
  have := carries_inj hδi hδ hcar0 hw1
  omega

theorem half2_values (E : Env) (rnd : GarbleRand) {n t D : Nat} (hn : 0 < n)
    (hfit : 4 * n + 2 < 2 ^ 64) (hbuild : buildCircuit E.dbg n t = .ok (thrCircuit n D (t + 1))) (hD : GoodDomain D)
    (ht : t < 65535) :
    ∃ z K K0 gc d, (NoOutputCollision E rnd (buildCircuit E.dbg n t) → K ≠ K0) ∧ ∀ ord : MapOrder, ord.Valid →
      ∃ gc', Held2 E rnd ord n t (thrCircuit n D (t + 1)) z K gc gc' d ∧
      ∀ a b : List Bool, a.length = n → b.length = n →
        evaluatedKey E gc' (pick ((z.drop 0).take n) a ++ pick ((z.drop n).take n) b) =
          .ok (if hamming a b % D ≤ t then K else K0) := by
  obtain ⟨run, z, d, K, K0, hrun, hgb, hzl, hzb, hK, hne, hev⟩ := half_values E rnd
    (thr_typedD (T := t + 1) hn good2 hD)
    (by intro d hd; exact (List.mem_replicate.mp hd).2) (by show 0 < n * 2; omega) rfl (thr_last n D (t + 1))
  change z.length = n * 2 at hzl
  refine ⟨z, K, K0, ⟨thrCircuit n D (t + 1), run.state.f, run.state.fHalf⟩, d, fun hnc => hne (hnc _ run hbuild hrun), fun ord hord => ?_⟩
  obtain ⟨gc', H, he⟩ := held2 (rnd := rnd) hord hbuild (by unfold GoodDomain at hD; omega) (by omega) hfit hrun hgb hzl hzb hK
  refine ⟨gc', H, fun a b ha hb => ?_⟩
  obtain ⟨h1, h0⟩ := hev (a ++ b) (by simp [ha, hb, thrCircuit]; omega)
  rw [meaning_thr ha hb, weight_mod, ← hamming_eq_weight] at h1 h0
  rw [he a b ha hb]
  split
  · exact h1 (by rw [if_pos (by omega)])
  · exact h0 (by rw [if_neg (by omega)])

theorem half3_values (E : Env) (rnd : GarbleRand) {n t D : Nat} (hn : 0 < n)
    (hfit : 5 * n + 2 < 2 ^ 64) (hbuild : buildCircuitV2 E.dbg n t = .ok (thrCircuit3 n D (t + 1))) (hD : GoodDomain D)
    (ht : t < 65535) :
    ∃ z K K0 gc d, (NoOutputCollision E rnd (buildCircuitV2 E.dbg n t) → K ≠ K0) ∧ ∀ ord : MapOrder, ord.Valid →
      ∃ gc', Held3 E rnd ord n t (thrCircuit3 n D (t + 1)) z K gc gc' d ∧
      ∀ a b c : List Bool, a.length = n → b.length = n → c.length = n →
        evaluatedKey E gc' (pick (z.take n) a ++ pick ((z.drop n).take n) b ++ pick (z.drop (n * 2)) c) =
          .ok (if weight (xorBits (xorBits a b) c) % D ≤ t then K else K0) := by
  obtain ⟨run, z, d, K, K0, hrun, hgb, hzl, hzb, hK, hne, hev⟩ := half_values E rnd
    (thr3_typedD (T := t + 1) hn good2 hD)
    (by intro d hd; exact (List.mem_replicate.mp hd).2) (by show 0 < n * 3; omega) rfl (thr3_last n D (t + 1))
  change z.length = n * 3 at hzl
  refine ⟨z, K, K0, ⟨thrCircuit3 n D (t + 1), run.state.f, run.state.fHalf⟩, d, fun hnc => hne (hnc _ run hbuild hrun), fun ord hord => ?_⟩
  obtain ⟨gc', H, he⟩ := held3 (rnd := rnd) hord hbuild (by unfold GoodDomain at hD; omega) (by omega) hfit hrun hgb hzl hzb hK
  refine ⟨gc', H, fun a b c ha hb hc => ?_⟩
  obtain ⟨h1, h0⟩ := hev (a ++ b ++ c) (by simp [ha, hb, hc, thrCircuit3]; omega)
  rw [meaning_thr3 ha hb hc, weight_mod] at h1 h0
  rw [he a b c ha hb hc]
  split
  · exact h1 (by rw [if_pos (by omega)])
  · exact h0 (by rw [if_neg (by omega)])

/-- The values in one direction of the key exchange. -/
theorem half_two (E : Env) (rnd : GarbleRand) (len t : Nat) (hlen : GoodLength len) (ht : t < 65535) :
    ∃ yes no : WireBytes, (NoOutputCollision E rnd (buildCircuit E.dbg (8 * len) t) → yes ≠ no) ∧
      ∀ (C : Curve) (X : Crypto) (g : GarblerDraws) (o : OTRecv), X.toEnv = E → g.rnd = rnd → g.Valid → o.Valid →
        ∀ p q : Bytes, p.length = len → q.length = len →
        Ends (HalfKey.garbler C X g p t) (HalfKey.evaluator C X o q) yes (if bitDistance p q ≤ t then yes else no) := by
  obtain ⟨h0, h1, h2⟩ := goodLength hlen
  obtain ⟨run, z, d, K, K0, hrun, hgb, hzl, hzb, hK, hne, hev⟩ := half_values E rnd
    (thr_typedD (n := 8 * len) (T := t + 1) (by omega) good2 h2)
    (by intro d hd; exact (List.mem_replicate.mp hd).2) (by show 0 < 8 * len * 2; omega) rfl (thr_last (8 * len) _ (t + 1))
  change z.length = 8 * len * 2 at hzl
  have hbuild := buildCircuit_ok E.dbg h1 ht
  refine ⟨K, K0, fun hnc => hne (hnc _ run hbuild hrun), ?_⟩
  rintro C X g o rfl rfl hg ho p q hp hq
  have hpl : (u8VecToBoolVec p).length = 8 * len := by rw [unpack_length, hp]
  have hql : (u8VecToBoolVec q).length = 8 * len := by rw [unpack_length, hq]
  obtain ⟨k1, k0⟩ := hev (u8VecToBoolVec p ++ u8VecToBoolVec q) (by
    rw [List.length_append, hpl, hql]; show 8 * len + 8 * len = 8 * len * 2; omega)
  rw [meaning_thr hpl hql, weight_mod, ← hamming_eq_weight, bitDistance_eq p q (by omega),
    Nat.mod_eq_of_lt (by have := distance_le p q; omega)] at k1 k0
  refine half_conn X.toEnv g.rnd g.ord hg.ord p q t (8 * len) _ _ (by omega) (by omega) (by omega) hbuild (by omega) (by omega)
    (ot_correct C X hg.ot ho (by omega) (by omega) (by omega)) hrun hgb hzl hzb hK ?_
  split
  · exact k1 (by rw [if_pos (by omega)])
  · exact k0 (by rw [if_neg (by omega)])

end FP
