import Verif.Proof.HalfPrivate
/-
The evaluator's view under the other coins.
-/
namespace FP
open Spec

theorem encode_seen {E : Env} {c : Circuit} (hc : WellTyped c) (hb : BinaryGates c) {x : List Nat} (hx : InputOK c x)
    {run : GarbleRun} (h : RunOK E c run) {δ : WireBytes} {act : Nat → WireBytes} (hs : Seen c x run δ act) :
    EncodingKey.encode E.dbg ⟨run.encWires, run.delta⟩ x =
      .ok ((List.range c.numInputs).map fun i => (⟨.binary, act i⟩ : Wire)) := by
  obtain ⟨X, hX, hl, hcar⟩ := encode_ok hc h hx
  rw [hX]
  refine congrArg Except.ok ?_
  apply List.ext_getElem?
  intro i
  by_cases hi : i < c.numInputs
  · have hi' : i < c.inputDomains.length := by rw [hc.inputs]; exact hi
    have hd : c.inputDomains[i]? = some 2 := by
      rw [List.getElem?_eq_getElem hi']
      exact congrArg some (binary_inputs hc hb _ (List.getElem_mem hi'))
    obtain ⟨z, w, v, hz, hw, hv, hcw⟩ := hcar i 2 hd
    have hlt : i < c.numWires := by rw [hc.wires]; omega
    rw [h.pre i hi, hs.world.zero i hlt] at hz
    obtain rfl := Option.some.inj hz
    have hxi : i < x.length := by rw [(inputOK_two hc hb hx).1]; exact hi'
    have ev : v = (wireBit c x i).toNat := by
      rw [(wireBit_gate hc hb hx).1]
      obtain ⟨e, he⟩ := wireValues_prefix c.gates x
      rw [he, List.getD_eq_getElem?_getD, List.getElem?_append_left hxi, hv]
      rfl
    rw [ev, label_binary hcw.lab, carries_bit hs.delta] at hcw
    have : act i = w.values := by
      rw [← add32_cancel (act i) (when32 (wireBit c x i) δ), hcw, add32_cancel]
    rw [hw]
    simp only [List.getElem?_map, List.getElem?_range hi, Option.map_some, this]
    have hl2 : IsLabel 2 w := by
      obtain ⟨z, w', v, -, hw', -, hcw'⟩ := hcar i 2 hd
      rw [hw] at hw'
      obtain rfl := Option.some.inj hw'
      exact hcw'.lab
    exact congrArg some (label_binary hl2)
  · rw [List.getElem?_eq_none (by omega), List.getElem?_eq_none (by simp; omega)]

/-- The decoding hashes depend on the zero labels of the outputs only. -/
theorem decoding_same {E E' : Env} {c : Circuit} (hc : WellTyped c) (hb : BinaryGates c) {run run' : GarbleRun}
    (h : RunOK E c run) (h' : RunOK E' c run') (hd : run'.delta = run.delta)
    (hsha : ∀ q : Bytes, q.length ≠ 40 → E'.sha256 q = E.sha256 q)
    (hz : ∀ i, c.numWires - c.numOutputs ≤ i → i < c.numWires → run'.state.wires[i]? = run.state.wires[i]?) :
    run'.state.d = run.state.d := by
  have hlen : (c.inputDomains ++ c.gates.map Gate.outputDomain).length = c.numWires := by
    simp [hc.wires, hc.inputs]
  have l1 := h.dec.len
  have l2 := h'.dec.len
  rw [h.start, hlen] at l1
  rw [h'.start, hlen] at l2
  apply List.ext_getElem?
  intro k
  by_cases hk : k < run.state.d.length
  · have hst : run.outputsStartAt = c.numWires - c.numOutputs := h.start
    have hst' : run'.outputsStartAt = c.numWires - c.numOutputs := h'.start
    have hi : k + (c.numWires - c.numOutputs) < c.numWires := by omega
    have hdom := wires_all hc hb hi
    obtain ⟨z, hs, e1, e2, e3, e4⟩ := h.dec.hash _ 2 (by rw [hst]; omega) hdom
    obtain ⟨z', hs', f1, f2, f3, f4⟩ := h'.dec.hash _ 2 (by rw [hst']; omega) hdom
    rw [hst, Nat.add_sub_cancel] at e2
    rw [hst', Nat.add_sub_cancel] at f2
    rw [e2, f2]
    refine congrArg some ?_
    rw [hz _ (by omega) hi, e1] at f1
    obtain rfl := Option.some.inj f1
    apply List.ext_getElem?
    intro y
    by_cases hy : y < 2
    · obtain ⟨w, c1, g1⟩ := e4 y hy
      obtain ⟨w', c2, g2⟩ := f4 y hy
      rw [hd] at c2
      have : w' = w := by
        obtain ⟨z2, hz2, hl2⟩ := h.lab.lab _ 2 hdom
        rw [e1] at hz2
        obtain rfl := Option.some.inj hz2
        obtain ⟨g, hg⟩ : ∃ g, g ∈ c.gates := by
          apply List.exists_mem_of_ne_nil
          intro hnil
          have := hc.outputs
          rw [hnil, List.length_nil] at this
          omega
        obtain ⟨δ, hδ, -⟩ := h.deltas 2 ⟨g, hg, .inl (hb g hg).1⟩
        exact label_ext c2.lab c1.lab fun i => by rw [c1.eq δ hδ, c2.eq δ hδ]
      subst this
      rw [g1, g2]
      unfold hashOut
      rw [hsha]
      simp [beBytes, Wire.bytes]
    · rw [List.getElem?_eq_none (by omega), List.getElem?_eq_none (by omega)]
  · rw [List.getElem?_eq_none (by omega), List.getElem?_eq_none (by omega)]

theorem garble_of_run {E : Env} {rnd : GarbleRand} {c : Circuit} {run : GarbleRun} (h : garbleRun E rnd c = .ok run) :
    garble E rnd c = .ok (⟨c, run.state.f, run.state.fHalf⟩, ⟨run.encWires, run.delta⟩, ⟨run.state.d, run.outputsStartAt⟩) := by
  unfold garble
  rw [h, okb]; rfl

/-- Everything about the other coins. -/
theorem other_ok {c : Circuit} (hc : WellTyped c) (hb : BinaryGates c) (hn : c.gates.length < 2 ^ 64) {x x' : List Nat}
    (hx : InputOK c x) (hx' : InputOK c x') (p : Coins) (hA : Apart c p) :
    Apart c (otherCoins c x x' p) ∧ otherCoins c x' x (otherCoins c x x' p) = p ∧
      (otherCoins c x x' p).1.dbg = p.1.dbg ∧ (otherCoins c x x' p).2.delta = p.2.delta ∧
      evaluatorView c x' (otherCoins c x x' p) = evaluatorView c x p ∧
      (meaning c x' = meaning c x → decoderView c x' (otherCoins c x x' p) = decoderView c x p) := by
  by_cases hne : c.gates = []
  · have hnil : c.inputDomains = [] := by
      rcases List.eq_nil_or_concat c.inputDomains with h | ⟨l, d, h⟩
      · exact h
      · obtain ⟨-, g, hg, -⟩ := hc.inputGood d (by rw [h]; simp)
        rw [hne] at hg; cases hg
    have e : x' = x := by
      have h1 := hx.length_eq
      have h2 := hx'.length_eq
      rw [hnil, List.length_nil] at h1 h2
      rw [List.length_eq_zero_iff.mp h1, List.length_eq_zero_iff.mp h2]
    subst e
    simp only [otherCoins_self]
    exact ⟨hA, trivial, trivial, trivial, trivial, fun _ => trivial⟩
  obtain ⟨E, rnd⟩ := p
  obtain ⟨run, hrun, hA⟩ := hA
  simp only at hrun
  obtain ⟨run', hrun', hok', ed, ef, ef', hseen'⟩ := other_run hc hb hne hn hx hx' hrun hA
  obtain ⟨run0, hr0, hok⟩ := garbleRun_ok E rnd hc
  rw [hrun] at hr0
  obtain rfl := Except.ok.inj hr0
  have hseen := seen_ok hc hb hne x hok
  have hacts := (apart_iff hc hseen).mp hA
  have e0 : otherCoins c x x' (E, rnd) = (⟨E.dbg, fun q => add32 (E.sha256 q) (corr (Fix c.gates (heldLabel c x run)
        (delta2 run.delta) (wireBit c x) (wireBit c x')) q)⟩,
      ⟨rnd.delta, fun i => add32 (rnd.input i) (when32 ((x.getD i 0 == 1) ^^ (x'.getD i 0 == 1)) (delta2 run.delta))⟩) := by
    unfold otherCoins
    simp only [hrun]
  have hdbg : (otherCoins c x x' (E, rnd)).1.dbg = E.dbg := by rw [e0]
  have hviewX := encode_seen hc hb hx hok hseen
  have hviewX' := encode_seen hc hb hx' hok' hseen'
  refine ⟨⟨run', hrun', (apart_iff hc hseen').mpr hacts⟩, ?_, hdbg, by rw [e0], ?_, ?_⟩
  · have e1 : otherCoins c x' x (otherCoins c x x' (E, rnd)) =
        (⟨(otherCoins c x x' (E, rnd)).1.dbg, fun q => add32 ((otherCoins c x x' (E, rnd)).1.sha256 q)
          (corr (Fix c.gates (heldLabel c x' run') (delta2 run'.delta) (wireBit c x') (wireBit c x)) q)⟩,
        ⟨(otherCoins c x x' (E, rnd)).2.delta, fun i => add32 ((otherCoins c x x' (E, rnd)).2.input i)
          (when32 ((x'.getD i 0 == 1) ^^ (x.getD i 0 == 1)) (delta2 run'.delta))⟩) := by
      generalize otherCoins c x x' (E, rnd) = p at hrun'
      unfold otherCoins
      simp only [hrun']
    rw [e1, funext hseen'.held, ed, Fix.swap, e0]
    simp only [add32_cancel, Bool.xor_comm (x'.getD _ 0 == 1)]
  · unfold evaluatorView
    simp only [garble_of_run hrun, garble_of_run hrun', okb, hviewX, hviewX', ef, ef']
  · intro hm
    have hst : run'.outputsStartAt = run.outputsStartAt := by rw [hok.start, hok'.start]
    have hdd : run'.state.d = run.state.d := by
      refine decoding_same hc hb hok hok' ed ?_ ?_
      · intro q hq
        rw [e0]
        dsimp only
        rw [corr_length hq, add32_zero]
      · intro i h1 h2
        rw [hseen.world.zero i h2, hseen'.world.zero i h2]
        have : wireBit c x' i = wireBit c x i := by
          unfold wireBit
          unfold meaning at hm
          have := congrArg (fun l => l.getD (i - (c.numWires - c.numOutputs)) 0) hm
          simp only [List.getD_eq_getElem?_getD, List.getElem?_drop] at this
          rw [show c.numWires - c.numOutputs + (i - (c.numWires - c.numOutputs)) = i by omega] at this
          rw [List.getD_eq_getElem?_getD, List.getD_eq_getElem?_getD, this]
        rw [this]
    unfold decoderView
    simp only [garble_of_run hrun, garble_of_run hrun', okb, hviewX, hviewX', ef, ef', hdd, hst]

end FP
