import Verif.Proof.TablesMore
import Verif.Proof.WitnessRun
import Verif.Proof.Witness
/-
C70: what the tables of AND gates hold.
-/
namespace FP.Props
open FP Spec

/-- C70: after garbling any well-typed circuit the tables of AND gates are exactly those of the AND gates of the circuit,
the gate with number `k` (counted from one) being garbled with the tweak `k`: `H(A‖k) ⊕ H(A⊕δ‖k)` with `δ` added if the
colour of `B` is one, and `H(B‖k) ⊕ H(B⊕δ‖k) ⊕ A`, where `A` and `B` are the zero labels of its inputs.  The list is in
the order of insertion, last first. -/
theorem C70_and_tables (E : Env) (rnd : GarbleRand) (c : Circuit) (hc : WellTyped c) (run : GarbleRun)
    (h : garbleRun E rnd c = .ok run) :
    ∃ δ, (usesDomain c.gates 2 → List.lookup 2 run.delta = some ⟨.binary, δ⟩ ∧ colourBit δ = true) ∧
      run.state.fHalf = ((andGates c.gates).map (andEntry E.sha256 δ run.state.wires)).reverse := by
  obtain ⟨run0, hr0, hok⟩ := garbleRun_ok E rnd hc
  rw [h] at hr0
  obtain rfl := Except.ok.inj hr0
  exact ⟨delta2 run.delta, fun hu => delta2_ok (hok.deltas 2 hu), (and_tables hc h).1⟩

example := C70_and_tables (toyEnv true) Witness.rand exCircuit (by meets) _ (Witness.run_eq true)

/-- C70: the same per gate, with the zero label of its output. -/
theorem C70_and_entry (E : Env) (rnd : GarbleRand) (c : Circuit) (hc : WellTyped c) (gc : GarbledCircuit)
    (e : EncodingKey) (d : DecodingKey) (h : garble E rnd c = .ok (gc, e, d)) :
    ∃ run δ, garbleRun E rnd c = .ok run ∧ ∀ (g : Gate) (k a b : Nat), (g, k) ∈ andGates c.gates → g.inputs = [a, b] →
      ∃ A B, run.state.wires[a]? = some ⟨.binary, A⟩ ∧ run.state.wires[b]? = some ⟨.binary, B⟩ ∧
        List.lookup 2 e.delta = some ⟨.binary, δ⟩ ∧ colourBit δ = true ∧
        List.lookup g.output gc.fHalf =
          some (⟨.binary, garblerHalf E.sha256 δ A B k⟩, ⟨.binary, evaluatorHalf E.sha256 δ A B k⟩) ∧
        run.state.wires[g.output]? = some ⟨.binary, andLabel E.sha256 δ A B k⟩ := by
  obtain ⟨run, hr, hok⟩ := garbleRun_ok E rnd hc
  rw [garble_of_run hr] at h
  obtain ⟨rfl, rfl, rfl⟩ : ⟨c, run.state.f, run.state.fHalf⟩ = gc ∧ (⟨run.encWires, run.delta⟩ : EncodingKey) = e ∧
      (⟨run.state.d, run.outputsStartAt⟩ : DecodingKey) = d := by
    have := Except.ok.inj h
    exact ⟨congrArg Prod.fst this, congrArg (fun t => t.2.1) this, congrArg (fun t => t.2.2) this⟩
  refine ⟨run, delta2 run.delta, hr, ?_⟩
  intro g k a b hp hin
  obtain ⟨hg, ha⟩ := andGates_mem hp
  obtain ⟨doms, hgok⟩ := gatesOK_mem hc.gates hg
  have hk : g.kind = .and := by
    unfold isAnd at ha
    split at ha
    · assumption
    · cases ha
  have har := hgok.arity
  rw [hk] at har
  have hgz : GatesFit GoodDomain c.inputDomains c.gates := hc.gates
  have lab : ∀ i ∈ g.inputs, ∃ Z, run.state.wires[i]? = some ⟨.binary, Z⟩ := by
    intro i hi
    have := gatesFit_input_dom hgz _ hg _ hi
    rw [har.2] at this
    obtain ⟨z, hz, hl⟩ := hok.lab.lab i 2 this
    exact ⟨z.values, by rw [hz, ← label_binary hl]⟩
  obtain ⟨A, hA⟩ := lab a (by simp [hin])
  obtain ⟨B, hB⟩ := lab b (by simp [hin])
  have hz : inputZeros run.state.wires g = (A, B) := by
    simp [inputZeros, zeroAt, hin, hA, hB, List.getD]
  obtain ⟨d1, d2⟩ := delta2_ok (hok.deltas 2 ⟨g, hg, .inl har.2⟩)
  refine ⟨A, B, hA, hB, d1, d2, ?_, ?_⟩
  · have := run_entry hc hr hp
    simp only [andEntry, hz] at this
    exact this
  · have := (and_tables hc hr).2 _ hp
    simp only [hz] at this
    exact this

example := C70_and_entry (toyEnv true) Witness.rand exCircuit (by meets) _ _ _ (Witness.garbled true)

/-- C70: no two AND gates of a circuit ever hash the same bytes, whatever the labels. -/
theorem C70_no_reuse (gates : List Gate) (hn : gates.length < 2 ^ 64) (p q : Gate × Nat) (hp : p ∈ andGates gates)
    (hq : q ∈ andGates gates) (hne : p ≠ q) (v w : WireBytes) : v.toList ++ rowBytes p.2 ≠ w.toList ++ rowBytes q.2 := by
  intro h
  exact hne (andGates_unique hp hq (key_inj (andGates_lt hn hp) (andGates_lt hn hq) h).2)

/-- The example circuit of Spec/Garble has an AND gate; it is number one. -/
example : andGates exCircuit.gates = [(⟨3, 2, [0, 1], .and⟩, 1)] := rfl

/-- A circuit with two AND gates and an addition between them. -/
example : andGates [⟨2, 2, [0, 1], .and⟩, ⟨3, 2, [0, 2], .add⟩, ⟨4, 2, [3, 2], .and⟩] =
    [(⟨2, 2, [0, 1], .and⟩, 1), (⟨4, 2, [3, 2], .and⟩, 2)] := rfl

end FP.Props
