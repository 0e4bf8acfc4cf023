import Verif.Proof.Decode
import Verif.Proof.Witness
/-
C01, C02: garbled evaluation computes the circuit.
-/
namespace FP.Props
open FP.Spec

/-- C01.  Garble, encode, evaluate and decode compute the circuit; nothing panics (in debug or
release builds, for every choice of label randomness, every hash function).  The decoded values
are right as soon as the hash does not collide on two labels of one wire of this run. -/
theorem C01_garble_correct (E : Env) (rnd : GarbleRand) (c : Circuit) (x : List Nat)
    (hc : WellTyped c) (hx : InputOK c x) :
    ∃ gc e d X Z, garble E rnd c = .ok (gc, e, d) ∧ e.encode E.dbg x = .ok X ∧
      evaluate E gc X = .ok Z ∧
      ((∀ run, garbleRun E rnd c = .ok run → NoCollision E run) →
        d.decode E Z = .ok (meaning c x)) := by
  obtain ⟨run, hrun, hok⟩ := garbleRun_ok E rnd hc
  obtain ⟨X, hX, hXl, hXi⟩ := encode_ok hc hok hx
  obtain ⟨Z, hZ, hZl, hZi⟩ := evaluate_ok hc hok hx hXl hXi
  refine ⟨_, _, ⟨run.state.d, run.outputsStartAt⟩, X, Z, ?_, hX, hZ, fun hnc => ?_⟩
  · unfold garble; rw [hrun, okb, purek]
  · exact garble_decode_ok hc hok (hnc run hrun) hZl
      (by rw [← hc.inputs]; exact hx.length_eq) hZi

/-- C02.  What `evaluate` returns for output `i` is the label of the true output value: the
garbler's zero label plus delta times the value, component by component modulo the domain.  No
assumption on the hash function. -/
theorem C02_evaluate_label (E : Env) (rnd : GarbleRand) (c : Circuit) (x : List Nat)
    (hc : WellTyped c) (hx : InputOK c x) :
    ∃ gc e d X Z run, garble E rnd c = .ok (gc, e, d) ∧ e.encode E.dbg x = .ok X ∧
      evaluate E gc X = .ok Z ∧ garbleRun E rnd c = .ok run ∧
      Z.length = c.numOutputs ∧ (meaning c x).length = c.numOutputs ∧
      ∀ i v w, (meaning c x)[i]? = some v → Z[i]? = some w →
        ∃ m, (c.inputDomains ++ c.gates.map Gate.outputDomain)[c.numWires - c.numOutputs + i]?
            = some m ∧ LabelIn run (c.numWires - c.numOutputs + i) m v w := by
  obtain ⟨run, hrun, hok⟩ := garbleRun_ok E rnd hc
  obtain ⟨X, hX, hXl, hXi⟩ := encode_ok hc hok hx
  obtain ⟨Z, hZ, hZl, hZi⟩ := evaluate_ok hc hok hx hXl hXi
  refine ⟨_, _, ⟨run.state.d, run.outputsStartAt⟩, X, Z, run, ?_, hX, hZ, hrun, hZl, ?_, ?_⟩
  · unfold garble; rw [hrun, okb, purek]
  · have h1 := hc.wires; have h2 := hc.outputs
    have h3 : x.length = c.numInputs := by rw [← hc.inputs]; exact hx.length_eq
    simp [meaning, wireValues_length]; omega
  · intro i v w hv hw
    have hi : i < c.numOutputs := by rw [← hZl]; exact (List.getElem?_eq_some_iff.mp hw).1
    obtain ⟨m, z, w', v', hm, hz, hw', hv', hcar⟩ := hZi i hi
    obtain rfl : w = w' := by rw [hw] at hw'; injection hw'
    obtain rfl : v = v' := by rw [hv] at hv'; injection hv'
    rw [hok.start] at hm hz
    refine ⟨m, hm, ?_⟩
    obtain ⟨z', hz', hl⟩ := hok.lab.lab _ m hm
    obtain rfl : z = z' := by rw [hz] at hz'; injection hz'
    have hin : c.inputDomains.length ≤ c.numWires - c.numOutputs + i := by
      have := hc.inputs; have := hc.wires; have := hc.outputs; omega
    have hm2 := hm
    rw [List.getElem?_append_right hin, List.getElem?_map] at hm2
    cases hg : c.gates[c.numWires - c.numOutputs + i - c.inputDomains.length]? with
    | none => rw [hg] at hm2; cases hm2
    | some g =>
      rw [hg] at hm2
      simp only [Option.map_some, Option.some.injEq] at hm2
      have hmem := List.mem_of_getElem? hg
      obtain ⟨d, hgok⟩ := gatesOK_mem hc.gates hmem
      obtain ⟨δ, hδ, _⟩ := hok.deltas _ (usesDomain_range hmem hgok)
      rw [hm2] at hδ
      exact ⟨z, δ, hz, hl.dom, hδ, hcar.vlt, hcar.labelOf hδ⟩

example := C02_evaluate_label (toyEnv true) Witness.rand exCircuit [1, 0, 4] (by meets) (by meets)

theorem exCircuit_wellTyped : WellTyped exCircuit := by
  refine ⟨rfl, ?_, ?_, rfl, by decide⟩
  · intro d hd
    simp only [exCircuit, List.mem_cons, List.not_mem_nil, or_false] at hd
    rcases hd with rfl | rfl | rfl
    · exact ⟨by decide, ⟨3, 2, [0, 1], .and⟩, by simp [exCircuit], .inl rfl⟩
    · exact ⟨by decide, ⟨3, 2, [0, 1], .and⟩, by simp [exCircuit], .inl rfl⟩
    · exact ⟨by decide, ⟨5, 5, [4], .mul 3⟩, by simp [exCircuit], .inl rfl⟩
  · refine ⟨⟨rfl, by decide, by decide, by decide, by simp⟩,
      ⟨rfl, by decide, by decide, by decide, by simp⟩,
      ⟨rfl, by decide, by decide, by decide, by simp⟩,
      ⟨rfl, by decide, by decide, by decide, by simp⟩,
      ⟨rfl, by decide, by decide, by decide, by simp⟩, trivial⟩

/-- The hypotheses of C01 and C02 are met by a circuit with every gate kind. -/
example : WellTyped exCircuit ∧ InputOK exCircuit [1, 1, 3] ∧ meaning exCircuit [1, 1, 3] = [2, 1] :=
  ⟨exCircuit_wellTyped, .cons (by decide) (.cons (by decide) (.cons (by decide) .nil)), by decide⟩

/-- The no-collision hypothesis of C01 is met (here by a hash that keeps the label), so the
conclusion is reached: the garbled run decodes to the circuit's output. -/
example (rnd : GarbleRand) (dbg : Bool) : ∃ gc e d X Z,
    garble (toyEnv dbg) rnd exCircuit = .ok (gc, e, d) ∧ e.encode dbg [1, 1, 3] = .ok X ∧
    evaluate (toyEnv dbg) gc X = .ok Z ∧ d.decode (toyEnv dbg) Z = .ok [2, 1] := by
  obtain ⟨gc, e, d, X, Z, h1, h2, h3, h4⟩ := C01_garble_correct (toyEnv dbg) rnd exCircuit [1, 1, 3]
    exCircuit_wellTyped (.cons (by decide) (.cons (by decide) (.cons (by decide) .nil)))
  exact ⟨gc, e, d, X, Z, h1, h2, h3, h4 fun run _ => toy_noCollision dbg run⟩

end FP.Props
