import Verif.Proof.Forge
import Verif.Props.Encoded
import Verif.Proof.Witness
/-
C75: who holds the labels of one input cannot tell the labels of other values.
-/
namespace FP.Props
open FP.Spec

/-- The labels of an input say nothing about the deltas, hence nothing about the other labels of the same wires: to any
deltas there are as many choices that lead to the same labels.  For any two inputs of any well-formed circuit. -/
theorem C75_labels (c : Circuit) (hc : WellTyped c) :
    ∃ Φ : List Nat → List Nat → (Nat → WireBytes) → GarbleRand → GarbleRand,
      ∀ x x', InputOK c x → InputOK c x' → ∀ D r, Drawn c r →
      Drawn c (Φ x x' D r) ∧ (Φ x x' D r).delta = D ∧ Φ x' x r.delta (Φ x x' D r) = r ∧
      ∀ E : Env, sentLabels E c x' (Φ x x' D r) = sentLabels E c x r :=
  ⟨redrawn c, fun _ _ hx hx' D r hr => ⟨redrawn_drawn hc hx' D r, rfl, redrawn_back hc hx hx' D hr,
    fun _ => redrawn_labels hc hx hx' D r⟩⟩

example := C75_labels exCircuit (by meets)

/-- Circuits of additions and multiplications by constants: under such a correspondence everything the evaluator gets is
the same, but a label for a value `v` of an output other than the value `y` it holds, however it was computed from that, is
right for no two different deltas (where `v - y` is a unit modulo the domain, so in particular for bits and prime domains).
-/
theorem C75_linear (c : Circuit) (hc : WellTyped c) (hl : LinearGates c) :
    ∃ Φ : List Nat → (Nat → WireBytes) → GarbleRand → GarbleRand,
      ∀ x, InputOK c x → ∀ D r, Drawn c r →
      Drawn c (Φ x D r) ∧ (Φ x D r).delta = D ∧ Φ x r.delta (Φ x D r) = r ∧
      ∀ E : Env, evaluatorView c x (E, Φ x D r) = evaluatorView c x (E, r) ∧
        ∀ (i m y v : Nat) (w : Wire), (meaning c x)[i]? = some y → 2 ≤ m → IsUnit ((v : ZMod m) - (y : ZMod m)) →
          OutputLabel E r c i m v w → OutputLabel E (Φ x D r) c i m v w → Wire.delta m (D m) = Wire.delta m (r.delta m) :=
  ⟨fun x => redrawn c x x, fun _ hx D r hr => ⟨redrawn_drawn hc hx D r, rfl, redrawn_back hc hx hx D hr,
    fun _ => ⟨redrawn_linear hc hl hx hx D r, fun _ _ _ _ _ hy hm hu h h' => forged_delta hc hl hx D r hy hu h h' hm⟩⟩⟩

example := C75_linear tripleSum tripleSum_ok.1 tripleSum_ok.2

/-- The same for a strategy: whatever function of what it gets an evaluator uses to compute such a label, if it succeeds for
one choice of the deltas it fails for every other. -/
theorem C75_forgery (c : Circuit) (hc : WellTyped c) (hl : LinearGates c) (x : List Nat) (hx : InputOK c x)
    (E : Env) (A : R (GarbledCircuit × List Wire) → Wire) (r : GarbleRand) (i m y v : Nat) (hy : (meaning c x)[i]? = some y)
    (hm : 2 ≤ m) (hu : IsUnit ((v : ZMod m) - (y : ZMod m))) (h : OutputLabel E r c i m v (A (evaluatorView c x (E, r)))) :
    ∀ D, Wire.delta m (D m) ≠ Wire.delta m (r.delta m) → ∃ r', r'.delta = D ∧
      evaluatorView c x (E, r') = evaluatorView c x (E, r) ∧ ¬ OutputLabel E r' c i m v (A (evaluatorView c x (E, r'))) := by
  intro D hD
  refine ⟨redrawn c x x D r, rfl, redrawn_linear hc hl hx hx D r, fun h' => hD ?_⟩
  rw [redrawn_linear hc hl hx hx D r] at h'
  exact forged_delta hc hl hx D r hy hu h h' hm

/-- Bits: the other value is one apart. -/
theorem C75_bits (y : Nat) (hy : y < 2) : IsUnit (((1 - y : Nat) : ZMod 2) - (y : ZMod 2)) := by
  have : y = 0 ∨ y = 1 := by omega
  rcases this with rfl | rfl <;> decide

example := C75_bits 1 (by meets)

/-- Prime domains: any other value will do. -/
theorem C75_prime (p y v : Nat) (hp : p.Prime) (hy : y < p) (hv : v < p) (h : v ≠ y) : IsUnit ((v : ZMod p) - (y : ZMod p)) := by
  haveI := Fact.mk hp
  rw [isUnit_iff_ne_zero, sub_ne_zero]
  intro e
  rw [ZMod.natCast_eq_natCast_iff'] at e
  rw [Nat.mod_eq_of_lt hv, Nat.mod_eq_of_lt hy] at e
  exact h e

example := C75_prime 5 1 3 (by decide) (by meets) (by meets) (by meets)

/-- There are different deltas, and every value of every output has a label. -/
theorem C75_nontrivial (E : Env) (r : GarbleRand) (c : Circuit) (hc : WellTyped c) (i : Nat) (hi : i < c.numOutputs) :
    ∃ m, (c.inputDomains ++ c.gates.map Gate.outputDomain)[c.numWires - c.numOutputs + i]? = some m ∧
      ∀ v, v < m → ∃ w, OutputLabel E r c i m v w := by
  obtain ⟨run, hrun, hok⟩ := garbleRun_ok E r hc
  have hlt : c.numWires - c.numOutputs + i < (c.inputDomains ++ c.gates.map Gate.outputDomain).length := by
    have := hc.wires
    have := hc.outputs
    have := hc.inputs
    simp; omega
  refine ⟨_, List.getElem?_eq_getElem hlt, fun v hv => ?_⟩
  have hg := List.getElem?_eq_getElem hlt
  generalize (c.inputDomains ++ c.gates.map Gate.outputDomain)[c.numWires - c.numOutputs + i] = m at hg hv ⊢
  obtain ⟨z, hz, hl⟩ := hok.lab.lab _ m hg
  obtain ⟨δ, hδ, hδi⟩ := hok.deltas m (uses_all hc hg)
  obtain ⟨dx, w, -, -, hw⟩ := carries_mk false (uses_good hc hg) hl hδ hδi hv
  refine ⟨w, run, hrun, z, δ, hz, hl.dom, hδ, hv, hw.lab, fun j => ?_⟩
  have := hw.eq δ hδ j
  unfold zd at this
  rw [← Nat.mod_eq_of_lt (hw.lab.lt j), ← ZMod.natCast_eq_natCast_iff']
  push_cast
  exact this

example := C75_nontrivial (toyEnv true) Witness.rand exCircuit (by meets) 1 (by meets)

example : Wire.delta 2 zero32 ≠ Wire.delta 2 (zero32.set 0 1) := by decide

/-- An evaluator of `tripleSum` that guesses a label of a value that the output does not hold, and is right for the deltas
drawn. -/
example (E : Env) (r : GarbleRand) : ∃ w, OutputLabel E r tripleSum 0 10 2 w ∧
    ∀ D, Wire.delta 10 (D 10) ≠ Wire.delta 10 (r.delta 10) → ∃ r', r'.delta = D ∧
      evaluatorView tripleSum [4, 9] (E, r') = evaluatorView tripleSum [4, 9] (E, r) ∧ ¬ OutputLabel E r' tripleSum 0 10 2 w := by
  obtain ⟨m, hm, h⟩ := C75_nontrivial E r tripleSum tripleSum_ok.1 0 (by decide)
  obtain rfl : 10 = m := Option.some.inj hm
  obtain ⟨w, hw⟩ := h 2 (by decide)
  refine ⟨w, hw, C75_forgery tripleSum tripleSum_ok.1 tripleSum_ok.2 [4, 9] (.cons (by decide) (.cons (by decide) .nil)) E
    (fun _ => w) r 0 10 9 2 (by decide) (by decide) ?_ hw⟩
  exact isUnit_iff_exists_inv.mpr ⟨7, by decide⟩

end FP.Props
