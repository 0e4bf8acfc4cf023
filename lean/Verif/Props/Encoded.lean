import Verif.Proof.Encoded
import Verif.Proof.Witness
/-
C73: the labels that encode an input say nothing about it, and circuits of additions and multiplications by constants say
only their result.
-/
namespace FP.Props
open FP.Spec

/-- The labels of an input say nothing about the input: for any two inputs of a well-formed circuit there is a one-to-one
correspondence between the random choices with which the labels sent for one and for the other are the same.  It changes
only what is drawn for the inputs. -/
theorem C73_labels (c : Circuit) (hc : WellTyped c) :
    ∃ Φ : List Nat → List Nat → GarbleRand → GarbleRand, ∀ x x', InputOK c x → InputOK c x' → ∀ r, Drawn c r →
      Drawn c (Φ x x' r) ∧ Φ x' x (Φ x x' r) = r ∧ (Φ x x' r).delta = r.delta ∧
      ∀ E : Env, sentLabels E c x' (Φ x x' r) = sentLabels E c x r :=
  ⟨otherDraws c, fun _ _ hx hx' r hr => ⟨otherDraws_drawn hc hx' r, otherDraws_back hc hx hx' hr, rfl,
    fun _ => other_labels hc hx hx' r⟩⟩

example := C73_labels exCircuit (by meets)

/-- Circuits of additions and multiplications by constants, over all domains, say nothing but their result: under such a
correspondence everything the evaluator gets is the same, and if the results are equal so is the key for decoding them.
No assumption on the hash. -/
theorem C73_linear (c : Circuit) (hc : WellTyped c) (hl : LinearGates c) :
    ∃ Φ : List Nat → List Nat → GarbleRand → GarbleRand, ∀ x x', InputOK c x → InputOK c x' → ∀ r, Drawn c r →
      Drawn c (Φ x x' r) ∧ Φ x' x (Φ x x' r) = r ∧ (Φ x x' r).delta = r.delta ∧
      ∀ E : Env, evaluatorView c x' (E, Φ x x' r) = evaluatorView c x (E, r) ∧
        (meaning c x' = meaning c x → decoderView c x' (E, Φ x x' r) = decoderView c x (E, r)) :=
  ⟨otherDraws c, fun _ _ hx hx' r hr => ⟨otherDraws_drawn hc hx' r, otherDraws_back hc hx hx' hr, rfl,
    fun _ => other_linear hc hl hx hx' r⟩⟩

/-- Every well-formed circuit has such choices, and they lead to labels. -/
theorem C73_drawn (c : Circuit) (hc : WellTyped c) (x : List Nat) (hx : InputOK c x) (r : GarbleRand) :
    ∃ r', Drawn c r' ∧ r'.delta = r.delta ∧ ∀ E, ∃ X, sentLabels E c x r' = .ok X ∧ X.length = c.numInputs := by
  refine ⟨otherDraws c x x r, otherDraws_drawn hc hx r, rfl, fun E => ?_⟩
  obtain ⟨run, hrun, hok⟩ := garbleRun_ok E (otherDraws c x x r) hc
  obtain ⟨X, h1, h2, -⟩ := encode_ok hc hok hx
  refine ⟨X, ?_, h2⟩
  unfold sentLabels
  rw [garble_of_run hrun, okb]
  exact h1

example := C73_drawn exCircuit (by meets) [1, 0, 4] (by meets) Witness.rand

/-- The sum of two digits mod 10, tripled. -/
def tripleSum : Circuit :=
  { numInputs := 2, numOutputs := 1, numWires := 4, inputDomains := [10, 10]
    gates := [⟨2, 10, [0, 1], .add⟩, ⟨3, 10, [2], .mul 3⟩] }

theorem tripleSum_ok : WellTyped tripleSum ∧ LinearGates tripleSum := by
  refine ⟨⟨rfl, ?_, ?_, rfl, by decide⟩, ?_⟩
  · intro d hd
    simp only [tripleSum, List.mem_cons, List.not_mem_nil, or_false] at hd
    rcases hd with rfl | rfl <;> exact ⟨by decide, ⟨2, 10, [0, 1], .add⟩, by simp [tripleSum], .inl rfl⟩
  · exact ⟨⟨rfl, by decide, by decide, by decide, by simp⟩, ⟨rfl, by decide, by decide, by decide, by simp⟩, trivial⟩
  · intro g hg
    simp only [tripleSum, List.mem_cons, List.not_mem_nil, or_false] at hg
    rcases hg with rfl | rfl
    · exact .inl rfl
    · exact .inr ⟨3, rfl⟩

example := C73_linear tripleSum tripleSum_ok.1 tripleSum_ok.2

example : InputOK tripleSum [4, 9] ∧ InputOK tripleSum [7, 6] ∧ InputOK tripleSum [0, 1] ∧
    meaning tripleSum [4, 9] = [9] ∧ meaning tripleSum [7, 6] = [9] ∧ meaning tripleSum [0, 1] = [3] :=
  ⟨.cons (by decide) (.cons (by decide) .nil), .cons (by decide) (.cons (by decide) .nil),
    .cons (by decide) (.cons (by decide) .nil), by decide, by decide, by decide⟩

end FP.Props
