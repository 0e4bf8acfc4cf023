import Verif.Proof.Garble
import Verif.Proof.Witness
/-
A concrete garbled circuit, to show that the hypotheses of theorems can be met.
-/
namespace FP.Witness
open Spec

theorem run_exists (dbg : Bool) : ∃ run, garbleRun (toyEnv dbg) rand exCircuit = .ok run ∧ RunOK (toyEnv dbg) exCircuit run :=
  garbleRun_ok _ _ circuit_typed

/-- A run of garbling on the example circuit. -/
noncomputable def run (dbg : Bool) : GarbleRun := (run_exists dbg).choose

theorem run_eq (dbg : Bool) : garbleRun (toyEnv dbg) rand exCircuit = .ok (run dbg) := (run_exists dbg).choose_spec.1

theorem run_ok (dbg : Bool) : RunOK (toyEnv dbg) exCircuit (run dbg) := (run_exists dbg).choose_spec.2

/-- Its garbled circuit. -/
noncomputable def gc (dbg : Bool) : GarbledCircuit := ⟨exCircuit, (run dbg).state.f, (run dbg).state.fHalf⟩

/-- Its encoding key. -/
noncomputable def ek (dbg : Bool) : EncodingKey := ⟨(run dbg).encWires, (run dbg).delta⟩

/-- Its decoding key. -/
noncomputable def dk (dbg : Bool) : DecodingKey := ⟨(run dbg).state.d, (run dbg).outputsStartAt⟩

theorem garbled (dbg : Bool) : garble (toyEnv dbg) rand exCircuit = .ok (gc dbg, ek dbg, dk dbg) := by
  unfold garble
  rw [run_eq]
  rfl

theorem encoded_exists (dbg : Bool) : ∃ X, (ek dbg).encode dbg [1, 0, 4] = .ok X := by
  obtain ⟨X, h, -⟩ := encode_ok circuit_typed (run_ok dbg) circuit_input
  exact ⟨X, h⟩

end FP.Witness
