import Verif.Proof.Shape
import Verif.Props.Keys
import Verif.Props.Garble
import Verif.Proof.Witness
import Verif.Proof.WitnessRun
/-
C74: evaluation never invents results: which circuits can be evaluated, and how many results there are.
-/
namespace FP.Props
open FP.Spec

/-- In a release build the plain evaluator returns exactly if there are no more inputs than wires and every gate is
computable. -/
theorem C74_plain_returns (c : Circuit) (x : List Nat) :
    (∃ w, c.eval false x = .ok w) ↔ x.length ≤ c.numWires ∧ ∀ g ∈ c.gates, Computable c.numWires g :=
  ⟨fun ⟨_, h⟩ => (eval_shape h).2, fun ⟨h1, h2⟩ => eval_total h1 h2⟩

/-- In every build, what it returns has one value for each wire. -/
theorem C74_plain_shape (dbg : Bool) (c : Circuit) (x w : List Nat) (h : c.eval dbg x = .ok w) :
    w.length = c.numWires ∧ x.length ≤ c.numWires ∧ ∀ g ∈ c.gates, Computable c.numWires g := eval_shape h

example : ∃ w, (buildCircuit false 4 1).bind (fun c => c.eval false [1, 0, 1, 1, 1, 1, 1, 1]) = .ok w ∧ w.length = 18 :=
  ⟨_, by rfl, by decide⟩

/-- Garbled circuits, from whomever they come: if the evaluator returns, then there is one label for each output, there
was one for each input, and inputs, outputs and gates refer to existing wires.  (The two numbers are of type `usize`.) -/
theorem C74_evaluate_shape (E : Env) (gc : GarbledCircuit) (x out : List Wire) (hw : gc.circuit.numWires < 2 ^ 64)
    (ho : gc.circuit.numOutputs < 2 ^ 64) (h : evaluate E gc x = .ok out) :
    out.length = gc.circuit.numOutputs ∧ gc.circuit.numInputs ≤ x.length ∧
      (E.dbg = true → x.length = gc.circuit.numInputs) ∧ Addressed gc.circuit := evaluate_shape hw ho h

/-- In particular circuits with more outputs than wires are never evaluated, also where the subtraction wraps around. -/
theorem C74_too_many_outputs (E : Env) (gc : GarbledCircuit) (x : List Wire) (ho : gc.circuit.numOutputs < 2 ^ 64)
    (h : gc.circuit.numWires < gc.circuit.numOutputs) : ∃ e, evaluate E gc x = .error e := by
  cases he : evaluate E gc x with
  | error e => exact ⟨e, rfl⟩
  | ok out =>
    have := (evaluate_shape (by omega) ho he).2.2.2.outputs
    omega

example := C74_too_many_outputs (toyEnv true) ⟨⟨3, 2, 4, [⟨2, 2, [0, 1], .and⟩], [2, 2]⟩, [], []⟩ [] (by meets) (by meets)

/-- What `garble` returns, for any circuit: the circuit itself, one label for each input, and for each gate from the
first output wire on as many hashes as its output has values. -/
theorem C74_garble_shape (E : Env) (rnd : GarbleRand) (c : Circuit) (gc : GarbledCircuit) (e : EncodingKey) (d : DecodingKey)
    (h : garble E rnd c = .ok (gc, e, d)) :
    gc.circuit = c ∧ e.wires.length = c.numInputs ∧ c.numInputs ≤ c.inputDomains.length ∧
      (c.numOutputs ≤ c.numWires → d.offset = c.numWires - c.numOutputs) ∧
      d.hashes.map List.length = (c.gates.filter fun g => d.offset ≤ g.output).map Gate.outputDomain := garble_shape h

example := C74_garble_shape (toyEnv true) Witness.rand exCircuit _ _ _ (Witness.garbled true)

/-- The whole way, for any circuit, well-formed or not: whenever all four steps return there are as many results as the
circuit has outputs, each below the domain of the label it was decoded from. -/
theorem C74_results (E : Env) (rnd : GarbleRand) (c : Circuit) (hw : c.numWires < 2 ^ 64) (ho : c.numOutputs < 2 ^ 64)
    (gc : GarbledCircuit) (e : EncodingKey) (d : DecodingKey) (x : List Nat) (X Z : List Wire) (y : List Nat)
    (h1 : garble E rnd c = .ok (gc, e, d)) (h2 : e.encode E.dbg x = .ok X) (h3 : evaluate E gc X = .ok Z)
    (h4 : d.decode E Z = .ok y) :
    y.length = c.numOutputs ∧ c.numInputs ≤ x.length ∧ (E.dbg = true → x.length = c.numInputs) ∧ Addressed c ∧
      ∀ (i : Nat) (w : Wire) (v : Nat), Z[i]? = some w → y[i]? = some v → v < w.dom := by
  obtain ⟨a1, a2, -, -, -⟩ := garble_shape h1
  subst a1
  obtain ⟨b1, b2⟩ := encode_length h2
  obtain ⟨c1, c2, -, c4⟩ := evaluate_shape hw ho h3
  obtain ⟨d1, d2⟩ := C09_decode_sound E d Z y h4
  refine ⟨by rw [d1, c1], by omega, fun hd => by rw [← a2]; exact (b2 hd).symm, c4, fun i w v hi hv => (d2 i w v hi hv).1⟩

/-- All four steps return for well-formed circuits (C01). -/
example (E : Env) (rnd : GarbleRand) (c : Circuit) (x : List Nat) (hc : WellTyped c) (hx : InputOK c x)
    (hn : ∀ run, garbleRun E rnd c = .ok run → NoCollision E run) :
    ∃ gc e d X Z y, garble E rnd c = .ok (gc, e, d) ∧ e.encode E.dbg x = .ok X ∧ evaluate E gc X = .ok Z ∧
      d.decode E Z = .ok y := by
  obtain ⟨gc, e, d, X, Z, h1, h2, h3, h4⟩ := C01_garble_correct E rnd c x hc hx
  exact ⟨gc, e, d, X, Z, _, h1, h2, h3, h4 hn⟩

/-- In a release build `garble` accepts a circuit with more outputs than wires, and makes no decoding information for it.
-/
theorem C74_garbles_too_many (E : Env) (hd : E.dbg = false) (rnd : GarbleRand) :
    ∃ gc e, garble E rnd ⟨0, 0, 1, [], []⟩ = .ok (gc, e, ⟨[], 2 ^ 64 - 1⟩) ∧ ∀ x, ∃ f, evaluate E gc x = .error f := by
  refine ⟨⟨⟨0, 0, 1, [], []⟩, [], []⟩, ⟨[], []⟩, ?_, fun x => C74_too_many_outputs E _ x (by norm_num) (by simp)⟩
  simp [garble, garbleRun, garbleDeltas, subR, hd, sliceR, List.mapM_nil, bind, Except.bind, pure, Except.pure]

example := C74_garbles_too_many (toyEnv false) (by meets) Witness.rand

end FP.Props
