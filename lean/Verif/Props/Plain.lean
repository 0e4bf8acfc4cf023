import Verif.Proof.Witness
import Verif.Proof.PlainExact
import Verif.Spec.Plain
import Verif.Props.Circuit
/-
C03: what the plain evaluator computes, right or wrong.
-/
namespace FP.Props
open FP.Spec

theorem wordValues_cons (g : Gate) (gs : List Gate) (vals : List Nat) :
    wordValues (g :: gs) vals = wordValues gs (vals ++ [wordValue g (g.inputs.map (vals.getD · 0))]) := rfl

theorem wordValues_prefix (gs : List Gate) : ∀ vals, ∃ ext, wordValues gs vals = vals ++ ext ∧ ext.length = gs.length := by
  induction gs with
  | nil => exact fun vals => ⟨[], by simp [wordValues], rfl⟩
  | cons g gs ih =>
    intro vals
    obtain ⟨ext, h1, h2⟩ := ih (vals ++ [wordValue g (g.inputs.map (vals.getD · 0))])
    exact ⟨_, by rw [wordValues_cons, h1, List.append_assoc], by simp [h2]⟩

/-- One gate. -/
theorem evalPlain_word (dbg : Bool) {doms : List Nat} {g : Gate} (hg : GateFits SmallPos doms g) (vals ws : List Nat)
    (hl : vals.length = doms.length) (hw : ∀ i, i < doms.length → ws[i]? = vals[i]?) :
    (dbg = false ∨ Fits16 g (g.inputs.map (vals.getD · 0)) → g.evalPlain dbg ws = .ok (wordValue g (g.inputs.map (vals.getD · 0)))) ∧
    (dbg = true → ¬ Fits16 g (g.inputs.map (vals.getD · 0)) → g.evalPlain dbg ws = .error .panic) := by
  have hread : ∀ i ∈ g.inputs, ∃ v, ws[i]? = some v ∧ vals[i]? = some v := by
    intro i hi
    have hlt := (List.getElem?_eq_some_iff.mp (hg.inputs i hi)).1
    refine ⟨vals[i]'(by omega), ?_, List.getElem?_eq_getElem (by omega)⟩
    rw [hw i hlt]; exact List.getElem?_eq_getElem (by omega)
  have har := hg.arity
  cases hk : g.kind with
  | add =>
    have hm : g.inputs.mapM (idxR ws) = .ok (g.inputs.map (vals.getD · 0)) := by
      apply mapM_ok
      intro i hi
      obtain ⟨v, h1, h2⟩ := hread i hi
      rw [idxR_ok h1]; simp [List.getD, h2]
    simp only [Gate.evalPlain, hk, hm, okb, sumU16, wordValue, Fits16]
    generalize (g.inputs.map (vals.getD · 0)) = vs
    refine ⟨fun h => ?_, fun hd hf => ?_⟩
    · have : vs.foldlM (addR dbg 65536) 0 = .ok (vs.sum % 65536) := by
        rcases h with rfl | h
        · rw [sumU16_release _ 0 (by decide), Nat.zero_add]
        · rw [sumU16_ok dbg _ 0 (by omega), Nat.zero_add, Nat.mod_eq_of_lt h]
      rw [this, okb, remR_ok hg.domain.1]
    · subst hd
      rw [sumU16_debug _ 0 (by omega) (by decide)]; rfl
  | mul c =>
    rw [hk] at har
    obtain ⟨a, hins⟩ := List.length_eq_one_iff.mp har.1
    obtain ⟨v, h1, h2⟩ := hread a (by simp [hins])
    have hv0 : (g.inputs.map (vals.getD · 0)).headD 0 = v := by simp [hins, List.getD, h2]
    simp only [wordValue, hk, hv0, Fits16]
    simp only [Gate.evalPlain, hk, hins, firstR, okb, idxR_ok h1]
    unfold mulR
    refine ⟨fun h => ?_, fun hd hf => ?_⟩
    · by_cases hp : v * c < 65536
      · rw [if_pos hp, Nat.mod_eq_of_lt hp]
      · rw [if_neg hp]
        rcases h with rfl | h
        · rfl
        · exact absurd h hp
    · rw [if_neg hf, hd]; rfl
  | proj p =>
    rw [hk] at har
    obtain ⟨a, hins⟩ := List.length_eq_one_iff.mp har
    obtain ⟨v, h1, h2⟩ := hread a (by simp [hins])
    have hod : g.outputDomain = p.dom := by simp [Gate.outputDomain, hk]
    obtain ⟨y, hy, _, hye⟩ := project_ok (p := p) (hod ▸ hg.range.1) v
    simp only [Gate.evalPlain, hk, hins, firstR, okb, idxR_ok h1, hy]
    rw [hye]
    refine ⟨fun _ => ?_, fun _ hf => ?_⟩
    · cases p <;> simp [wordValue, hk, List.getD, h2]
    · exact absurd (by unfold Fits16; rw [hk]; trivial) hf
  | and =>
    rw [hk] at har
    obtain ⟨a, b, hins⟩ := List.length_eq_two.mp har.1
    obtain ⟨va, h1, h2⟩ := hread a (by simp [hins])
    simp only [Gate.evalPlain, hk, hins, firstR, okb, idxR_ok h1, purek]
    refine ⟨fun _ => ?_, fun _ hf => ?_⟩
    · simp only [wordValue, hk, List.map_cons, List.getD, h2, Option.getD_some, List.headD_cons]
      rw [Nat.and_one_is_mod]
    · exact absurd (by unfold Fits16; rw [hk]; trivial) hf

theorem eval_words (dbg : Bool) (W : List Nat) (gs : List Gate) : ∀ (doms vals ws : List Nat),
    GatesFit SmallPos doms gs → vals.length = doms.length → wordValues gs vals = W →
    (∀ i, i < doms.length → ws[i]? = vals[i]?) → doms.length + gs.length = ws.length →
    ((dbg = false ∨ ∀ g ∈ gs, Fits16 g (g.inputs.map (W.getD · 0))) →
      gs.foldlM (fun w g => do setR w g.output (← g.evalPlain dbg w)) ws = .ok W) ∧
    (dbg = true → ¬ (∀ g ∈ gs, Fits16 g (g.inputs.map (W.getD · 0))) →
      gs.foldlM (fun w g => do setR w g.output (← g.evalPlain dbg w)) ws = .error .panic) := by
  induction gs with
  | nil =>
    intro doms vals ws _ hl hW hw hlen
    refine ⟨fun _ => ?_, fun _ h => absurd (by simp) h⟩
    rw [← hW]
    simp only [List.foldlM_nil, purek, wordValues, List.foldl_nil]
    congr 1
    apply List.ext_getElem?
    intro i
    by_cases hi : i < doms.length
    · exact hw i hi
    · have h1 : ws[i]? = none := by simp at hlen ⊢; omega
      have h2 : vals[i]? = none := by simp; omega
      rw [h1, h2]
  | cons g gs ih =>
    intro doms vals ws ⟨hg, hgs⟩ hl hW hw hlen
    simp only [List.length_cons] at hlen
    obtain ⟨ext, hext, -⟩ := wordValues_prefix (g :: gs) vals
    have hmap : g.inputs.map (W.getD · 0) = g.inputs.map (vals.getD · 0) := by
      apply List.map_congr_left
      intro i hi
      have hlt := (List.getElem?_eq_some_iff.mp (hg.inputs i hi)).1
      rw [← hW, hext]
      simp only [List.getD]
      rw [List.getElem?_append_left (by omega)]
    obtain ⟨h1, h2⟩ := evalPlain_word dbg hg vals ws hl hw
    have ho : g.output < ws.length := by rw [hg.output]; omega
    have hstep := ih (doms ++ [g.outputDomain]) (vals ++ [wordValue g (g.inputs.map (vals.getD · 0))])
      (ws.set g.output (wordValue g (g.inputs.map (vals.getD · 0)))) hgs (by simp [hl]) hW (by
        intro i hi
        simp only [List.length_append, List.length_singleton] at hi
        by_cases hio : i = g.output
        · subst hio
          rw [List.getElem?_set_self ho, hg.output, ← hl]; simp
        · have : i < doms.length := by have := hg.output; omega
          rw [List.getElem?_set_ne (by omega), hw i this, List.getElem?_append_left (by omega)]) (by simp; omega)
    rw [List.foldlM_cons, List.forall_mem_cons, hmap]
    constructor
    · intro h
      rw [h1 (h.imp id And.left), okb, setR_ok _ ho, okb]
      exact hstep.1 (h.imp id And.right)
    · intro hd h
      by_cases hf : Fits16 g (g.inputs.map (vals.getD · 0))
      · rw [h1 (.inr hf), okb, setR_ok _ ho, okb]
        exact hstep.2 hd fun hgs => h ⟨hf, hgs⟩
      · rw [h2 hd hf]; rfl

/-- C03: what the plain evaluator computes.  On a well-formed circuit and as many values as it has inputs, whatever they are,
a release build returns the values of all wires in 16-bit arithmetic. -/
theorem C03_release_values (c : Circuit) (x : List Nat) (hc : WellFormed SmallPos c) (hx : x.length = c.numInputs) :
    c.eval false x = .ok (wordValues c.gates x) := by
  have hw := hc.wires
  have hi := hc.inputs
  unfold Circuit.eval
  rw [eval_inputs_ok x c.numWires (by omega), okb]
  refine (eval_words false _ c.gates c.inputDomains x _ hc.gates (by omega) rfl ?_ ?_).1 (.inl rfl)
  · intro i hi
    rw [List.getElem?_append_left (by omega)]
  · simp; omega

example := C03_release_values exCircuit [1, 0, 4] (by meets) (by meets)

/-- C03: a build with checks returns the same if no sum or product exceeds 16 bits, and panics otherwise. -/
theorem C03_debug_values (c : Circuit) (x : List Nat) (hc : WellFormed SmallPos c) (hx : x.length = c.numInputs) :
    ((∀ g ∈ c.gates, Fits16 g (g.inputs.map ((wordValues c.gates x).getD · 0))) → c.eval true x = .ok (wordValues c.gates x)) ∧
    (¬ (∀ g ∈ c.gates, Fits16 g (g.inputs.map ((wordValues c.gates x).getD · 0))) → c.eval true x = .error .panic) := by
  have hw := hc.wires
  have hi := hc.inputs
  unfold Circuit.eval
  rw [eval_inputs_ok x c.numWires (by omega), okb]
  have := eval_words true _ c.gates c.inputDomains x (x ++ List.replicate (c.numWires - x.length) 0) hc.gates (by omega) rfl
    (fun i hi => by rw [List.getElem?_append_left (by omega)]) (by simp; omega)
  exact ⟨fun h => this.1 (.inr h), fun h => this.2 rfl h⟩

/-- The circuits with which the failures are shown are well formed, and on these the values are as computed here: the AND of 1
and 0 comes out as 1, and 3 times 3 modulo 5 as 9. -/
example : WellFormed SmallPos andCircuit ∧ WellFormed SmallPos mulCircuit ∧
    wordValues andCircuit.gates [1, 0] = [1, 0, 1] ∧ wordValues mulCircuit.gates [3] = [3, 9] := by
  refine ⟨⟨rfl, ?_, ⟨⟨rfl, by decide, by decide, by decide, by simp⟩, trivial⟩, rfl, by decide⟩,
    ⟨rfl, ?_, ⟨⟨rfl, by decide, by decide, by decide, by simp⟩, trivial⟩, rfl, by decide⟩, by decide, by decide⟩
  · intro d hd
    simp only [andCircuit, List.mem_cons, List.not_mem_nil, or_false, or_self] at hd
    subst hd
    exact ⟨by decide, ⟨2, 2, [0, 1], .and⟩, by simp [andCircuit], .inl rfl⟩
  · intro d hd
    simp only [mulCircuit, List.mem_cons, List.not_mem_nil, or_false] at hd
    subst hd
    exact ⟨by decide, ⟨1, 5, [0], .mul 3⟩, by simp [mulCircuit], .inl rfl⟩

end FP.Props
