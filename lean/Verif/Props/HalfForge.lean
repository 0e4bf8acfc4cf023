import Verif.Proof.HalfForge
import Verif.Props.HalfGates
/-
C78: what the evaluator of a garbled circuit of bits can tell about the labels it does not hold.
-/
namespace FP.Props
open FP Spec

/-- C78: there is a correspondence between the coins (the hash function and the random choices of the garbler) that changes
the deltas to any given `D`, and also the input, under which the evaluator gets exactly the same garbled circuit and the
same labels, and for inputs with the same result even the same decoding key.  It can be undone, so it is a bijection
between the coins with the one and the coins with the other deltas, among those for which no AND gate has inputs with a
label in common and none for which the labels the evaluator holds differ by the other delta.  The hash function is changed
only where a label is hashed that the evaluator does not hold. -/
theorem C78_view (c : Circuit) (hc : WellTyped c) (hb : BinaryGates c) (hne : c.gates ≠ []) (hn : c.numWires < 2 ^ 64) :
    ∃ Φ : List Nat → List Nat → (Nat → WireBytes) → Coins → Coins, ∀ x x', InputOK c x → InputOK c x' → ∀ D p,
      Apart c p → HeldApart c x p (deltaOf (D 2)) →
      Apart c (Φ x x' D p) ∧ HeldApart c x' (Φ x x' D p) (deltaOf (p.2.delta 2)) ∧
      Φ x' x p.2.delta (Φ x x' D p) = p ∧ (Φ x x' D p).1.dbg = p.1.dbg ∧ (Φ x x' D p).2.delta = D ∧
      evaluatorView c x' (Φ x x' D p) = evaluatorView c x p ∧
      (meaning c x' = meaning c x → decoderView c x' (Φ x x' D p) = decoderView c x p) ∧
      ∀ q, (Φ x x' D p).1.sha256 q ≠ p.1.sha256 q → OtherHashed c x p q ∨ OtherHashed c x' (Φ x x' D p) q :=
  ⟨deltaCoins c, fun _ _ hx hx' D p hA hH => by
    obtain ⟨h1, h2, h3, h4, h5, h6, h7, h8, -⟩ := delta_ok hc hb hne hn hx hx' D p hA hH
    exact ⟨h1, h2, h3, h4, h5, h6, h7, h8⟩⟩

/-- C78: the second condition excludes no more deltas than there are AND gates. -/
theorem C78_most (c : Circuit) (hc : WellTyped c) (hb : BinaryGates c) (x : List Nat) (hx : InputOK c x) (p : Coins) :
    ∃ L : List WireBytes, L.length = (c.gates.filter isAnd).length ∧ ∀ d, d ∉ L → HeldApart c x p d := by
  obtain ⟨run, hr, hok⟩ := garbleRun_ok p.1 p.2 hc
  by_cases hne : c.gates = []
  · refine ⟨[], by simp [hne], fun d _ => ⟨run, hr, ?_⟩⟩
    intro g hg
    rw [hne] at hg
    cases hg
  have hs := seen_ok hc hb hne x hok
  refine ⟨(c.gates.filter isAnd).map fun g =>
    add32 (heldLabel c x run (g.inputs.getD 0 0)) (heldLabel c x run (g.inputs.getD 1 0)), by simp, fun d hd => ?_⟩
  rw [heldApart_iff hc hb hx hr hs]
  intro g hg ha e
  apply hd
  rw [List.mem_map]
  refine ⟨g, List.mem_filter.mpr ⟨hg, ha⟩, ?_⟩
  rw [e, add32_comm _ d, add32_cancel]

/-- C78: a strategy that computes a label for the bit an output does not have, from all it gets and from hashes, and is
right with the coins `p`, is right for no other delta with the corresponding coins, unless it asks for the hash of a label
it does not hold.  For all deltas but those excluded above. -/
theorem C78_forgery (c : Circuit) (hc : WellTyped c) (hb : BinaryGates c) (hn : c.numWires < 2 ^ 64) (x : List Nat)
    (hx : InputOK c x) (A : R (GarbledCircuit × List Wire × DecodingKey) → Ask Wire) (p : Coins) (hA : Apart c p)
    (i y : Nat) (hy : (meaning c x)[i]? = some y)
    (h : OutputLabel p.1 p.2 c i 2 (1 - y) ((A (decoderView c x p)).result p.1.sha256)) :
    ∀ D, HeldApart c x p (deltaOf (D 2)) → deltaOf (D 2) ≠ deltaOf (p.2.delta 2) →
      ∃ p' : Coins, p'.2.delta = D ∧ Apart c p' ∧ decoderView c x p' = decoderView c x p ∧
        (¬ OutputLabel p'.1 p'.2 c i 2 (1 - y) ((A (decoderView c x p')).result p'.1.sha256) ∨
          ∃ q ∈ (A (decoderView c x p)).asked p.1.sha256, OtherHashed c x p q ∨ OtherHashed c x p' q) := by
  intro D hH hD
  have hne : c.gates ≠ [] := by
    intro hnil
    have h1 := (List.getElem?_eq_some_iff.mp hy).1
    have h2 := hc.outputs
    have h3 : (wireValues c.gates x).length = c.numWires := by rw [wireValues_length, hx.length_eq, hc.inputs, hc.wires]
    rw [hnil, List.length_nil] at h2
    rw [meaning, List.length_drop, h3] at h1
    omega
  obtain ⟨h1, h2, h3, h4, h5, h6, h7, h8, act, run, run', hr, hr', hs, hs'⟩ := delta_ok hc hb hne hn hx hx D p hA hH
  refine ⟨deltaCoins c x x D p, h5, h1, h7 rfl, ?_⟩
  by_cases hq : ∃ q ∈ (A (decoderView c x p)).asked p.1.sha256,
      OtherHashed c x p q ∨ OtherHashed c x (deltaCoins c x x D p) q
  · exact .inr hq
  · left
    intro h'
    push Not at hq
    rw [h7 rfl, ask_same (sha := p.1.sha256)] at h'
    · exact hD (forged_half hc hb hx hr hr' hs hs' hy h h')
    · intro q hqq
      by_contra hne
      obtain ⟨a, b⟩ := hq q hqq
      rcases h8 q hne with h | h
      · exact a h
      · exact b h

/-- C78: and with the labels it does not hold the forgery would be easy: the delta is the difference of the two labels of
any wire. -/
theorem C78_other_labels (c : Circuit) (hc : WellTyped c) (hb : BinaryGates c) (x : List Nat) (hx : InputOK c x) (p : Coins)
    (run : GarbleRun) (hr : garbleRun p.1 p.2 c = .ok run) (o : Nat) (ho : o < c.numWires) (hne : c.gates ≠ []) (w w' : Wire)
    (h : LabelIn run o 2 (bitOn c x o) w) (h' : LabelIn run o 2 (1 - bitOn c x o) w') :
    w'.values = add32 w.values (deltaOf (p.2.delta 2)) := by
  obtain ⟨run0, hr0, hok⟩ := garbleRun_ok p.1 p.2 hc
  rw [hr] at hr0
  obtain rfl := Except.ok.inj hr0
  have hs := seen_ok hc hb hne x hok
  rw [run_delta hb hne hr hok] at hs
  rw [(held_label hc hb hx hs ho w).1.mp h, (held_label hc hb hx hs ho w').2.mp h']

/-- The hypotheses are met for `a AND b` with both inputs zero, labels `00…0` and `10…0`, the delta `00…01` and
the other delta `010…01`. -/
example : let p : Coins := (toyEnv true, ⟨fun _ => zero32, fun i => zero32.set 0 (if i = 1 then 1 else 0)⟩)
    Apart andCircuit p ∧ InputOK andCircuit [0, 0] ∧ (meaning andCircuit [0, 0])[0]? = some 0 ∧
      HeldApart andCircuit [0, 0] p (deltaOf (zero32.set 1 1)) ∧ deltaOf (zero32.set 1 1) ≠ deltaOf zero32 := by
  intro p
  have hx : InputOK andCircuit [0, 0] := .cons (by decide) (.cons (by decide) .nil)
  obtain ⟨hc, hb⟩ := andCircuit_ok
  obtain ⟨run, hr, hok⟩ := garbleRun_ok p.1 p.2 hc
  have hs := seen_ok hc hb (by simp [andCircuit]) [0, 0] hok
  refine ⟨(C71_apart_inputs _).mpr (by decide +kernel), hx, by decide, ?_, by decide +kernel⟩
  rw [heldApart_iff hc hb hx hr hs]
  intro g hg _
  simp only [andCircuit, List.mem_singleton] at hg
  subst hg
  have h0 := held_input hc hb hr hx (i := 0) (by decide)
  have h1 := held_input hc hb hr hx (i := 1) (by decide)
  have e0 : heldLabel andCircuit [0, 0] run 0 = p.2.input 0 := by rw [h0]; exact add32_zero _
  have e1 : heldLabel andCircuit [0, 0] run 1 = p.2.input 1 := by rw [h1]; exact add32_zero _
  show heldLabel andCircuit [0, 0] run 0 ≠ add32 (heldLabel andCircuit [0, 0] run 1) _
  rw [e0, e1]
  decide +kernel

end FP.Props
