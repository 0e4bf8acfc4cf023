import Verif.Proof.TablesMore
/-
C71: what the evaluator of a garbled circuit of bits learns.
-/
namespace FP.Props
open FP Spec

/-- C71 (partial): for any two inputs of a circuit of additions and ANDs of bits there is a correspondence between the
coins (the hash function and the random choices of the garbler) under which an evaluator gets exactly the same garbled
circuit and the same labels for the one input as for the other.  It is a bijection of the coins for which no AND gate has
a label in common between its inputs, and when the two inputs have the same result even the decoding key is the same.
Missing: coins where a label is common; there the claim is false (`C71_fails_private`). -/
theorem C71_private_partial (c : Circuit) (hc : WellTyped c) (hb : BinaryGates c) (hn : c.gates.length < 2 ^ 64) :
    ∃ Φ : List Nat → List Nat → Coins → Coins, ∀ x x', InputOK c x → InputOK c x' → ∀ p, Apart c p →
      Apart c (Φ x x' p) ∧ Φ x' x (Φ x x' p) = p ∧
      (Φ x x' p).1.dbg = p.1.dbg ∧ (Φ x x' p).2.delta = p.2.delta ∧
      evaluatorView c x' (Φ x x' p) = evaluatorView c x p ∧
      (meaning c x' = meaning c x → decoderView c x' (Φ x x' p) = decoderView c x p) :=
  ⟨otherCoins c, fun _ _ hx hx' p hA => other_ok hc hb hn hx hx' p hA⟩

theorem andCircuit_ok : WellTyped andCircuit ∧ BinaryGates andCircuit := by
  refine ⟨⟨rfl, ?_, ?_, rfl, by decide⟩, ?_⟩
  · intro d hd
    simp only [andCircuit, List.mem_cons, List.not_mem_nil, or_false] at hd
    rcases hd with rfl | rfl <;> exact ⟨by decide, ⟨2, 2, [0, 1], .and⟩, by simp [andCircuit], .inl rfl⟩
  · exact ⟨⟨rfl, by decide, by decide, by decide, by simp⟩, trivial⟩
  · intro g hg
    simp only [andCircuit, List.mem_singleton] at hg
    subst hg
    exact ⟨rfl, fun p h => by cases h⟩

theorem leakCircuit_ok : WellTyped leakCircuit ∧ BinaryGates leakCircuit := by
  refine ⟨⟨rfl, ?_, ?_, rfl, by decide⟩, ?_⟩
  · intro d hd
    simp only [leakCircuit, List.mem_cons, List.not_mem_nil, or_false] at hd
    rcases hd with rfl | rfl <;> exact ⟨by decide, ⟨2, 2, [0, 0], .and⟩, by simp [leakCircuit], .inl rfl⟩
  · exact ⟨⟨rfl, by decide, by decide, by decide, by simp⟩, ⟨rfl, by decide, by decide, by decide, by simp⟩, trivial⟩
  · intro g hg
    simp only [leakCircuit, List.mem_cons, List.not_mem_nil, or_false] at hg
    rcases hg with rfl | rfl <;> exact ⟨rfl, fun p h => by cases h⟩

/-- C71: for `a AND b` the coins of the theorem are exactly those where the two random input labels differ and do not
differ by the delta: all but two of the 2^256 choices for the second label. -/
theorem C71_apart_inputs (p : Coins) : Apart andCircuit p ↔
    p.2.input 0 ≠ p.2.input 1 ∧ p.2.input 0 ≠ add32 (p.2.input 1) (deltaOf (p.2.delta 2)) := by
  obtain ⟨hc, hb⟩ := andCircuit_ok
  obtain ⟨run, hr, hok⟩ := garbleRun_ok p.1 p.2 hc
  have hx : InputOK andCircuit [0, 0] := .cons (by decide) (.cons (by decide) .nil)
  have hs := seen_ok hc hb (by simp [andCircuit]) [0, 0] hok
  have hd : delta2 run.delta = deltaOf (p.2.delta 2) := by
    obtain ⟨-, h, -⟩ := garbleRun_parts hr
    have h2 : garbleDeltas p.2 andCircuit = .ok [(2, ⟨.binary, deltaOf (p.2.delta 2)⟩)] := rfl
    rw [h2] at h
    rw [← Except.ok.inj h]
    rfl
  have hA : Apart andCircuit p ↔ AndsApart andCircuit run := by
    constructor
    · rintro ⟨run', h', h⟩
      rw [hr] at h'
      rw [Except.ok.inj h']
      exact h
    · exact fun h => ⟨run, hr, h⟩
  rw [hA, apart_iff hc hs]
  unfold ActsApart
  simp only [andCircuit, List.mem_singleton, forall_eq, isAnd, forall_const]
  have h0 := held_input hc hb hr hx (i := 0) (by decide)
  have h1 := held_input hc hb hr hx (i := 1) (by decide)
  have e0 : heldLabel andCircuit [0, 0] run 0 = p.2.input 0 := by rw [h0]; exact add32_zero _
  have e1 : heldLabel andCircuit [0, 0] run 1 = p.2.input 1 := by rw [h1]; exact add32_zero _
  have g0 : [0, 1].getD 0 0 = 0 := rfl
  have g1 : [0, 1].getD 1 0 = 1 := rfl
  rw [g0, g1, ← hd]
  change heldLabel andCircuit [0, 0] run 0 ≠ heldLabel andCircuit [0, 0] run 1 ∧
    heldLabel andCircuit [0, 0] run 0 ≠ add32 (heldLabel andCircuit [0, 0] run 1) (delta2 run.delta) ↔ _
  rw [e0, e1]

/-- Such coins exist: with labels `00…0` and `10…0` and a delta of `00…01`. -/
example : Apart andCircuit (toyEnv true, ⟨fun _ => zero32, fun i => zero32.set 0 (if i = 1 then 1 else 0)⟩) :=
  (C71_apart_inputs _).mpr (by decide +kernel)

/-- C71, refuted: an AND gate that reads one wire twice gives away the difference between the labels of all wires, to
an evaluator holding the label of colour one of that wire: it is the sum of the two halves and the label. -/
theorem C71_fails_delta (E : Env) (rnd : GarbleRand) (c : Circuit) (hc : WellTyped c) (run : GarbleRun)
    (gc : GarbledCircuit) (e : EncodingKey) (d : DecodingKey) (hr : garbleRun E rnd c = .ok run)
    (h : garble E rnd c = .ok (gc, e, d)) (g : Gate) (a : Nat) (hg : g ∈ c.gates) (hk : g.kind = .and)
    (hin : g.inputs = [a, a]) (v : Nat) (w : Wire) (hw : LabelIn run a 2 v w) (hcol : w.color ≠ 0) :
    List.lookup 2 e.delta = some ⟨.binary, halvesPlus gc g.output w.values⟩ := by
  rw [garble_of_run hr] at h
  obtain ⟨rfl, rfl⟩ : ⟨c, run.state.f, run.state.fHalf⟩ = gc ∧ (⟨run.encWires, run.delta⟩ : EncodingKey) = e := by
    have := Except.ok.inj h
    exact ⟨congrArg Prod.fst this, congrArg (fun t => t.2.1) this⟩
  obtain ⟨k, hk'⟩ := andGates_of_mem hg hk
  obtain ⟨d1, d2⟩ := and_delta hc hr hg hk
  have hz := and_zero hc hr hg hk (i := a) (by simp [hin])
  obtain ⟨hv, rfl⟩ := (labelIn_two hz d1).mp hw
  have hent := run_entry hc hr hk'
  have hzz : inputZeros run.state.wires g = (zeroAt run.state.wires a, zeroAt run.state.wires a) := by
    simp [inputZeros, hin]
  simp only [andEntry, hzz] at hent
  rw [colour_eq] at hcol
  unfold halvesPlus
  simp only [hent]
  rw [d1, halves_twice _ d2 _ _ _ hcol]

/-- C71, refuted: with that difference, the label of a bit turns into the label of the other bit, for every wire. -/
theorem C71_fails_other_label (run : GarbleRun) (δ : WireBytes) (hd : List.lookup 2 run.delta = some ⟨.binary, δ⟩)
    (o v : Nat) (w : Wire) (hw : LabelIn run o 2 v w) :
    LabelIn run o 2 (1 - v) ⟨.binary, add32 w.values δ⟩ := by
  have ⟨z, _, hz, hdom, _, _⟩ := hw
  obtain ⟨dz, zv⟩ := z
  have : dz = .binary := (Except.ok.inj hdom).symm
  subst this
  obtain ⟨hv, rfl⟩ := (labelIn_two hz hd).mp hw
  refine (labelIn_two hz hd).mpr ⟨by omega, ?_⟩
  refine congrArg (Wire.mk .binary) ?_
  rw [add32_assoc]
  refine congrArg _ ?_
  rcases (by omega : v = 0 ∨ v = 1) with rfl | rfl
  · simp only [when32]; rw [add32_comm]; exact add32_zero _
  · exact add32_self _

/-- The hypotheses of the last two theorems are met: the first gate of `leakCircuit` reads input 0 twice, and for any
coins one of the two labels of input 0 has colour one. -/
example (E : Env) (rnd : GarbleRand) : WellTyped leakCircuit ∧ (⟨2, 2, [0, 0], .and⟩ : Gate) ∈ leakCircuit.gates ∧
    ∃ run v w, garbleRun E rnd leakCircuit = .ok run ∧ LabelIn run 0 2 v w ∧ w.color ≠ 0 := by
  obtain ⟨hc, hb⟩ := leakCircuit_ok
  have hg : (⟨2, 2, [0, 0], .and⟩ : Gate) ∈ leakCircuit.gates := by simp [leakCircuit]
  obtain ⟨run, hr, -⟩ := garbleRun_ok E rnd hc
  refine ⟨hc, hg, run, ?_⟩
  have hz := input_zero hc hb hr (i := 0) (by decide)
  obtain ⟨d1, d2⟩ := and_delta hc hr hg rfl
  cases h0 : colourBit (rnd.input 0)
  · refine ⟨1, _, hr, (labelIn_two hz d1).mpr ⟨by decide, rfl⟩, ?_⟩
    rw [colour_eq, colour_add, h0, colour_when, d2]
    rfl
  · refine ⟨0, _, hr, (labelIn_two hz d1).mpr ⟨by decide, rfl⟩, ?_⟩
    rw [colour_eq, colour_add, h0]
    rw [colour_when]
    rfl

/-- C71, refuted: whenever the label of the first input has colour one, the evaluator of `(a AND a, a AND b)` can compute
`b` from what it gets, whatever `a` is, so also when the result does not depend on `b`. -/
theorem C71_fails_private (p : Coins) (a b : Nat) (ha : a < 2) (hb : b < 2) :
    ∃ view, evaluatorView leakCircuit [a, b] p = .ok view ∧
      ((view.2.getD 0 Wire.empty).color ≠ 0 ↔ (colourBit (p.2.input 0) ^^ decide (a = 1)) = true) ∧
      ((view.2.getD 0 Wire.empty).color ≠ 0 → peek p.1.sha256 view = b) := by
  obtain ⟨hc, hbin⟩ := leakCircuit_ok
  obtain ⟨run, hr, hok⟩ := garbleRun_ok p.1 p.2 hc
  have hx : InputOK leakCircuit [a, b] := .cons ha (.cons hb .nil)
  have hs := seen_ok hc hbin (by simp [leakCircuit]) [a, b] hok
  have he := encode_seen hc hbin hx hok hs
  have h0 := held_input hc hbin hr hx (i := 0) (by decide)
  generalize hδ : delta2 run.delta = δ at *
  generalize hact : heldLabel leakCircuit [a, b] run = act at *
  have hl : ((List.range leakCircuit.numInputs).map fun i => (⟨.binary, act i⟩ : Wire)) =
    [⟨.binary, act 0⟩, ⟨.binary, act 1⟩] := rfl
  rw [hl] at he
  refine ⟨(⟨leakCircuit, run.state.f, run.state.fHalf⟩, [⟨.binary, act 0⟩, ⟨.binary, act 1⟩]), ?_, ?_, ?_⟩
  · unfold evaluatorView
    rw [garble_of_run hr, okb]
    simp only
    rw [he, okb]
    rfl
  · simp only [List.getD_cons_zero]
    rw [colour_eq, h0, colour_add, colour_when, hs.colour, Bool.and_true]
    rcases (by omega : a = 0 ∨ a = 1) with rfl | rfl <;> simp
  · simp only [List.getD_cons_zero]
    rw [colour_eq]
    intro hcol
    have e2 := seen_entry hc hr hs (p := (⟨2, 2, [0, 0], .and⟩, 1)) (by decide) (a := 0) (b := 0) rfl rfl
    have e3 := seen_entry hc hr hs (p := (⟨3, 2, [0, 1], .and⟩, 2)) (by decide) (a := 0) (b := 1) rfl rfl
    simp only at e2 e3
    have hb1 : wireBit leakCircuit [a, b] 1 = (b == 1) := rfl
    have hst : halvesPlus ⟨leakCircuit, run.state.f, run.state.fHalf⟩ 2 (act 0) = δ := by
      unfold halvesPlus
      simp only [e2]
      generalize tweaked p.1.sha256 (act 0) 1 = t0
      generalize tweaked p.1.sha256 (add32 (act 0) δ) 1 = t1
      rw [hcol]
      apply xb_ext
      intro i j
      simp only [xb_add, xb_when]
      cases wireBit leakCircuit [a, b] 0 <;> cases xb t0 i j <;> cases xb t1 i j <;> cases xb (act 0) i j <;>
        cases xb δ i j <;> rfl
    have hsp : ∀ gc : GarbledCircuit, peek p.1.sha256 (gc, [⟨.binary, act 0⟩, ⟨.binary, act 1⟩]) =
      (secondBit p.1.sha256 gc 3 2 (act 0) (act 1) (halvesPlus gc 2 (act 0))).toNat := fun _ => rfl
    rw [hsp, hst]
    unfold secondBit
    simp only [e3, hb1]
    generalize add32 (tweaked p.1.sha256 (act 0) 2) (tweaked p.1.sha256 (add32 (act 0) δ) 2) = t
    have hne : ∀ q : Bool, decide (add32 t (when32 q δ) ≠ t) = q := by
      intro q
      cases q
      · simp [when32, add32_zero]
      · have := add32_ne (a := t) hs.colour
        simp [when32, this.symm]
    rw [hne]
    rcases (by omega : b = 0 ∨ b = 1) with rfl | rfl <;> cases colourBit (act 1) <;> rfl

/-- The result does not depend on `b` when `a` is zero. -/
theorem C71_fails_same_result : InputOK leakCircuit [0, 0] ∧ InputOK leakCircuit [0, 1] ∧
    meaning leakCircuit [0, 0] = meaning leakCircuit [0, 1] :=
  ⟨.cons (by decide) (.cons (by decide) .nil), .cons (by decide) (.cons (by decide) .nil), by decide⟩

end FP.Props
