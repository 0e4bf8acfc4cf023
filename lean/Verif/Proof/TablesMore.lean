import Verif.Proof.HalfViews
/-
Lookups in the tables, and what a repeated label reveals.
-/
namespace FP
open Spec

theorem lookup_of_unique {V : Type} {k : Nat} {v : V} : ∀ {l : List (Nat × V)}, (k, v) ∈ l →
    (∀ v', (k, v') ∈ l → v' = v) → List.lookup k l = some v := by
  intro l
  induction l with
  | nil => intro h; cases h
  | cons e l ih =>
    obtain ⟨k', v'⟩ := e
    intro h hu
    rw [lookup_cons_eq]
    by_cases hk : k = k'
    · subst hk
      rw [if_pos rfl, hu v' (by simp)]
    · rw [if_neg hk]
      rcases List.mem_cons.mp h with h | h
      · exact absurd (congrArg Prod.fst h) hk
      · exact ih h fun v' hv' => hu v' (by simp [hv'])

theorem outputs_inj {good : Nat → Prop} {gs : List Gate} : ∀ {doms : List Nat}, GatesFit good doms gs →
    gs.map Gate.output = (List.range gs.length).map (doms.length + ·) := by
  induction gs with
  | nil => intro doms _; rfl
  | cons g gs ih =>
    intro doms h
    have := ih h.2
    rw [List.map_cons, this, h.1.output, List.length_cons, List.range_succ_eq_map, List.map_cons, List.map_map]
    simp only [List.length_append, List.length_cons, List.length_nil, Nat.add_zero, List.cons.injEq, true_and]
    apply List.map_congr_left
    intro i _
    simp only [Function.comp]
    omega

theorem andGates_output {c : Circuit} {good : Nat → Prop} (hc : GatesFit good c.inputDomains c.gates) {p q : Gate × Nat}
    (hp : p ∈ andGates c.gates) (hq : q ∈ andGates c.gates) (h : p.1.output = q.1.output) : p = q := by
  have hnd : (c.gates.map Gate.output).Nodup := by
    rw [outputs_inj hc]
    exact List.Nodup.map (fun a b hab => by simpa using hab) List.nodup_range
  have hnd2 : ((c.gates.filter isAnd).map Gate.output).Nodup := hnd.sublist (List.filter_sublist.map _)
  obtain ⟨g, k⟩ := p
  obtain ⟨g', k'⟩ := q
  simp only at h
  have h1 := List.mem_zipIdx hp
  have h2 := List.mem_zipIdx hq
  have l1 : k - 1 < ((c.gates.filter isAnd).map Gate.output).length := by simp only [List.length_map]; omega
  have l2 : k' - 1 < ((c.gates.filter isAnd).map Gate.output).length := by simp only [List.length_map]; omega
  have := (hnd2.getElem_inj_iff (hi := l1) (hj := l2)).mp (by
    simp only [List.getElem_map]
    rw [← h1.2.2, ← h2.2.2]; exact h)
  exact andGates_unique hp hq (by simp only; omega)

theorem and_tables {E : Env} {rnd : GarbleRand} {c : Circuit} (hc : WellTyped c) {run : GarbleRun}
    (h : garbleRun E rnd c = .ok run) :
    run.state.fHalf = ((andGates c.gates).map (andEntry E.sha256 (delta2 run.delta) run.state.wires)).reverse ∧
    ∀ p ∈ andGates c.gates, run.state.wires[p.1.output]? = some ⟨.binary, andLabel E.sha256 (delta2 run.delta)
      (inputZeros run.state.wires p.1).1 (inputZeros run.state.wires p.1).2 p.2⟩ := by
  obtain ⟨run0, hr0, hok⟩ := garbleRun_ok E rnd hc
  rw [h] at hr0
  obtain rfl := Except.ok.inj hr0
  obtain ⟨ws, -, p2, -, -, p5⟩ := garbleRun_parts h
  obtain ⟨ws', hws', hf⟩ := mapM_exists (l := c.inputDomains.zipIdx)
    (f := fun p : Nat × Nat => Wire.new p.1 (rnd.input p.2)) (P := fun p w => IsLabel p.1 w) (by
      intro p hp
      have : p.1 ∈ c.inputDomains := by
        obtain ⟨a, b⟩ := p
        exact List.fst_mem_of_mem_zipIdx hp
      exact wireNew_ok (hc.inputGood _ this).1 _)
  rw [p2] at hws'
  obtain rfl := Except.ok.inj hws'
  have hlen : ws.length = c.inputDomains.length := by rw [← hf.length_eq]; simp
  have hlab : LabInv c.inputDomains ws := by
    refine ⟨hlen, fun i m hi => ?_⟩
    have hi' := (List.getElem?_eq_some_iff.mp hi).1
    have h1 : i < c.inputDomains.zipIdx.length := by simpa using hi'
    have h2 : i < ws.length := by omega
    have := List.Forall₂.get hf h1 h2
    simp only [List.get_eq_getElem, List.getElem_zipIdx] at this
    refine ⟨ws[i], List.getElem?_eq_getElem h2, ?_⟩
    rw [List.getElem?_eq_getElem hi'] at hi
    injection hi with hi
    rw [← hi]; exact this
  obtain ⟨-, k1, k2⟩ := tables_fold c.gates c.inputDomains ⟨ws, [], [], [], 0⟩ run.state hc.gates hlab
    (fun g hg => ⟨hok.deltas _ ⟨g, hg, .inl rfl⟩, by
      obtain ⟨d, h⟩ := gatesOK_mem hc.gates hg
      exact hok.deltas _ (usesDomain_range hg h)⟩) p5
  refine ⟨?_, k2⟩
  rw [k1, List.append_nil]
  rfl

theorem run_entry {E : Env} {rnd : GarbleRand} {c : Circuit} (hc : WellTyped c) {run : GarbleRun}
    (h : garbleRun E rnd c = .ok run) {p : Gate × Nat} (hp : p ∈ andGates c.gates) :
    List.lookup p.1.output run.state.fHalf = some (andEntry E.sha256 (delta2 run.delta) run.state.wires p).2 := by
  rw [(and_tables hc h).1]
  apply lookup_of_unique
  · rw [List.mem_reverse]
    exact List.mem_map.mpr ⟨p, hp, rfl⟩
  · intro v' hv'
    rw [List.mem_reverse] at hv'
    obtain ⟨q, hq, he⟩ := List.mem_map.mp hv'
    have : q.1.output = p.1.output := congrArg Prod.fst he
    obtain rfl := andGates_output hc.gates hq hp this
    rw [he]

theorem gatesFit_input_dom {good : Nat → Prop} {gs : List Gate} : ∀ {doms : List Nat}, GatesFit good doms gs → ∀ g ∈ gs,
    ∀ i ∈ g.inputs, (doms ++ gs.map Gate.outputDomain)[i]? = some g.domain := by
  induction gs with
  | nil => intro doms _ g hg; cases hg
  | cons g' gs ih =>
    intro doms h g hg i hi
    rcases List.mem_cons.mp hg with rfl | hg
    · have := h.1.inputs i hi
      rw [List.getElem?_append_left (List.getElem?_eq_some_iff.mp this).1]
      exact this
    · have := ih h.2 g hg i hi
      rw [List.append_assoc] at this
      exact this

/-- The tables of an AND gate in terms of the labels the evaluator holds. -/
theorem seen_entry {E : Env} {rnd : GarbleRand} {c : Circuit} (hc : WellTyped c) {run : GarbleRun}
    (h : garbleRun E rnd c = .ok run) {x : List Nat} {δ : WireBytes} {act : Nat → WireBytes} (hs : Seen c x run δ act)
    {p : Gate × Nat} (hp : p ∈ andGates c.gates) {a b : Nat} (ha : p.1.inputs.getD 0 0 = a) (hb : p.1.inputs.getD 1 0 = b) :
    List.lookup p.1.output run.state.fHalf =
      some (⟨.binary, add32 (add32 (tweaked E.sha256 (act a) p.2) (tweaked E.sha256 (add32 (act a) δ) p.2))
          (when32 (colourBit (act b) ^^ wireBit c x b) δ)⟩,
        ⟨.binary, add32 (add32 (tweaked E.sha256 (act b) p.2) (tweaked E.sha256 (add32 (act b) δ) p.2))
          (add32 (act a) (when32 (wireBit c x a) δ))⟩) := by
  have hin := and_inputs hc.gates p.1 (andGates_mem hp).1 (andGates_mem hp).2
  rw [hc.inputs, ← hc.wires, ha, hb] at hin
  have hz : inputZeros run.state.wires p.1 =
      (add32 (act a) (when32 (wireBit c x a) δ), add32 (act b) (when32 (wireBit c x b) δ)) := by
    unfold inputZeros zeroAt
    rw [ha, hb, List.getD_eq_getElem?_getD, List.getD_eq_getElem?_getD, hs.world.zero a hin.1, hs.world.zero b hin.2]
    rfl
  have hd : delta2 run.delta = δ := by unfold delta2; rw [hs.delta]; rfl
  rw [run_entry hc h hp]
  simp only [andEntry, hz, hd]
  rw [garblerHalf_act _ hs.colour, evaluatorHalf_act]

/-- The zero labels of the inputs are the random strings drawn for them. -/
theorem input_zero {E : Env} {rnd : GarbleRand} {c : Circuit} (hc : WellTyped c) (hb : BinaryGates c) {run : GarbleRun}
    (h : garbleRun E rnd c = .ok run) {i : Nat} (hi : i < c.numInputs) :
    run.state.wires[i]? = some ⟨.binary, rnd.input i⟩ := by
  obtain ⟨run0, hr0, hok⟩ := garbleRun_ok E rnd hc
  rw [h] at hr0
  obtain rfl := Except.ok.inj hr0
  obtain ⟨ws, -, p2, p3, -, -⟩ := garbleRun_parts h
  obtain ⟨hl, hws⟩ := inputs_binary (binary_inputs hc hb) p2
  have hn := hc.inputs
  rw [sliceR_ok (by omega) (by omega)] at p3
  rw [← hok.pre i hi, ← Except.ok.inj p3, ← hws i (by omega)]
  simp [hi]

/-- The label held for an input. -/
theorem held_input {E : Env} {rnd : GarbleRand} {c : Circuit} (hc : WellTyped c) (hb : BinaryGates c) {run : GarbleRun}
    (h : garbleRun E rnd c = .ok run) {x : List Nat} (hx : InputOK c x) {i : Nat} (hi : i < c.numInputs) :
    heldLabel c x run i = add32 (rnd.input i) (when32 (x.getD i 0 == 1) (delta2 run.delta)) := by
  have hn := hc.inputs
  obtain ⟨hxl, -⟩ := inputOK_two hc hb hx
  unfold heldLabel zeroAt
  rw [List.getD_eq_getElem?_getD, input_zero hc hb h hi, wireBit_input (by omega)]
  rfl

/-- A label of a binary wire. -/
theorem labelIn_two {run : GarbleRun} {o v : Nat} {w : Wire} {z δ : WireBytes}
    (hz : run.state.wires[o]? = some ⟨.binary, z⟩) (hd : List.lookup 2 run.delta = some ⟨.binary, δ⟩) :
    LabelIn run o 2 v w ↔ v < 2 ∧ w = ⟨.binary, add32 z (when32 (v == 1) δ)⟩ := by
  have key : ∀ v < 2, IsLabelOf 2 ⟨.binary, z⟩ ⟨.binary, δ⟩ v w ↔ w = ⟨.binary, add32 z (when32 (v == 1) δ)⟩ := by
    intro v hv
    obtain ⟨b, rfl⟩ : ∃ b : Bool, v = b.toNat := ⟨v == 1, by
      rcases (by omega : v = 0 ∨ v = 1) with rfl | rfl <;> rfl⟩
    have e : (b.toNat == 1) = b := by cases b <;> rfl
    rw [e]
    constructor
    · intro hh
      refine label_ext hh.label (isLabel_two _) fun i => ?_
      rw [zd_add32, zd_when]
      unfold zd
      rw [hh.eq i]
      simp
    · rintro rfl
      refine ⟨isLabel_two _, fun i => ?_⟩
      have := zd_add32 z (when32 b δ) i
      rw [zd_when] at this
      unfold zd at this
      have h3 := (ZMod.natCast_eq_natCast_iff' _ ((digit ⟨.binary, z⟩ i) + b.toNat * digit ⟨.binary, δ⟩ i) 2).mp (by
        rw [this]; simp)
      rw [Nat.mod_eq_of_lt ((isLabel_two (add32 z (when32 b δ))).lt i)] at h3
      exact h3
  constructor
  · rintro ⟨z', d, hz', -, hd', hv, hl⟩
    rw [hz] at hz'
    rw [hd] at hd'
    obtain rfl := Option.some.inj hz'
    obtain rfl := Option.some.inj hd'
    exact ⟨hv, (key v hv).mp hl⟩
  · rintro ⟨hv, hw⟩
    exact ⟨_, _, hz, rfl, hd, hv, (key v hv).mpr hw⟩

theorem andGates_of_mem {gates : List Gate} {g : Gate} (hg : g ∈ gates) (hk : g.kind = .and) :
    ∃ k, (g, k) ∈ andGates gates := by
  have : g ∈ gates.filter isAnd := List.mem_filter.mpr ⟨hg, by unfold isAnd; rw [hk]⟩
  obtain ⟨i, hi, e⟩ := List.getElem_of_mem this
  refine ⟨1 + i, ?_⟩
  unfold andGates
  rw [List.mem_iff_getElem]
  exact ⟨i, by simpa using hi, by simp [e]⟩

theorem and_zero {E : Env} {rnd : GarbleRand} {c : Circuit} (hc : WellTyped c) {run : GarbleRun}
    (hr : garbleRun E rnd c = .ok run) {g : Gate} (hg : g ∈ c.gates) (hk : g.kind = .and) {i : Nat} (hi : i ∈ g.inputs) :
    run.state.wires[i]? = some ⟨.binary, zeroAt run.state.wires i⟩ := by
  obtain ⟨run0, hr0, hok⟩ := garbleRun_ok E rnd hc
  rw [hr] at hr0
  obtain rfl := Except.ok.inj hr0
  obtain ⟨doms, hgok⟩ := gatesOK_mem hc.gates hg
  have har := hgok.arity
  rw [hk] at har
  have := gatesFit_input_dom hc.gates _ hg _ hi
  rw [har.2] at this
  obtain ⟨z, hz, hl⟩ := hok.lab.lab i 2 this
  rw [hz, label_binary hl]
  simp [zeroAt, hz]

theorem and_delta {E : Env} {rnd : GarbleRand} {c : Circuit} (hc : WellTyped c) {run : GarbleRun}
    (hr : garbleRun E rnd c = .ok run) {g : Gate} (hg : g ∈ c.gates) (hk : g.kind = .and) :
    List.lookup 2 run.delta = some ⟨.binary, delta2 run.delta⟩ ∧ colourBit (delta2 run.delta) = true := by
  obtain ⟨run0, hr0, hok⟩ := garbleRun_ok E rnd hc
  rw [hr] at hr0
  obtain rfl := Except.ok.inj hr0
  obtain ⟨doms, hgok⟩ := gatesOK_mem hc.gates hg
  have har := hgok.arity
  rw [hk] at har
  exact delta2_ok (hok.deltas 2 ⟨g, hg, .inl har.2⟩)

/-- A gate that reads one wire twice. -/
theorem halves_twice (sha : Bytes → WireBytes) {δ : WireBytes} (hδ : colourBit δ = true) (A : WireBytes) (v : Bool) (k : Nat)
    (hcol : colourBit (add32 A (when32 v δ)) = true) :
    add32 (add32 (garblerHalf sha δ A A k) (evaluatorHalf sha δ A A k)) (add32 A (when32 v δ)) = δ := by
  rw [colour_add, colour_when, hδ, Bool.and_true] at hcol
  unfold garblerHalf evaluatorHalf
  generalize tweaked sha A k = h0
  generalize tweaked sha (add32 A δ) k = h1
  apply xb_ext
  intro i j
  simp only [xb_add, xb_when]
  revert hcol
  generalize colourBit A = cA
  cases cA <;> cases v <;> simp <;> cases xb h0 i j <;> cases xb h1 i j <;> cases xb A i j <;> cases xb δ i j <;> rfl

end FP
