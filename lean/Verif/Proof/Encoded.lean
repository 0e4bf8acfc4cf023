import Verif.Spec.Encoded
import Verif.Proof.HalfViews
/-
Labels of an input under other random choices.
-/
namespace FP
open Spec

theorem mod_words (u : Vector (BitVec 16) 16) {m : Nat} (h : ∀ i (hi : i < 16), u[i].toNat < m) :
    (Vector.ofFn fun i : Fin 16 => BitVec.ofNat 16 (u[i].toNat % m)) = u := by
  apply Vector.ext
  intro i hi
  rw [Vector.getElem_ofFn]
  simp only [Fin.getElem_fin]
  rw [Nat.mod_eq_of_lt (h i hi)]
  exact BitVec.ofNat_toNat _ _

/-- A label is a possible draw. -/
theorem new_of_label {m : Nat} (hm : GoodDomain m) {w : Wire} (hw : IsLabel m w) : Wire.new m w.values = .ok w := by
  obtain ⟨dom, values⟩ := w
  have hd := hw.dom
  have hlt := hw.lt
  simp only at hd
  unfold Wire.new
  rw [hd]
  simp only [Except.ok_bind]
  rcases good_cases hm hd with ⟨rfl, rfl⟩ | ⟨h0, h1, h2, rfl⟩ | ⟨rfl, rfl⟩ | ⟨h0, h1, h2, rfl⟩
  · rfl
  · simp only
    refine congrArg (fun v => Except.ok (⟨.u8 m, v⟩ : Wire)) ?_
    apply Vector.ext
    intro i hi
    rw [Vector.getElem_ofFn]
    have := hlt i
    rw [dg_u8, dif_pos hi] at this
    simp only [Fin.getElem_fin]
    rw [Nat.mod_eq_of_lt this]
    exact BitVec.ofNat_toNat _ _
  · rfl
  · simp only
    refine congrArg (fun v => Except.ok (⟨.u16 m, v⟩ : Wire)) ?_
    have := mod_words (toU16 values) (m := m) fun i hi => by have := hlt i; rw [dg_u16, dif_pos hi] at this; exact this
    rw [this, ofU16_toU16]

/-- The draw whose label is the one of `raw` plus `k` times `δ`. -/
def moved (m : Nat) (δ : Wire) (k : Nat) (raw : WireBytes) : WireBytes :=
  match (do Wire.add false (← Wire.new m raw) (← Wire.mul false δ k)) with
  | .ok w => w.values
  | .error _ => raw

theorem moved_ok {m : Nat} (hm : GoodDomain m) {δ : Wire} (hδ : Domain.new m = .ok δ.domain) {k : Nat} (hk : k < m)
    (raw : WireBytes) : ∃ z w, Wire.new m raw = .ok z ∧ IsLabel m z ∧ IsLabel m w ∧ w.values = moved m δ k raw ∧
      Wire.new m (moved m δ k raw) = .ok w ∧ ∀ i, zd m w i = zd m z i + k * zd m δ i := by
  obtain ⟨z, hz, hlz⟩ := wireNew_ok hm raw
  obtain ⟨d, hd, hld, hzd⟩ := mulZ false hm hδ hk
  obtain ⟨w, hw, hlw, hzw⟩ := addZ false hm hlz hld
  have e : moved m δ k raw = w.values := by
    unfold moved
    rw [hz, okb, hd, okb, hw]
  refine ⟨z, w, hz, hlz, hlw, e.symm, ?_, fun i => by rw [hzw, hzd]⟩
  rw [e]
  exact new_of_label hm hlw

/-- The random choices with which the labels that encode `x` encode `x'`. -/
def otherDraws (c : Circuit) (x x' : List Nat) (r : GarbleRand) : GarbleRand :=
  { r with input := fun i =>
      match c.inputDomains[i]?, garbleDeltas r c with
      | some m, .ok dl =>
        match List.lookup m dl with
        | some δ => moved m δ ((x.getD i 0 + (m - x'.getD i 0)) % m) (r.input i)
        | none => r.input i
      | _, _ => r.input i }

theorem inputOK_lt {c : Circuit} {x : List Nat} (hx : InputOK c x) {i m : Nat} (h : c.inputDomains[i]? = some m) :
    x.getD i 0 < m ∧ x[i]? = some (x.getD i 0) := by
  have hl := hx.length_eq
  have hi : i < c.inputDomains.length := (List.getElem?_eq_some_iff.mp h).1
  have hxi : i < x.length := by omega
  have := List.Forall₂.get hx hxi hi
  simp only [List.get_eq_getElem] at this
  rw [List.getElem?_eq_getElem hi] at h
  rw [Option.some.inj h] at this
  rw [List.getD, List.getElem?_eq_getElem hxi, Option.getD_some]
  exact ⟨this, rfl⟩

theorem shift_cast {m a b : Nat} (hb : b < m) : (((a + (m - b)) % m : Nat) : ZMod m) = a - b := by
  rw [ZMod.natCast_mod, Nat.cast_add, Nat.cast_sub hb.le]
  simp [sub_eq_add_neg]

/-- What is moved. -/
theorem otherDraws_input {c : Circuit} (hc : WellTyped c) {x x' : List Nat} (hx' : InputOK c x') (r : GarbleRand)
    {dl : HMap Nat Wire} (hdl : garbleDeltas r c = .ok dl) (hall : ∀ d, usesDomain c.gates d → DeltaOK dl d)
    {i m : Nat} (h : c.inputDomains[i]? = some m) :
    ∃ δ z w, List.lookup m dl = some δ ∧ Wire.new m (r.input i) = .ok z ∧ IsLabel m z ∧ IsLabel m w ∧
      w.values = (otherDraws c x x' r).input i ∧ Wire.new m ((otherDraws c x x' r).input i) = .ok w ∧
      ∀ j, zd m w j = zd m z j + ((x.getD i 0 : ZMod m) - x'.getD i 0) * zd m δ j := by
  obtain ⟨hg, hu⟩ := hc.inputGood m (List.mem_of_getElem? h)
  obtain ⟨δ, hδ, hδi⟩ := hall m hu
  have e : (otherDraws c x x' r).input i = moved m δ ((x.getD i 0 + (m - x'.getD i 0)) % m) (r.input i) := by
    unfold otherDraws
    simp only [h, hdl, hδ]
  obtain ⟨z, w, h1, h2, h3, h4, h5, h6⟩ := moved_ok hg hδi.dom (Nat.mod_lt _ (good_pos hg)) (k := (x.getD i 0 + (m - x'.getD i 0)) % m)
    (r.input i)
  rw [e]
  refine ⟨δ, z, w, hδ, h1, h2, h3, h4, h5, fun j => ?_⟩
  rw [h6, shift_cast (inputOK_lt hx' h).1]

theorem deltas_of {c : Circuit} (hc : WellTyped c) (r : GarbleRand) :
    ∃ dl, garbleDeltas r c = .ok dl ∧ ∀ d, usesDomain c.gates d → DeltaOK dl d := by
  obtain ⟨run, hrun, hok⟩ := garbleRun_ok ⟨false, fun _ => zero32⟩ r hc
  obtain ⟨ws, h1, -⟩ := garbleRun_parts hrun
  exact ⟨_, h1, hok.deltas⟩

theorem otherDraws_drawn {c : Circuit} (hc : WellTyped c) {x x' : List Nat} (hx' : InputOK c x') (r : GarbleRand) :
    Drawn c (otherDraws c x x' r) := by
  obtain ⟨dl, hdl, hall⟩ := deltas_of hc r
  intro i m h
  obtain ⟨δ, z, w, -, -, -, -, h5, h6, -⟩ := otherDraws_input hc (x := x) hx' r hdl hall h
  rw [h6, ← h5]
  exact ⟨w.domain, rfl⟩

theorem otherDraws_back {c : Circuit} (hc : WellTyped c) {x x' : List Nat} (hx : InputOK c x) (hx' : InputOK c x')
    {r : GarbleRand} (hr : Drawn c r) : otherDraws c x' x (otherDraws c x x' r) = r := by
  obtain ⟨dl, hdl, hall⟩ := deltas_of hc r
  have hdl' : garbleDeltas (otherDraws c x x' r) c = .ok dl := by
    rw [garbleDeltas_congr (rnd' := otherDraws c x x' r) (rnd := r) rfl]; exact hdl
  have key : ∀ i, (otherDraws c x' x (otherDraws c x x' r)).input i = r.input i := by
    intro i
    cases h : c.inputDomains[i]? with
    | none =>
      unfold otherDraws
      simp only [h]
    | some m =>
      obtain ⟨δ, z, w, h1, h2, h3, h4, h5, h6, h7⟩ := otherDraws_input hc (x := x) hx' r hdl hall h
      obtain ⟨δ', z', w', g1, g2, g3, g4, g5, g6, g7⟩ := otherDraws_input hc (x := x') hx (otherDraws c x x' r) hdl' hall h
      rw [h1] at g1
      obtain rfl := Option.some.inj g1
      rw [h6] at g2
      obtain rfl := Except.ok.inj g2
      have : w' = z := label_ext g4 h3 fun j => by rw [g7, h7]; ring
      rw [← g5, this]
      obtain ⟨d, hd⟩ := hr i m h
      rw [h2] at hd
      rw [Except.ok.inj hd]
  have : otherDraws c x' x (otherDraws c x x' r) = ⟨r.delta, (otherDraws c x' x (otherDraws c x x' r)).input⟩ := rfl
  rw [this, funext key]

/-- The label an input gets. -/
theorem run_input {E : Env} {r : GarbleRand} {c : Circuit} {run : GarbleRun} (hrun : garbleRun E r c = .ok run)
    (hok : RunOK E c run) (hc : WellTyped c) {i m : Nat} (h : c.inputDomains[i]? = some m) :
    ∃ z, Wire.new m (r.input i) = .ok z ∧ run.encWires[i]? = some z := by
  obtain ⟨ws, -, h2, h3, -⟩ := garbleRun_parts hrun
  obtain ⟨z, hz, hf⟩ := mapM_getElem? h2 i (m, i) (by rw [List.getElem?_zipIdx, h]; simp)
  have hi : i < c.inputDomains.length := (List.getElem?_eq_some_iff.mp h).1
  refine ⟨z, hf, ?_⟩
  have hlen := mapM_length h2
  rw [List.length_zipIdx] at hlen
  rw [sliceR_ok (by omega) (by have := hc.inputs; omega)] at h3
  rw [← Except.ok.inj h3, List.drop_zero, List.getElem?_take, if_pos (by have := hc.inputs; omega)]
  exact hz

/-- The same labels. -/
theorem other_encode {E : Env} {c : Circuit} (hc : WellTyped c) {x x' : List Nat} (hx : InputOK c x) (hx' : InputOK c x')
    {r : GarbleRand} {run run' : GarbleRun} (hrun : garbleRun E r c = .ok run)
    (hrun' : garbleRun E (otherDraws c x x' r) c = .ok run') (hok : RunOK E c run) (hok' : RunOK E c run') :
    run'.delta = run.delta ∧ ∃ X, EncodingKey.encode E.dbg ⟨run.encWires, run.delta⟩ x = .ok X ∧
      EncodingKey.encode E.dbg ⟨run'.encWires, run'.delta⟩ x' = .ok X ∧ X.length = c.numInputs ∧
      ∀ (i m : Nat), c.inputDomains[i]? = some m → ∃ z z' w v v', run.encWires[i]? = some z ∧ run'.encWires[i]? = some z' ∧
        X[i]? = some w ∧ x[i]? = some v ∧ x'[i]? = some v' ∧ Carries run.delta m z v w ∧ Carries run'.delta m z' v' w := by
  obtain ⟨ws, hd, -⟩ := garbleRun_parts hrun
  obtain ⟨ws', hd', -⟩ := garbleRun_parts hrun'
  rw [garbleDeltas_congr (rnd' := otherDraws c x x' r) (rnd := r) rfl, hd] at hd'
  have hdd : run'.delta = run.delta := (Except.ok.inj hd').symm
  obtain ⟨X, hX, hXl, hXi⟩ := encode_ok hc hok hx
  obtain ⟨X', hX', hXl', hXi'⟩ := encode_ok hc hok' hx'
  have key : ∀ (i m : Nat), c.inputDomains[i]? = some m → ∃ z z' w v v', run.encWires[i]? = some z ∧ run'.encWires[i]? = some z' ∧
        X[i]? = some w ∧ X'[i]? = some w ∧ x[i]? = some v ∧ x'[i]? = some v' ∧ Carries run.delta m z v w ∧ Carries run'.delta m z' v' w := by
    intro i m h
    obtain ⟨z, w, v, h1, h2, h3, h4⟩ := hXi i m h
    obtain ⟨z', w', v', g1, g2, g3, g4⟩ := hXi' i m h
    obtain ⟨δ, zz, ww, e1, e2, -, -, -, e6, e7⟩ := otherDraws_input hc (x := x) hx' r hd hok.deltas h
    obtain ⟨z1, f1, f2⟩ := run_input hrun hok hc h
    obtain ⟨z2, f3, f4⟩ := run_input hrun' hok' hc h
    rw [e2] at f1; obtain rfl := Except.ok.inj f1
    rw [e6] at f3; obtain rfl := Except.ok.inj f3
    rw [h1] at f2; obtain rfl := Option.some.inj f2
    rw [g1] at f4; obtain rfl := Option.some.inj f4
    have hw : w' = w := label_ext g4.lab h4.lab fun j => by
      rw [h4.eq δ e1, g4.eq δ (by rw [hdd]; exact e1), e7]
      have a1 := (inputOK_lt hx h).2
      have a2 := (inputOK_lt hx' h).2
      rw [h3] at a1
      rw [g3] at a2
      rw [← Option.some.inj a1, ← Option.some.inj a2]
      ring
    subst hw
    exact ⟨z, z', w', v, v', h1, g1, h2, g2, h3, g3, h4, g4⟩
  have hXX : X' = X := by
    apply List.ext_getElem?
    intro i
    cases h : c.inputDomains[i]? with
    | none =>
      have := List.getElem?_eq_none_iff.mp h
      rw [hc.inputs] at this
      rw [List.getElem?_eq_none (by omega), List.getElem?_eq_none (by omega)]
    | some m =>
      obtain ⟨z, z', w, v, v', h1, h2, h3, h4, -⟩ := key i m h
      rw [h3, h4]
  refine ⟨hdd, X, hX, hXX ▸ hX', hXl, fun i m h => ?_⟩
  obtain ⟨z, z', w, v, v', h1, h2, h3, h4, h5, h6, h7, h8⟩ := key i m h
  exact ⟨z, z', w, v, v', h1, h2, h3, h5, h6, h7, h8⟩

/-- Circuits without projections and ANDs have no tables. -/
theorem linear_tables {E : Env} {r : GarbleRand} {c : Circuit} (hl : LinearGates c) {run : GarbleRun}
    (hrun : garbleRun E r c = .ok run) : run.state.f = [] ∧ run.state.fHalf = [] := by
  obtain ⟨ws, -, -, -, -, h⟩ := garbleRun_parts hrun
  have step : ∀ (gs : List Gate), (∀ g ∈ gs, g.kind = .add ∨ ∃ k, g.kind = .mul k) → ∀ (s t : GarbleState),
      s.f = [] ∧ s.fHalf = [] → gs.foldlM (fun s g => do
        garbleDecoding E run.delta run.outputsStartAt (← garbleGate E run.delta s g) g) s = .ok t → t.f = [] ∧ t.fHalf = [] := by
    intro gs
    induction gs with
    | nil => intro _ s t hs ht; cases ht; exact hs
    | cons g gs ih =>
      intro hgs s t hs ht
      rw [List.foldlM_cons] at ht
      cases h1 : garbleGate E run.delta s g with
      | error e => rw [h1] at ht; cases ht
      | ok s1 =>
        rw [h1, okb] at ht
        have hs1 : s1.f = [] ∧ s1.fHalf = [] := by
          unfold garbleGate at h1
          rcases hgs g (by simp) with hk | ⟨k, hk⟩
          · rw [hk] at h1
            simp only [bind, Except.bind] at h1
            split at h1
            · cases h1
            · split at h1
              · cases h1
              · cases h1; exact hs
          · rw [hk] at h1
            simp only [bind, Except.bind] at h1
            split at h1
            · cases h1
            · split at h1
              · cases h1
              · split at h1
                · cases h1
                · cases h1; exact hs
        cases h2 : garbleDecoding E run.delta run.outputsStartAt s1 g with
        | error e => rw [h2] at ht; cases ht
        | ok s2 =>
          rw [h2, okb] at ht
          refine ih (fun g' hg' => hgs g' (by simp [hg'])) s2 t ?_ ht
          unfold garbleDecoding at h2
          split at h2
          · simp only [bind, Except.bind] at h2
            split at h2
            · cases h2
            · cases h2; exact hs1
          · cases h2; exact hs1
  exact step c.gates hl _ _ ⟨rfl, rfl⟩ h

theorem uses_all {c : Circuit} (hc : WellTyped c) {i m : Nat}
    (h : (c.inputDomains ++ c.gates.map Gate.outputDomain)[i]? = some m) : usesDomain c.gates m := by
  rcases List.mem_append.mp (List.mem_of_getElem? h) with h | h
  · exact (hc.inputGood m h).2
  · obtain ⟨g, hg, rfl⟩ := List.mem_map.mp h
    obtain ⟨d, hd⟩ := gatesOK_mem hc.gates hg
    exact usesDomain_range hg hd

/-- The decoding key is determined by the labels for zero of the outputs. -/
theorem decoding_eq {E : Env} {c : Circuit} (hc : WellTyped c) {run run' : GarbleRun}
    (h : RunOK E c run) (h' : RunOK E c run') (hd : run'.delta = run.delta)
    (hz : ∀ i, c.numWires - c.numOutputs ≤ i → i < c.numWires → run'.state.wires[i]? = run.state.wires[i]?) :
    run'.state.d = run.state.d := by
  have hlen : (c.inputDomains ++ c.gates.map Gate.outputDomain).length = c.numWires := by
    simp [hc.wires, hc.inputs]
  have l1 := h.dec.len
  have l2 := h'.dec.len
  rw [h.start, hlen] at l1
  rw [h'.start, hlen] at l2
  apply List.ext_getElem?
  intro k
  by_cases hk : k < run.state.d.length
  · have hst : run.outputsStartAt = c.numWires - c.numOutputs := h.start
    have hst' : run'.outputsStartAt = c.numWires - c.numOutputs := h'.start
    have hi : k + (c.numWires - c.numOutputs) < c.numWires := by omega
    obtain ⟨m, hdom⟩ : ∃ m, (c.inputDomains ++ c.gates.map Gate.outputDomain)[k + (c.numWires - c.numOutputs)]? = some m :=
      ⟨_, List.getElem?_eq_getElem (by rw [hlen]; exact hi)⟩
    obtain ⟨z, hs, e1, e2, e3, e4⟩ := h.dec.hash _ m (by rw [hst]; omega) hdom
    obtain ⟨z', hs', f1, f2, f3, f4⟩ := h'.dec.hash _ m (by rw [hst']; omega) hdom
    rw [hst, Nat.add_sub_cancel] at e2
    rw [hst', Nat.add_sub_cancel] at f2
    rw [e2, f2]
    refine congrArg some ?_
    rw [hz _ (by omega) hi, e1] at f1
    obtain rfl := Option.some.inj f1
    apply List.ext_getElem?
    intro y
    by_cases hy : y < m
    · obtain ⟨w, c1, g1⟩ := e4 y hy
      obtain ⟨w', c2, g2⟩ := f4 y hy
      rw [hd] at c2
      obtain ⟨δ, hδ, -⟩ := h.deltas m (uses_all hc hdom)
      have : w' = w := label_ext c2.lab c1.lab fun i => by rw [c1.eq δ hδ, c2.eq δ hδ]
      subst this
      rw [g1, g2]
    · rw [List.getElem?_eq_none (by omega), List.getElem?_eq_none (by omega)]
  · rw [List.getElem?_eq_none (by omega), List.getElem?_eq_none (by omega)]

/-- The same labels. -/
theorem other_labels {E : Env} {c : Circuit} (hc : WellTyped c) {x x' : List Nat} (hx : InputOK c x) (hx' : InputOK c x')
    (r : GarbleRand) : sentLabels E c x' (otherDraws c x x' r) = sentLabels E c x r := by
  obtain ⟨run, hrun, hok⟩ := garbleRun_ok E r hc
  obtain ⟨run', hrun', hok'⟩ := garbleRun_ok E (otherDraws c x x' r) hc
  obtain ⟨hd, X, h1, h2, -⟩ := other_encode hc hx hx' hrun hrun' hok hok'
  unfold sentLabels
  rw [garble_of_run hrun, garble_of_run hrun', okb, okb]
  simp only
  rw [h1, h2]

/-- The same view. -/
theorem other_linear {E : Env} {c : Circuit} (hc : WellTyped c) (hl : LinearGates c) {x x' : List Nat} (hx : InputOK c x)
    (hx' : InputOK c x') (r : GarbleRand) :
    evaluatorView c x' (E, otherDraws c x x' r) = evaluatorView c x (E, r) ∧
    (meaning c x' = meaning c x → decoderView c x' (E, otherDraws c x x' r) = decoderView c x (E, r)) := by
  obtain ⟨run, hrun, hok⟩ := garbleRun_ok E r hc
  obtain ⟨run', hrun', hok'⟩ := garbleRun_ok E (otherDraws c x x' r) hc
  obtain ⟨hd, X, h1, h2, hXl, hX⟩ := other_encode hc hx hx' hrun hrun' hok hok'
  obtain ⟨a1, a2⟩ := linear_tables hl hrun
  obtain ⟨b1, b2⟩ := linear_tables hl hrun'
  constructor
  · unfold evaluatorView
    simp only
    rw [garble_of_run hrun, garble_of_run hrun', okb, okb, a1, a2, b1, b2]
    simp only
    rw [h1, h2]
  · intro hm
    have hst : run'.outputsStartAt = run.outputsStartAt := by rw [hok.start, hok'.start]
    obtain ⟨Z, e1, -, e3⟩ := evaluate_ok hc hok hx hXl fun i m h => by
      obtain ⟨z, z', w, v, v', h1, h2, h3, h4, h5, h6, h7⟩ := hX i m h
      exact ⟨z, w, v, h1, h3, h4, h6⟩
    obtain ⟨Z', f1, -, f3⟩ := evaluate_ok hc hok' hx' hXl fun i m h => by
      obtain ⟨z, z', w, v, v', h1, h2, h3, h4, h5, h6, h7⟩ := hX i m h
      exact ⟨z', w, v', h2, h3, h5, h7⟩
    rw [a1, a2] at e1
    rw [b1, b2, e1] at f1
    obtain rfl := Except.ok.inj f1
    have hdec : run'.state.d = run.state.d := by
      refine decoding_eq hc hok hok' hd fun i hi1 hi2 => ?_
      have hs := hok.start
      obtain ⟨m, z, w, v, g1, g2, g3, g4, g5⟩ := e3 (i - run.outputsStartAt) (by have := hc.outputs; have := hc.wires; omega)
      obtain ⟨m', z', w', v', k1, k2, k3, k4, k5⟩ := f3 (i - run.outputsStartAt) (by have := hc.outputs; have := hc.wires; omega)
      rw [hst] at k1 k2
      rw [g1] at k1
      obtain rfl := Option.some.inj k1
      rw [g3] at k3
      obtain rfl := Option.some.inj k3
      rw [hm, g4] at k4
      obtain rfl := Option.some.inj k4
      rw [Nat.add_sub_cancel' (by omega)] at g2 k2
      rw [g2, k2]
      rw [Nat.add_sub_cancel' (by omega)] at g1
      obtain ⟨zz, q1, q2⟩ := hok.lab.lab i m g1
      obtain ⟨zz', q3, q4⟩ := hok'.lab.lab i m g1
      rw [g2] at q1
      rw [k2] at q3
      obtain rfl := Option.some.inj q1
      obtain rfl := Option.some.inj q3
      obtain ⟨δ, hδ, -⟩ := hok.deltas m (uses_all hc g1)
      refine congrArg some (label_ext q4 q2 fun j => ?_)
      have u1 := g5.eq δ hδ j
      have u2 := k5.eq δ (by rw [hd]; exact hδ) j
      rw [u1] at u2
      exact (add_right_cancel u2).symm
    unfold decoderView
    simp only
    rw [garble_of_run hrun, garble_of_run hrun', okb, okb, a1, a2, b1, b2, hdec, hst]
    simp only
    rw [h1, h2]

end FP
