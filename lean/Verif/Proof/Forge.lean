import Verif.Spec.Forge
import Verif.Proof.Encoded
import Verif.Proof.Shape
/-
Labels of an input under other deltas.
-/
namespace FP
open Spec

/-! ### Deltas are the ones drawn -/

def DeltaRaw (rnd : GarbleRand) (dl : HMap Nat Wire) : Prop :=
  ∀ k δ, List.lookup k dl = some δ → Wire.delta k (rnd.delta k) = .ok δ

theorem ensureDelta_raw (rnd : GarbleRand) {dl : HMap Nat Wire} (h : DeltaRaw rnd dl) (k : Nat) :
    Post (DeltaRaw rnd) (ensureDelta rnd dl k) := by
  unfold ensureDelta
  split
  · exact .ok h
  · refine ⟨fun dl' hdl => ?_⟩
    obtain ⟨δ, h1, h2⟩ := bind_inv hdl
    cases h2
    intro k' δ' h'
    unfold HMap.insert at h'
    rw [List.lookup_cons] at h'
    by_cases hk : k' = k
    · subst hk
      simp only [beq_self_eq_true] at h'
      rw [← Option.some.inj h']; exact h1
    · have : (k' == k) = false := by simp [hk]
      rw [this] at h'
      exact h k' δ' h'

theorem garbleDeltas_raw (rnd : GarbleRand) (c : Circuit) : Post (DeltaRaw rnd) (garbleDeltas rnd c) := by
  unfold garbleDeltas
  refine Post.foldlM _ _ (by intro k δ h; cases h) fun m hm g _ => ?_
  refine (ensureDelta_raw rnd hm _).bind fun m hm => ?_
  split
  · exact ensureDelta_raw rnd hm _
  · exact .ok hm

/-- The components of a delta. -/
theorem delta_label {m : Nat} (hm : GoodDomain m) (h2 : 2 ≤ m) {raw : WireBytes} {δ : Wire} (h : Wire.delta m raw = .ok δ) :
    IsLabel m δ := by
  obtain ⟨w, hw, hl⟩ := wireNew_ok hm raw
  unfold Wire.delta at h
  rw [hw, okb] at h
  have hdw := hl.dom
  have hlt := hl.lt
  obtain ⟨d, v⟩ := w
  simp only at hdw
  rcases good_cases hm hdw with ⟨rfl, rfl⟩ | ⟨h0, h1, h3, rfl⟩ | ⟨rfl, rfl⟩ | ⟨h0, h1, h3, rfl⟩
  · cases h; exact isLabel_two _
  · cases h
    refine ⟨hdw, fun i => ?_⟩
    have := hlt i
    rw [dg_u8] at this ⊢
    split
    · rename_i hi
      rw [dif_pos hi] at this
      by_cases h31 : i = 31
      · subst h31; simp; omega
      · rw [Vector.getElem_set_ne _ _ (by omega)]; exact this
    · omega
  · cases h; exact isLabel_256 _
  · cases h
    refine ⟨hdw, fun i => ?_⟩
    have := hlt i
    rw [dg_u16] at this ⊢
    rw [toU16_ofU16]
    split
    · rename_i hi
      rw [dif_pos hi] at this
      by_cases h15 : i = 15
      · subst h15; simp; omega
      · rw [Vector.getElem_set_ne _ _ (by omega)]; exact this
    · omega

theorem new_num {m : Nat} {d : Domain} (h : Domain.new m = .ok d) : m = d.num := by
  unfold Domain.new at h
  split at h
  · cases h; assumption
  · split at h
    · cases h; assumption
    · split at h
      · cases h; rfl
      · split at h
        · cases h; assumption
        · split at h
          · cases h; rfl
          · cases h

theorem uses_good {c : Circuit} (hc : WellTyped c) {i m : Nat}
    (h : (c.inputDomains ++ c.gates.map Gate.outputDomain)[i]? = some m) : GoodDomain m := by
  rcases List.mem_append.mp (List.mem_of_getElem? h) with h | h
  · exact (hc.inputGood m h).1
  · obtain ⟨g, hg, rfl⟩ := List.mem_map.mp h
    obtain ⟨d, hd⟩ := gatesOK_mem hc.gates hg
    exact hd.range

/-! ### Other random choices -/

/-- The random choices with deltas `D` with which the labels that encode `x` encode `x'`. -/
def redrawn (c : Circuit) (x x' : List Nat) (D : Nat → WireBytes) (r : GarbleRand) : GarbleRand :=
  ⟨D, fun i =>
      match c.inputDomains[i]?, garbleDeltas r c, garbleDeltas ⟨D, r.input⟩ c with
      | some m, .ok dl, .ok dl' =>
        match List.lookup m dl, List.lookup m dl' with
        | some δ, some δ' => moved m δ' ((m - x'.getD i 0) % m) (moved m δ (x.getD i 0 % m) (r.input i))
        | _, _ => r.input i
      | _, _, _ => r.input i⟩

theorem redrawn_input {c : Circuit} (hc : WellTyped c) {x x' : List Nat} (hx' : InputOK c x') {D : Nat → WireBytes}
    {r : GarbleRand} {dl dl' : HMap Nat Wire} (hdl : garbleDeltas r c = .ok dl) (hall : ∀ d, usesDomain c.gates d → DeltaOK dl d)
    (hdl' : garbleDeltas (redrawn c x x' D r) c = .ok dl') (hall' : ∀ d, usesDomain c.gates d → DeltaOK dl' d)
    {i m : Nat} (h : c.inputDomains[i]? = some m) :
    ∃ δ δ' z w, List.lookup m dl = some δ ∧ List.lookup m dl' = some δ' ∧ Wire.new m (r.input i) = .ok z ∧ IsLabel m z ∧
      IsLabel m w ∧ w.values = (redrawn c x x' D r).input i ∧ Wire.new m ((redrawn c x x' D r).input i) = .ok w ∧
      ∀ j, zd m w j = zd m z j + (x.getD i 0 : ZMod m) * zd m δ j - (x'.getD i 0 : ZMod m) * zd m δ' j := by
  obtain ⟨hg, hu⟩ := hc.inputGood m (List.mem_of_getElem? h)
  obtain ⟨δ, hδ, hδi⟩ := hall m hu
  obtain ⟨δ', hδ', hδi'⟩ := hall' m hu
  have hdl2 : garbleDeltas ⟨D, r.input⟩ c = .ok dl' := by
    rw [garbleDeltas_congr (rnd' := ⟨D, r.input⟩) (rnd := redrawn c x x' D r) rfl]; exact hdl'
  have e : (redrawn c x x' D r).input i =
      moved m δ' ((m - x'.getD i 0) % m) (moved m δ (x.getD i 0 % m) (r.input i)) := by
    unfold redrawn
    simp only [h, hdl, hdl2, hδ, hδ']
  obtain ⟨z, w, h1, h2, h3, h4, h5, h6⟩ := moved_ok hg hδi.dom (Nat.mod_lt (x.getD i 0) (good_pos hg)) (r.input i)
  obtain ⟨z2, w2, g1, g2, g3, g4, g5, g6⟩ := moved_ok hg hδi'.dom (Nat.mod_lt (m - x'.getD i 0) (good_pos hg))
    (moved m δ (x.getD i 0 % m) (r.input i))
  rw [h5] at g1
  obtain rfl := Except.ok.inj g1
  rw [e]
  refine ⟨δ, δ', z, w2, hδ, hδ', h1, h2, g3, g4, g5, fun j => ?_⟩
  have hlt := (inputOK_lt hx' h).1
  rw [g6, h6, ZMod.natCast_mod, ZMod.natCast_mod, Nat.cast_sub hlt.le, ZMod.natCast_self]
  ring

theorem redrawn_drawn {c : Circuit} (hc : WellTyped c) {x x' : List Nat} (hx' : InputOK c x') (D : Nat → WireBytes)
    (r : GarbleRand) : Drawn c (redrawn c x x' D r) := by
  obtain ⟨dl, hdl, hall⟩ := deltas_of hc r
  obtain ⟨dl', hdl', hall'⟩ := deltas_of hc (redrawn c x x' D r)
  intro i m h
  obtain ⟨δ, δ', z, w, -, -, -, -, -, h5, h6, -⟩ := redrawn_input hc hx' hdl hall hdl' hall' h
  rw [h6, ← h5]
  exact ⟨w.domain, rfl⟩

theorem redrawn_back {c : Circuit} (hc : WellTyped c) {x x' : List Nat} (hx : InputOK c x) (hx' : InputOK c x')
    (D : Nat → WireBytes) {r : GarbleRand} (hr : Drawn c r) : redrawn c x' x r.delta (redrawn c x x' D r) = r := by
  obtain ⟨dl, hdl, hall⟩ := deltas_of hc r
  obtain ⟨dl', hdl', hall'⟩ := deltas_of hc (redrawn c x x' D r)
  have hdl2 : garbleDeltas (redrawn c x' x r.delta (redrawn c x x' D r)) c = .ok dl := by
    rw [garbleDeltas_congr (rnd' := redrawn c x' x r.delta (redrawn c x x' D r)) (rnd := r) rfl]; exact hdl
  have key : ∀ i, (redrawn c x' x r.delta (redrawn c x x' D r)).input i = r.input i := by
    intro i
    cases h : c.inputDomains[i]? with
    | none =>
      unfold redrawn
      simp only [h]
    | some m =>
      obtain ⟨δ, δ', z, w, h1, h1', h2, h3, h4, h5, h6, h7⟩ := redrawn_input hc hx' hdl hall hdl' hall' h
      obtain ⟨δ2, δ2', z', w', g1, g1', g2, g3, g4, g5, g6, g7⟩ := redrawn_input hc hx hdl' hall' hdl2 hall h
      rw [h1'] at g1
      obtain rfl := Option.some.inj g1
      rw [h1] at g1'
      obtain rfl := Option.some.inj g1'
      rw [h6] at g2
      obtain rfl := Except.ok.inj g2
      have : w' = z := label_ext g4 h3 fun j => by rw [g7, h7]; ring
      rw [← g5, this]
      obtain ⟨d, hd⟩ := hr i m h
      rw [h2] at hd
      rw [Except.ok.inj hd]
  have : redrawn c x' x r.delta (redrawn c x x' D r) = ⟨r.delta, (redrawn c x' x r.delta (redrawn c x x' D r)).input⟩ := rfl
  rw [this, funext key]

theorem redrawn_encode {E : Env} {c : Circuit} (hc : WellTyped c) {x x' : List Nat} (hx : InputOK c x) (hx' : InputOK c x')
    {D : Nat → WireBytes} {r : GarbleRand} {run run' : GarbleRun} (hrun : garbleRun E r c = .ok run)
    (hrun' : garbleRun E (redrawn c x x' D r) c = .ok run') (hok : RunOK E c run) (hok' : RunOK E c run') :
    ∃ X, EncodingKey.encode E.dbg ⟨run.encWires, run.delta⟩ x = .ok X ∧
      EncodingKey.encode E.dbg ⟨run'.encWires, run'.delta⟩ x' = .ok X ∧ X.length = c.numInputs ∧
      ∀ (i m : Nat), c.inputDomains[i]? = some m → ∃ z z' w v v', run.encWires[i]? = some z ∧ run'.encWires[i]? = some z' ∧
        X[i]? = some w ∧ x[i]? = some v ∧ x'[i]? = some v' ∧ Carries run.delta m z v w ∧ Carries run'.delta m z' v' w := by
  obtain ⟨ws, hd, -⟩ := garbleRun_parts hrun
  obtain ⟨ws', hd', -⟩ := garbleRun_parts hrun'
  obtain ⟨X, hX, hXl, hXi⟩ := encode_ok hc hok hx
  obtain ⟨X', hX', hXl', hXi'⟩ := encode_ok hc hok' hx'
  have key : ∀ (i m : Nat), c.inputDomains[i]? = some m → ∃ z z' w v v', run.encWires[i]? = some z ∧ run'.encWires[i]? = some z' ∧
        X[i]? = some w ∧ X'[i]? = some w ∧ x[i]? = some v ∧ x'[i]? = some v' ∧ Carries run.delta m z v w ∧ Carries run'.delta m z' v' w := by
    intro i m h
    obtain ⟨z, w, v, h1, h2, h3, h4⟩ := hXi i m h
    obtain ⟨z', w', v', g1, g2, g3, g4⟩ := hXi' i m h
    obtain ⟨δ, δ', zz, ww, e1, e1', e2, -, -, -, e6, e7⟩ := redrawn_input hc hx' hd hok.deltas hd' hok'.deltas h
    obtain ⟨z1, f1, f2⟩ := run_input hrun hok hc h
    obtain ⟨z2, f3, f4⟩ := run_input hrun' hok' hc h
    rw [e2] at f1; obtain rfl := Except.ok.inj f1
    rw [e6] at f3; obtain rfl := Except.ok.inj f3
    rw [h1] at f2; obtain rfl := Option.some.inj f2
    rw [g1] at f4; obtain rfl := Option.some.inj f4
    have hw : w' = w := label_ext g4.lab h4.lab fun j => by
      rw [h4.eq δ e1, g4.eq δ' e1', e7]
      have a1 := (inputOK_lt hx h).2
      have a2 := (inputOK_lt hx' h).2
      rw [h3] at a1
      rw [g3] at a2
      rw [← Option.some.inj a1, ← Option.some.inj a2]
      ring
    subst hw
    exact ⟨z, z', w', v, v', h1, g1, h2, g2, h3, g3, h4, g4⟩
  have hXX : X' = X := by
    apply List.ext_getElem?
    intro i
    cases h : c.inputDomains[i]? with
    | none =>
      have := List.getElem?_eq_none_iff.mp h
      rw [hc.inputs] at this
      rw [List.getElem?_eq_none (by omega), List.getElem?_eq_none (by omega)]
    | some m =>
      obtain ⟨z, z', w, v, v', h1, h2, h3, h4, -⟩ := key i m h
      rw [h3, h4]
  refine ⟨X, hX, hXX ▸ hX', hXl, fun i m h => ?_⟩
  obtain ⟨z, z', w, v, v', h1, h2, h3, h4, h5, h6, h7, h8⟩ := key i m h
  exact ⟨z, z', w, v, v', h1, h2, h3, h5, h6, h7, h8⟩

theorem redrawn_labels {E : Env} {c : Circuit} (hc : WellTyped c) {x x' : List Nat} (hx : InputOK c x) (hx' : InputOK c x')
    (D : Nat → WireBytes) (r : GarbleRand) : sentLabels E c x' (redrawn c x x' D r) = sentLabels E c x r := by
  obtain ⟨run, hrun, hok⟩ := garbleRun_ok E r hc
  obtain ⟨run', hrun', hok'⟩ := garbleRun_ok E (redrawn c x x' D r) hc
  obtain ⟨X, h1, h2, -⟩ := redrawn_encode hc hx hx' hrun hrun' hok hok'
  unfold sentLabels
  rw [garble_of_run hrun, garble_of_run hrun', okb, okb]
  simp only
  rw [h1, h2]

theorem redrawn_linear {E : Env} {c : Circuit} (hc : WellTyped c) (hl : LinearGates c) {x x' : List Nat} (hx : InputOK c x)
    (hx' : InputOK c x') (D : Nat → WireBytes) (r : GarbleRand) :
    evaluatorView c x' (E, redrawn c x x' D r) = evaluatorView c x (E, r) := by
  obtain ⟨run, hrun, hok⟩ := garbleRun_ok E r hc
  obtain ⟨run', hrun', hok'⟩ := garbleRun_ok E (redrawn c x x' D r) hc
  obtain ⟨X, h1, h2, hXl, hX⟩ := redrawn_encode hc hx hx' hrun hrun' hok hok'
  obtain ⟨a1, a2⟩ := linear_tables hl hrun
  obtain ⟨b1, b2⟩ := linear_tables hl hrun'
  unfold evaluatorView
  simp only
  rw [garble_of_run hrun, garble_of_run hrun', okb, okb, a1, a2, b1, b2]
  simp only
  rw [h1, h2]

/-- A label for a value other than the evaluator's own is right for one delta. -/
theorem forged_delta {E : Env} {c : Circuit} (hc : WellTyped c) (hl : LinearGates c) {x : List Nat} (hx : InputOK c x)
    (D : Nat → WireBytes) (r : GarbleRand) {i m y v : Nat} {w : Wire} (hy : (meaning c x)[i]? = some y)
    (hv : IsUnit ((v : ZMod m) - (y : ZMod m))) (h : OutputLabel E r c i m v w)
    (h' : OutputLabel E (redrawn c x x D r) c i m v w) (hm : 2 ≤ m) :
    Wire.delta m (D m) = Wire.delta m (r.delta m) := by
  obtain ⟨run, hrun, z, δ, e1, e2, e3, e4, e5⟩ := h
  obtain ⟨run', hrun', z', δ', f1, f2, f3, f4, f5⟩ := h'
  obtain ⟨run0, hr0, hok⟩ := garbleRun_ok E r hc
  rw [hrun] at hr0
  obtain rfl := Except.ok.inj hr0
  obtain ⟨run0, hr0, hok'⟩ := garbleRun_ok E (redrawn c x x D r) hc
  rw [hrun'] at hr0
  obtain rfl := Except.ok.inj hr0
  obtain ⟨X, h1, h2, hXl, hX⟩ := redrawn_encode hc hx hx hrun hrun' hok hok'
  obtain ⟨a1, a2⟩ := linear_tables hl hrun
  obtain ⟨b1, b2⟩ := linear_tables hl hrun'
  obtain ⟨Z, q1, -, q3⟩ := evaluate_ok hc hok hx hXl fun i m h => by
    obtain ⟨z, z', w, v, v', h1, h2, h3, h4, h5, h6, h7⟩ := hX i m h
    exact ⟨z, w, v, h1, h3, h4, h6⟩
  obtain ⟨Z', p1, -, p3⟩ := evaluate_ok hc hok' hx hXl fun i m h => by
    obtain ⟨z, z', w, v, v', h1, h2, h3, h4, h5, h6, h7⟩ := hX i m h
    exact ⟨z', w, v', h2, h3, h5, h7⟩
  rw [a1, a2] at q1
  rw [b1, b2, q1] at p1
  obtain rfl := Except.ok.inj p1
  have hi : i < c.numOutputs := by
    have := (List.getElem?_eq_some_iff.mp hy).1
    have hwl : (wireValues c.gates x).length = c.numWires := by
      rw [wireValues_length, hx.length_eq, hc.inputs, hc.wires]
    rw [meaning, List.length_drop, hwl] at this
    omega
  obtain ⟨m1, z1, w1, y1, s1, s2, s3, s4, s5⟩ := q3 i hi
  obtain ⟨m2, z2, w2, y2, t1, t2, t3, t4, t5⟩ := p3 i hi
  have hst : run'.outputsStartAt = run.outputsStartAt := by rw [hok.start, hok'.start]
  rw [← hok.start] at e1
  rw [← hok'.start] at f1
  rw [hst, s1] at t1
  obtain rfl := Option.some.inj t1
  rw [e1] at s2
  obtain rfl := Option.some.inj s2
  rw [f1] at t2
  obtain rfl := Option.some.inj t2
  rw [s3] at t3
  obtain rfl := Option.some.inj t3
  rw [hy] at s4 t4
  obtain rfl := Option.some.inj s4
  obtain rfl := Option.some.inj t4
  obtain ⟨z3, u1, u2⟩ := hok.lab.lab _ m1 s1
  rw [e1] at u1
  obtain rfl := Option.some.inj u1
  obtain ⟨z4, u3, u4⟩ := hok'.lab.lab _ m1 s1
  rw [← hst, f1] at u3
  obtain rfl := Option.some.inj u3
  have hmm : m = m1 := by
    rw [new_num e2, new_num u2.dom]
  subst hmm
  have hgood : GoodDomain m := uses_good hc s1
  obtain ⟨ws, hdl, -⟩ := garbleRun_parts hrun
  obtain ⟨ws', hdl', -⟩ := garbleRun_parts hrun'
  have hδ := (garbleDeltas_raw r c).out _ hdl m δ e3
  have hδ' := (garbleDeltas_raw (redrawn c x x D r) c).out _ hdl' m δ' f3
  have hδ'' : Wire.delta m (D m) = .ok δ' := hδ'
  rw [hδ, hδ'']
  refine congrArg Except.ok (label_ext (delta_label hgood hm hδ'') (delta_label hgood hm hδ) fun j => ?_)
  have k1 := s5.eq δ e3 j
  have k2 := t5.eq δ' f3 j
  have k3 : zd m w j = zd m z j + v * zd m δ j := by
    unfold zd
    rw [e5.eq j, ZMod.natCast_mod]; push_cast; ring
  have k4 : zd m w j = zd m z' j + v * zd m δ' j := by
    unfold zd
    rw [f5.eq j, ZMod.natCast_mod]; push_cast; ring
  have k5 : ((v : ZMod m) - y) * zd m δ' j = ((v : ZMod m) - y) * zd m δ j := by
    linear_combination k2 - k1 + k3 - k4
  exact hv.mul_left_cancel k5

end FP
