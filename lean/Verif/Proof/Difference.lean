import Verif.Spec.Difference
import Verif.Proof.Encoded
import Verif.Proof.Curious
import Verif.Proof.Shape
/-
Two garblings that differ only where there are no tables.
-/
namespace FP
open Spec

theorem garbleProj_reads {E : Env} {dl : HMap Nat Wire} {Z Z' : List Wire} {g : Gate} {p : ProjKind}
    (h : ∀ i ∈ g.inputs, Z'[i]? = Z[i]?) : garbleProj E dl Z' g p = garbleProj E dl Z g p := by
  have : (do let i ← idxR g.inputs 0; idxR Z' i) = (do let i ← idxR g.inputs 0; idxR Z i) := by
    cases h0 : g.inputs[0]? with
    | none => unfold idxR; rw [h0]; rfl
    | some a => rw [idxR_ok h0, okb, okb]; unfold idxR; rw [h a (List.mem_of_getElem? h0)]
  unfold garbleProj
  cases h0 : g.inputs[0]? with
  | none => unfold idxR; rw [h0]; rfl
  | some a =>
    rw [idxR_ok h0, okb, okb] at this
    simp only [idxR_ok h0, okb]
    rw [this]

theorem garbleAnd_reads {E : Env} {dl : HMap Nat Wire} {Z Z' : List Wire} {g : Gate} {j : Nat}
    (h : ∀ i ∈ g.inputs, Z'[i]? = Z[i]?) : garbleAnd E dl Z' g j = garbleAnd E dl Z g j := by
  have key : ∀ k, (idxR g.inputs k >>= fun i => idxR Z' i) = (idxR g.inputs k >>= fun i => idxR Z i) := by
    intro k
    cases h0 : g.inputs[k]? with
    | none => unfold idxR; rw [h0]; rfl
    | some a => rw [idxR_ok h0, okb, okb]; unfold idxR; rw [h a (List.mem_of_getElem? h0)]
  unfold garbleAnd
  cases h0 : g.inputs[0]? with
  | none => unfold idxR; rw [h0]; rfl
  | some a =>
    have k0 := key 0
    rw [idxR_ok h0, okb, okb] at k0
    simp only [idxR_ok h0, okb, k0]
    cases h1 : g.inputs[1]? with
    | none => unfold idxR; rw [h1]; rfl
    | some b =>
      have k1 := key 1
      rw [idxR_ok h1, okb, okb] at k1
      simp only [idxR_ok h1, okb, k1]

theorem garbleGate_reads {E : Env} {dl : HMap Nat Wire} {s t s1 t1 : GarbleState} {g : Gate}
    (ht : isAnd g = true ∨ isProj g = true) (h : ∀ i ∈ g.inputs, t.wires[i]? = s.wires[i]?) (hj : t.j = s.j)
    (hf : t.f = s.f) (hh : t.fHalf = s.fHalf) (h1 : garbleGate E dl s g = .ok s1) (h2 : garbleGate E dl t g = .ok t1) :
    ∃ w, s1.wires = s.wires ++ [w] ∧ t1.wires = t.wires ++ [w] ∧ t1.j = s1.j ∧ t1.f = s1.f ∧ t1.fHalf = s1.fHalf := by
  unfold garbleGate at h1 h2
  cases hk : g.kind with
  | add => simp [isAnd, isProj, hk] at ht
  | mul c => simp [isAnd, isProj, hk] at ht
  | proj p =>
    rw [hk] at h1 h2
    simp only [garbleProj_reads h] at h2
    obtain ⟨⟨w, tbl⟩, e1, e2⟩ := bind_inv h1
    rw [e1, okb] at h2
    cases e2; cases h2
    exact ⟨w, rfl, rfl, hj, by simp only [hf], hh⟩
  | and =>
    rw [hk] at h1 h2
    simp only [garbleAnd_reads h, hj] at h2
    obtain ⟨⟨w, tbl⟩, e1, e2⟩ := bind_inv h1
    rw [e1, okb] at h2
    cases e2; cases h2
    exact ⟨w, rfl, rfl, by simp only, hf, by simp only [hh]⟩

/-- The gates with tables read the same labels, so that the tables are the same. -/
theorem twin_fold {E : Env} {dl : HMap Nat Wire} {start : Nat} (gs : List Gate) :
    ∀ (doms : List Nat) (s t s' t' : GarbleState) (vals vals' : List Nat) (ev : List (Option Wire)), GatesOK doms gs →
    LabInv doms s.wires → LabInv doms t.wires →
    (∀ g ∈ gs, DeltaOK dl g.domain ∧ DeltaOK dl g.outputDomain) →
    EvInv dl doms s.wires vals ev → EvInv dl doms t.wires vals' ev → doms.length + gs.length ≤ ev.length →
    t.j = s.j → t.f = s.f → t.fHalf = s.fHalf →
    (∀ g ∈ gs, isAnd g = true ∨ isProj g = true → ∀ i ∈ g.inputs,
      (wireValues gs vals').getD i 0 = (wireValues gs vals).getD i 0) →
    gs.foldlM (fun s g => do garbleDecoding E dl start (← garbleGate E dl s g) g) s = .ok s' →
    gs.foldlM (fun s g => do garbleDecoding E dl start (← garbleGate E dl s g) g) t = .ok t' →
    t'.f = s'.f ∧ t'.fHalf = s'.fHalf ∧ ∃ ev',
      EvInv dl (doms ++ gs.map Gate.outputDomain) s'.wires (wireValues gs vals) ev' ∧
      EvInv dl (doms ++ gs.map Gate.outputDomain) t'.wires (wireValues gs vals') ev' := by
  induction gs with
  | nil =>
    intro doms s t s' t' vals vals' ev _ _ _ _ hs ht _ _ hf hh _ h h'
    cases h; cases h'
    exact ⟨hf, hh, ev, by simpa [wireValues] using hs, by simpa [wireValues] using ht⟩
  | cons g gs ih =>
    intro doms s t s' t' vals vals' ev hok ls lt hδ hs ht hlen hj hf hh hsame h h'
    obtain ⟨hg, hgs⟩ := hok
    obtain ⟨hδ1, hδ2⟩ := hδ g (by simp)
    rw [List.foldlM_cons] at h h'
    obtain ⟨s2, ha, hb⟩ := bind_inv h
    obtain ⟨s1, hs1, hs2⟩ := bind_inv ha
    obtain ⟨t2, ha', hb'⟩ := bind_inv h'
    obtain ⟨t1, ht1, ht2⟩ := bind_inv ha'
    obtain ⟨d, hd⟩ := decoding_frame hs2
    obtain ⟨d', hd'⟩ := decoding_frame ht2
    obtain ⟨s1', w, e1, -, e2, e4, -, e6⟩ := gateStep (E := E) ls hg hδ1 hδ2
    rw [hs1] at e1
    obtain rfl := Except.ok.inj e1
    obtain ⟨t1', w', f1, -, f2, f4, -, f6⟩ := gateStep (E := E) lt hg hδ1 hδ2
    rw [ht1] at f1
    obtain rfl := Except.ok.inj f1
    have hin : ∀ (vs : List Nat), vs.length = doms.length → ∀ i ∈ g.inputs, (wireValues (g :: gs) vs).getD i 0 = vs.getD i 0 := by
      intro vs hvs i hi
      obtain ⟨e, he⟩ := wireValues_prefix (g :: gs) vs
      have := (List.getElem?_eq_some_iff.mp (hg.inputs i hi)).1
      rw [he, List.getD_eq_getElem?_getD, List.getElem?_append_left (by omega), List.getD_eq_getElem?_getD]
    -- a common label for the output
    have key : ∃ W, Carries dl g.outputDomain w (gateValue g (g.inputs.map (vals.getD · 0))) W ∧
        Carries dl g.outputDomain w' (gateValue g (g.inputs.map (vals'.getD · 0))) W ∧ t1.j = s1.j ∧ t1.f = s1.f ∧
        t1.fHalf = s1.fHalf := by
      by_cases htab : isAnd g = true ∨ isProj g = true
      · have hv : ∀ i ∈ g.inputs, vals'.getD i 0 = vals.getD i 0 := by
          intro i hi
          rw [← hin vals' ht.len i hi, ← hin vals hs.len i hi]
          exact hsame g (by simp) htab i hi
        have hz : ∀ i ∈ g.inputs, t.wires[i]? = s.wires[i]? := by
          intro i hi
          have hdi := hg.inputs i hi
          obtain ⟨z, W, v, a1, a2, a3, a4⟩ := hs.car i _ hdi
          obtain ⟨z', W', v', b1, b2, b3, b4⟩ := ht.car i _ hdi
          rw [a2] at b2
          obtain rfl := Option.some.inj (Option.some.inj b2)
          have hvv := hv i hi
          rw [List.getD, b3, List.getD, a3, Option.getD_some, Option.getD_some] at hvv
          subst hvv
          obtain ⟨zz, c1, c2⟩ := ls.lab i _ hdi
          obtain ⟨zz', c3, c4⟩ := lt.lab i _ hdi
          rw [a1] at c1; obtain rfl := Option.some.inj c1
          rw [b1] at c3; obtain rfl := Option.some.inj c3
          rw [a1, b1]
          obtain ⟨δ, hδ, -⟩ := hδ1
          refine congrArg some (label_ext c4 c2 fun j => ?_)
          have u1 := a4.eq δ hδ j
          have u2 := b4.eq δ hδ j
          rw [u1] at u2
          exact (add_right_cancel u2).symm
        obtain ⟨u, u1, u2, u3, u4, u5⟩ := garbleGate_reads htab hz hj hf hh hs1 ht1
        obtain rfl : w = u := List.singleton_inj.mp (List.append_cancel_left (e2.symm.trans u1))
        obtain rfl : w' = w := List.singleton_inj.mp (List.append_cancel_left (f2.symm.trans u2))
        obtain ⟨W, -, hW⟩ := e6 ⟨⟨0, 0, 0, [], []⟩, s1.f, s1.fHalf⟩ rfl rfl _ _ hs
        refine ⟨W, hW, ?_, u3, u4, u5⟩
        rw [List.map_congr_left hv]
        exact hW
      · have hp : ∀ p, g.kind ≠ .proj p := by
          intro p hk
          exact htab (.inr (by simp [isProj, hk]))
        have hand : isAnd g = false := by
          cases hh : isAnd g
          · rfl
          · exact absurd (.inl hh) htab
        obtain ⟨W, hW, hc⟩ := e6 ⟨⟨0, 0, 0, [], []⟩, s1.f, s1.fHalf⟩ rfl rfl _ _ hs
        obtain ⟨W', hW', hc'⟩ := f6 ⟨⟨0, 0, 0, [], []⟩, t1.f, t1.fHalf⟩ rfl rfl _ _ ht
        rw [evalGate_linear (E := E) rfl hp hand ⟨⟨0, 0, 0, [], []⟩, s1.f, s1.fHalf⟩, hj, hW] at hW'
        have hWW := congrArg Prod.fst (Except.ok.inj hW')
        simp only at hWW
        subst hWW
        obtain ⟨u, hu, -, -, hr⟩ := gate_half ls hg hδ1 hδ2 hs1
        obtain ⟨u', hu', -, -, hr'⟩ := gate_half lt hg hδ1 hδ2 ht1
        rw [hand, if_neg (by decide)] at hr hr'
        refine ⟨W, hc, hc', by rw [hr.2, hr'.2, hj], ?_, by rw [hr.1, hr'.1, hh]⟩
        rw [garbleGate_f hp hs1, garbleGate_f hp ht1, hf]
    obtain ⟨W, c1, c2, c3, c4, c5⟩ := key
    have k1 := hs.snoc ls c1 hg.output (by rw [hg.output]; simp only [List.length_cons] at hlen; omega)
    have k2 := ht.snoc lt c2 hg.output (by rw [hg.output]; simp only [List.length_cons] at hlen; omega)
    rw [← e2] at k1
    rw [← f2] at k2
    have hw2 : s2.wires = s1.wires := by rw [hd]
    have hw2' : t2.wires = t1.wires := by rw [hd']
    have l1 := ls.snoc e4
    have l2 := lt.snoc f4
    rw [← e2, ← hw2] at l1
    rw [← f2, ← hw2'] at l2
    rw [← hw2] at k1
    rw [← hw2'] at k2
    have := ih (doms ++ [g.outputDomain]) s2 t2 s' t' _ _ _ hgs l1 l2 (fun g' hg' => hδ g' (by simp [hg'])) k1 k2
      (by simp only [List.length_append, List.length_cons, List.length_nil, List.length_set] at hlen ⊢; omega)
      (by rw [hd, hd']; exact c3) (by rw [hd, hd']; exact c4) (by rw [hd, hd']; exact c5)
      (fun g' hg' htab i hi => by
        have := hsame g' (by simp [hg']) htab i hi
        rwa [wireValues_cons, wireValues_cons] at this) hb hb'
    simpa [wireValues_cons] using this

/-- Everything is the same. -/
theorem twin_run {E : Env} {c : Circuit} (hc : WellTyped c) {x x' : List Nat} (hx : InputOK c x) (hx' : InputOK c x')
    (hsame : SameAtTables c x x') (r : GarbleRand) :
    evaluatorView c x' (E, otherDraws c x x' r) = evaluatorView c x (E, r) ∧
    (meaning c x' = meaning c x → decoderView c x' (E, otherDraws c x x' r) = decoderView c x (E, r)) := by
  obtain ⟨run, hrun, hok⟩ := garbleRun_ok E r hc
  obtain ⟨run', hrun', hok'⟩ := garbleRun_ok E (otherDraws c x x' r) hc
  obtain ⟨hd, X, h1, h2, hXl, hX⟩ := other_encode hc hx hx' hrun hrun' hok hok'
  obtain ⟨ws, p1, p2, p3, p4, p5⟩ := garbleRun_parts hrun
  obtain ⟨ws', q1, q2, q3, q4, q5⟩ := garbleRun_parts hrun'
  have hst : run'.outputsStartAt = run.outputsStartAt := by rw [hok.start, hok'.start]
  rw [hd, hst] at q5
  have hn := hc.inputs
  have hwl : ws.length = c.inputDomains.length := by rw [mapM_length p2, List.length_zipIdx]
  have hwl' : ws'.length = c.inputDomains.length := by rw [mapM_length q2, List.length_zipIdx]
  have e1 : ws = run.encWires := by
    rw [sliceR_ok (by omega) (by omega)] at p3
    rw [← Except.ok.inj p3, List.drop_zero, List.take_of_length_le (by omega)]
  have e2 : ws' = run'.encWires := by
    rw [sliceR_ok (by omega) (by omega)] at q3
    rw [← Except.ok.inj q3, List.drop_zero, List.take_of_length_le (by omega)]
  have hlab : ∀ (R : GarbleRun), RunOK E c R → LabInv c.inputDomains R.encWires := by
    intro R hR
    refine ⟨by rw [hR.enc, hn], fun i m hi => ?_⟩
    have hlt := (List.getElem?_eq_some_iff.mp hi).1
    rw [hR.pre i (by omega)]
    exact hR.lab.lab i m (by rw [List.getElem?_append_left hlt]; exact hi)
  have hxl := hx.length_eq
  have hxl' := hx'.length_eq
  subst e1 e2
  obtain ⟨g1, g2, ev, g3, g4⟩ := twin_fold c.gates c.inputDomains ⟨run.encWires, [], [], [], 0⟩
    ⟨run'.encWires, [], [], [], 0⟩ run.state run'.state x x'
    (X.map some ++ List.replicate c.gates.length none) hc.gates (hlab run hok) (hlab run' hok')
    (fun g hg => ⟨hok.deltas _ ⟨g, hg, .inl rfl⟩, by
      obtain ⟨d, hd⟩ := gatesOK_mem hc.gates hg
      exact hok.deltas _ (usesDomain_range hg hd)⟩)
    ⟨hxl, fun i m hi => by
      obtain ⟨z, z', w, v, v', a1, a2, a3, a4, a5, a6, a7⟩ := hX i m hi
      have hlt := (List.getElem?_eq_some_iff.mp hi).1
      exact ⟨z, w, v, a1, by rw [List.getElem?_append_left (by simp; omega), List.getElem?_map, a3]; rfl, a4, a6⟩⟩
    ⟨hxl', fun i m hi => by
      obtain ⟨z, z', w, v, v', a1, a2, a3, a4, a5, a6, a7⟩ := hX i m hi
      have hlt := (List.getElem?_eq_some_iff.mp hi).1
      exact ⟨z', w, v', a2, by rw [List.getElem?_append_left (by simp; omega), List.getElem?_map, a3]; rfl, a5, hd ▸ a7⟩⟩
    (by simp; omega) rfl rfl rfl hsame p5 q5
  constructor
  · unfold evaluatorView
    simp only
    rw [garble_of_run hrun, garble_of_run hrun', okb, okb, g1, g2]
    simp only
    rw [h1, h2]
  · intro hm
    have hdec : run'.state.d = run.state.d := by
      refine decoding_eq hc hok hok' hd fun i hi1 hi2 => ?_
      have hlen : (c.inputDomains ++ c.gates.map Gate.outputDomain).length = c.numWires := by
        simp [hc.wires, hc.inputs]
      obtain ⟨m, hdom⟩ : ∃ m, (c.inputDomains ++ c.gates.map Gate.outputDomain)[i]? = some m :=
        ⟨_, List.getElem?_eq_getElem (by rw [hlen]; exact hi2)⟩
      obtain ⟨z, w, v, a1, a2, a3, a4⟩ := g3.car i m hdom
      obtain ⟨z', w', v', b1, b2, b3, b4⟩ := g4.car i m hdom
      rw [a2] at b2
      obtain rfl := Option.some.inj (Option.some.inj b2)
      have hvv : v' = v := by
        have := congrArg (fun l => l[i - (c.numWires - c.numOutputs)]?) hm
        unfold meaning at this
        simp only [List.getElem?_drop, Nat.add_sub_cancel' hi1] at this
        rw [a3, b3] at this
        exact Option.some.inj this
      subst hvv
      obtain ⟨zz, c1, c2⟩ := hok.lab.lab i m hdom
      obtain ⟨zz', c3, c4⟩ := hok'.lab.lab i m hdom
      rw [a1] at c1; obtain rfl := Option.some.inj c1
      rw [b1] at c3; obtain rfl := Option.some.inj c3
      rw [a1, b1]
      obtain ⟨δ, hδ, -⟩ := hok.deltas m (uses_all hc hdom)
      refine congrArg some (label_ext c4 c2 fun j => ?_)
      have u1 := a4.eq δ hδ j
      have u2 := b4.eq δ hδ j
      rw [u1] at u2
      exact (add_right_cancel u2).symm
    unfold decoderView
    simp only
    rw [garble_of_run hrun, garble_of_run hrun', okb, okb, g1, g2, hdec, hst]
    simp only
    rw [h1, h2]

theorem look_same {c : Circuit} (hc : WellTyped c) {x x' : List Nat} (hx : InputOK c x) (hx' : InputOK c x')
    (hsame : SameAtTables c x x') (hm : meaning c x' = meaning c x) : LookTheSame c x x' :=
  ⟨otherDraws c x x', otherDraws c x' x, fun r hr => ⟨otherDraws_drawn hc hx' r, otherDraws_back hc hx hx' hr⟩,
    fun r hr => ⟨otherDraws_drawn hc hx r, otherDraws_back hc hx' hx hr⟩,
    fun _ r _ => (twin_run hc hx hx' hsame r).2 hm⟩

end FP
