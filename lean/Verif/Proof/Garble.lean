import Verif.Proof.GarbleGate
/-
Whole circuits: garbling followed by evaluation.
-/
namespace FP
open Spec

theorem gateStep {E : Env} {dl : HMap Nat Wire} {doms : List Nat} {s : GarbleState} {g : Gate}
    (hs : LabInv doms s.wires) (hg : GateOK doms g) (h1 : DeltaOK dl g.domain)
    (h2 : DeltaOK dl g.outputDomain) : GateStep E dl doms s g := by
  cases hk : g.kind with
  | add => exact gateStep_add hk hs hg
  | mul c => exact gateStep_mul hk hs hg
  | proj p => exact gateStep_proj hk hs hg h1 h2
  | and =>
    have : g.outputDomain = 2 := by simp [Gate.outputDomain, hk]
    exact gateStep_and hk hs hg (this ▸ h2)

theorem getElem?_snoc {α} (l : List α) (a : α) (i : Nat) (b : α) :
    (l ++ [a])[i]? = some b ↔ (l[i]? = some b) ∨ (i = l.length ∧ a = b) := by
  rw [List.getElem?_append]
  split
  · rename_i h
    constructor
    · exact Or.inl
    · rintro (h' | ⟨h', _⟩)
      · exact h'
      · omega
  · rename_i h
    have hn : l[i]? = none := by simp; omega
    rw [List.getElem?_singleton]
    constructor
    · intro h'
      split at h'
      · right; exact ⟨by omega, by injection h'⟩
      · cases h'
    · rintro (h' | ⟨h', rfl⟩)
      · rw [hn] at h'; cases h'
      · simp [h']

theorem LabInv.snoc {doms : List Nat} {Z : List Wire} (h : LabInv doms Z) {m : Nat} {w : Wire}
    (hw : IsLabel m w) : LabInv (doms ++ [m]) (Z ++ [w]) := by
  refine ⟨by simp [h.len], fun i d hi => ?_⟩
  rcases (getElem?_snoc _ _ _ _).mp hi with hi | ⟨rfl, rfl⟩
  · obtain ⟨z, hz, hl⟩ := h.lab i d hi
    exact ⟨z, (getElem?_snoc _ _ _ _).mpr (.inl hz), hl⟩
  · exact ⟨w, (getElem?_snoc _ _ _ _).mpr (.inr ⟨h.len.symm, rfl⟩), hw⟩

/-- The decoding hashes collected so far. -/
structure DecInv (E : Env) (dl : HMap Nat Wire) (start : Nat) (doms : List Nat) (Z : List Wire)
    (d : List (List WireBytes)) : Prop where
  len : d.length = doms.length - start
  hash : ∀ (i : Nat) (m : Nat), start ≤ i → doms[i]? = some m → ∃ z hs, Z[i]? = some z ∧
    d[i - start]? = some hs ∧ hs.length = m ∧
    ∀ x, x < m → ∃ w, Carries dl m z x w ∧ hs[x]? = some (hashOut E i x w)

theorem carries_mk {dl : HMap Nat Wire} {m : Nat} {z δ : Wire} (dbg : Bool) (hm : GoodDomain m)
    (hz : IsLabel m z) (hδ : List.lookup m dl = some δ) (hδi : IsDelta m δ) {x : Nat} (hx : x < m) :
    ∃ dx w, Wire.mul dbg δ x = .ok dx ∧ Wire.add dbg z dx = .ok w ∧ Carries dl m z x w := by
  obtain ⟨dx, hdx, hldx, hzdx⟩ := mulZ dbg hm hδi.dom hx
  obtain ⟨w, hw, hlw, hzw⟩ := addZ dbg hm hz hldx
  refine ⟨dx, w, hdx, hw, hx, hlw, fun δ' hδ' i => ?_⟩
  obtain rfl : δ = δ' := by rw [hδ] at hδ'; injection hδ'
  rw [hzw, hzdx]

theorem garbleDecoding_ok {E : Env} {dl : HMap Nat Wire} {start : Nat} {doms : List Nat}
    {Z : List Wire} {s : GarbleState} {w : Wire} {g : Gate} (hs : LabInv doms Z)
    (hd : DecInv E dl start doms Z s.d) (hw : s.wires = Z ++ [w]) (hlw : IsLabel g.outputDomain w)
    (hg : GateOK doms g) (h2 : DeltaOK dl g.outputDomain) :
    ∃ d, garbleDecoding E dl start s g = .ok { s with d := d } ∧
      DecInv E dl start (doms ++ [g.outputDomain]) (Z ++ [w]) d := by
  obtain ⟨δ, hδ, hδi⟩ := h2
  unfold garbleDecoding
  by_cases hst : start ≤ g.output
  · have hgw : s.wires[g.output]? = some w := by
      rw [hw, hg.output, ← hs.len]; simp
    obtain ⟨hs', hm, hf⟩ := mapM_exists (l := List.range g.outputDomain)
      (f := fun x => (do
        return hashOut E g.output x
          (← Wire.add E.dbg (← idxR s.wires g.output)
            (← Wire.mul E.dbg (← dl.getR g.outputDomain) x)) : R WireBytes))
      (P := fun x h => ∃ w', Carries dl g.outputDomain w x w' ∧ h = hashOut E g.output x w') (by
        intro x hx
        obtain ⟨dx, w', h1, h2, h3⟩ := carries_mk E.dbg hg.range hlw hδ hδi (List.mem_range.mp hx)
        exact ⟨hashOut E g.output x w', by
          simp only [idxR_ok hgw, HMap.getR_ok hδ, okb, h1, h2, purek], w', h3, rfl⟩)
    refine ⟨s.d ++ [hs'], by rw [if_pos hst, hm]; rfl, ?_, ?_⟩
    · simp only [List.length_append, List.length_singleton, hd.len]
      have := hg.output; omega
    · intro i m hi hm'
      rcases (getElem?_snoc _ _ _ _).mp hm' with hm' | ⟨rfl, rfl⟩
      · obtain ⟨z, hs, hz, hdz, hrest⟩ := hd.hash i m hi hm'
        exact ⟨z, hs, (getElem?_snoc _ _ _ _).mpr (.inl hz),
          (getElem?_snoc _ _ _ _).mpr (.inl hdz), hrest⟩
      · refine ⟨w, hs', (getElem?_snoc _ _ _ _).mpr (.inr ⟨hs.len.symm, rfl⟩),
          (getElem?_snoc _ _ _ _).mpr (.inr ⟨hd.len.symm, rfl⟩), ?_, ?_⟩
        · rw [← hf.length_eq]; simp
        · intro x hx
          have hlen := hf.length_eq
          have hx' : x < hs'.length := by rw [← hlen]; simpa using hx
          have := List.Forall₂.get hf (by simpa using hx) hx'
          simp only [List.get_eq_getElem, List.getElem_range] at this
          obtain ⟨w', hc, he⟩ := this
          refine ⟨w', hc, ?_⟩
          rw [List.getElem?_eq_getElem hx', he, hg.output]
  · refine ⟨s.d, by simp only [hst, if_false, purek], ?_, ?_⟩
    · have := hg.output
      have := hd.len
      simp only [List.length_append, List.length_singleton]; omega
    · intro i m hi hm'
      rcases (getElem?_snoc _ _ _ _).mp hm' with hm' | ⟨rfl, rfl⟩
      · obtain ⟨z, hs, hz, hdz, hrest⟩ := hd.hash i m hi hm'
        exact ⟨z, hs, (getElem?_snoc _ _ _ _).mpr (.inl hz), hdz, hrest⟩
      · have := hg.output; omega

theorem EvInv.snoc {dl : HMap Nat Wire} {doms : List Nat} {Z : List Wire} {vals : List Nat}
    {ev : List (Option Wire)} (hs : LabInv doms Z) (h : EvInv dl doms Z vals ev) {m v o : Nat}
    {w W : Wire} (hc : Carries dl m w v W) (ho : o = doms.length) (hlen : o < ev.length) :
    EvInv dl (doms ++ [m]) (Z ++ [w]) (vals ++ [v]) (ev.set o (some W)) := by
  refine ⟨by simp [h.len], fun i d hi => ?_⟩
  rcases (getElem?_snoc _ _ _ _).mp hi with hi | ⟨rfl, rfl⟩
  · obtain ⟨z, w', v', hz, hw', hv', hcar⟩ := h.car i d hi
    have hi' : i < doms.length := (List.getElem?_eq_some_iff.mp hi).1
    refine ⟨z, w', v', (getElem?_snoc _ _ _ _).mpr (.inl hz), ?_,
      (getElem?_snoc _ _ _ _).mpr (.inl hv'), hcar⟩
    rw [List.getElem?_set_ne (by omega)]; exact hw'
  · refine ⟨w, W, v, (getElem?_snoc _ _ _ _).mpr (.inr ⟨hs.len.symm, rfl⟩), ?_,
      (getElem?_snoc _ _ _ _).mpr (.inr ⟨h.len.symm, rfl⟩), hc⟩
    subst ho; simp [hlen]

/-- The evaluator's loop body. -/
def evalStep (E : Env) (gc : GarbledCircuit) (s : List (Option Wire) × Nat) (g : Gate) :
    R (List (Option Wire) × Nat) := do
  let (w, j) ← evalGate E gc s.1 s.2 g
  return (← setR s.1 g.output (some w), j)

theorem gates_ok {E : Env} {dl : HMap Nat Wire} {start : Nat} (gs : List Gate) :
    ∀ (doms : List Nat) (s : GarbleState), GatesOK doms gs → LabInv doms s.wires →
    DecInv E dl start doms s.wires s.d →
    (∀ g ∈ gs, DeltaOK dl g.domain ∧ DeltaOK dl g.outputDomain) →
    ∃ s', gs.foldlM (fun s g => do garbleDecoding E dl start (← garbleGate E dl s g) g) s = .ok s' ∧
      LabInv (doms ++ gs.map Gate.outputDomain) s'.wires ∧
      DecInv E dl start (doms ++ gs.map Gate.outputDomain) s'.wires s'.d ∧
      (∀ i, i < doms.length → s'.wires[i]? = s.wires[i]?) ∧
      (∀ k, k < doms.length → List.lookup k s'.f = List.lookup k s.f ∧
        List.lookup k s'.fHalf = List.lookup k s.fHalf) ∧
      ∀ gc : GarbledCircuit, (∀ k, doms.length ≤ k → List.lookup k gc.f = List.lookup k s'.f ∧
          List.lookup k gc.fHalf = List.lookup k s'.fHalf) →
        ∀ ev vals, EvInv dl doms s.wires vals ev → doms.length + gs.length ≤ ev.length →
        ∃ ev', gs.foldlM (evalStep E gc) (ev, s.j) = .ok (ev', s'.j) ∧ ev'.length = ev.length ∧
          EvInv dl (doms ++ gs.map Gate.outputDomain) s'.wires (wireValues gs vals) ev' := by
  induction gs with
  | nil =>
    intro doms s _ hs hd _
    refine ⟨s, rfl, by simpa using hs, by simpa using hd, fun _ _ => rfl, fun _ _ => ⟨rfl, rfl⟩, ?_⟩
    intro gc _ ev vals hev _
    exact ⟨ev, rfl, rfl, by simpa [wireValues] using hev⟩
  | cons g gs ih =>
    intro doms s hok hs hd hδ
    obtain ⟨hg, hgs⟩ := hok
    obtain ⟨hδ1, hδ2⟩ := hδ g (by simp)
    obtain ⟨s1, w, hgg, hd1, hw1, hlw, hframe, hev1⟩ := gateStep (E := E) hs hg hδ1 hδ2
    obtain ⟨d, hdec, hdinv⟩ := garbleDecoding_ok (E := E) (start := start) (s := s1) hs
      (hd1 ▸ hd) hw1 hlw hg hδ2
    have hlab := hs.snoc hlw
    rw [← hw1] at hlab hdinv
    obtain ⟨s', hfold, hlab', hdec', hpre, hlook, hevs⟩ := ih (doms ++ [g.outputDomain])
      { s1 with d := d } hgs hlab hdinv (fun g hg => hδ g (by simp [hg]))
    have hassoc : doms ++ [g.outputDomain] ++ gs.map Gate.outputDomain =
      doms ++ (g :: gs).map Gate.outputDomain := by simp
    rw [hassoc] at hlab' hdec' hevs
    refine ⟨s', ?_, hlab', hdec', ?_, ?_, ?_⟩
    · rw [List.foldlM_cons, hgg, okb, hdec, okb, hfold]
    · intro i hi
      rw [hpre i (by simp; omega)]
      simp only [hw1]
      rw [List.getElem?_append_left (by rw [hs.len]; exact hi)]
    · intro k hk
      have := hlook k (by simp; omega)
      have hf := hframe k (by rw [hg.output]; omega)
      exact ⟨this.1.trans hf.1, this.2.trans hf.2⟩
    · intro gc hgc ev vals hev hlen
      have ho := hlook g.output (by simp [hg.output])
      have hgo := hgc g.output (by rw [hg.output])
      obtain ⟨W, hW, hcar⟩ := hev1 gc (hgo.1.trans ho.1) (hgo.2.trans ho.2) ev vals hev
      simp only [List.length_cons] at hlen
      have holt : g.output < ev.length := by rw [hg.output]; omega
      have hev2 := hev.snoc hs hcar hg.output holt
      rw [← hw1] at hev2
      obtain ⟨ev', hev', hl', hinv'⟩ := hevs gc (fun k hk => hgc k (by simp at hk; omega))
        (ev.set g.output (some W)) _ hev2 (by simp; omega)
      refine ⟨ev', ?_, by simpa using hl', ?_⟩
      · rw [List.foldlM_cons]
        simp only [evalStep, hW, okb, setR_ok (some W) holt, purek]
        exact hev'
      · simpa [wireValues] using hinv'

/-! Deltas. -/

theorem lookup_cons_eq {V} (k k' : Nat) (v : V) (m : HMap Nat V) :
    List.lookup k ((k', v) :: m) = if k = k' then some v else List.lookup k m := by
  rw [List.lookup_cons]
  by_cases h : k = k'
  · simp [h]
  · have : (k == k') = false := by simpa using h
    simp [this, h]

/-- Every entry of the map is a delta of its domain. -/
def AllDelta (m : HMap Nat Wire) : Prop := ∀ k δ, List.lookup k m = some δ → IsDelta k δ

theorem ensureDelta_ok (rnd : GarbleRand) {m : HMap Nat Wire} {k : Nat} (hk : GoodDomain k)
    (hm : AllDelta m) :
    ∃ m', ensureDelta rnd m k = .ok m' ∧ AllDelta m' ∧ DeltaOK m' k ∧
      ∀ d, DeltaOK m d → DeltaOK m' d := by
  unfold ensureDelta
  cases h : List.lookup k m with
  | some δ => exact ⟨m, rfl, hm, ⟨δ, h, hm _ _ h⟩, fun _ h => h⟩
  | none =>
    obtain ⟨δ, hδ, hδi⟩ := wireDelta_ok hk (rnd.delta k)
    refine ⟨m.insert k δ, by simp only [hδ, okb, purek], ?_, ⟨δ, ?_, hδi⟩, ?_⟩
    · intro k' δ' h'
      rw [HMap.insert, lookup_cons_eq] at h'
      split at h'
      · injection h' with h'; subst h'; rename_i hkk; exact hkk ▸ hδi
      · exact hm _ _ h'
    · rw [HMap.insert, lookup_cons_eq]; simp
    · intro d ⟨δ', hd, hdi⟩
      refine ⟨δ', ?_, hdi⟩
      rw [HMap.insert, lookup_cons_eq]
      split
      · rename_i hkk; subst hkk; rw [h] at hd; cases hd
      · exact hd

theorem garbleDeltas_ok (rnd : GarbleRand) (c : Circuit)
    (hg : ∀ g ∈ c.gates, GoodDomain g.domain ∧ GoodDomain g.outputDomain) :
    ∃ dl, garbleDeltas rnd c = .ok dl ∧ AllDelta dl ∧ ∀ d, usesDomain c.gates d → DeltaOK dl d := by
  unfold garbleDeltas
  obtain ⟨dl, h1, h2, h3⟩ := foldlM_inv (l := c.gates) (s := ([] : HMap Nat Wire))
    (f := fun m g => do
      let m ← ensureDelta rnd m g.domain
      match g.kind with
      | .proj p => ensureDelta rnd m p.dom
      | _ => return m)
    (fun i m => AllDelta m ∧ ∀ (k : Nat) (g : Gate), k < i → c.gates[k]? = some g →
      ∀ d, (g.domain = d ∨ ∃ p, g.kind = .proj p ∧ p.dom = d) → DeltaOK m d)
    ⟨by intro k δ h; simp at h, by intro k g h; omega⟩ (by
      intro i g m hgi ⟨hall, hprev⟩
      have hmem : g ∈ c.gates := List.mem_of_getElem? hgi
      obtain ⟨g1, g2⟩ := hg g hmem
      obtain ⟨m1, e1, a1, d1, k1⟩ := ensureDelta_ok rnd g1 hall
      by_cases hp : ∃ p, g.kind = .proj p
      · obtain ⟨p, hp⟩ := hp
        have hod : g.outputDomain = p.dom := by simp [Gate.outputDomain, hp]
        obtain ⟨m2, e2, a2, d2, k2⟩ := ensureDelta_ok rnd (hod ▸ g2) a1
        refine ⟨m2, by simp only [e1, okb, hp, e2], a2, ?_⟩
        intro k g' hk hg' d hd
        by_cases hki : k = i
        · subst hki
          obtain rfl : g = g' := by rw [hgi] at hg'; injection hg'
          rcases hd with rfl | ⟨p', hp', rfl⟩
          · exact k2 _ d1
          · obtain rfl : p = p' := by rw [hp] at hp'; injection hp'
            exact d2
        · exact k2 _ (k1 _ (hprev k g' (by omega) hg' d hd))
      · refine ⟨m1, ?_, a1, ?_⟩
        · simp only [e1, okb]
          cases hk : g.kind with
          | proj p => exact absurd ⟨p, hk⟩ hp
          | _ => rfl
        · intro k g' hk hg' d hd
          by_cases hki : k = i
          · subst hki
            obtain rfl : g = g' := by rw [hgi] at hg'; injection hg'
            rcases hd with rfl | ⟨p', hp', rfl⟩
            · exact d1
            · exact absurd ⟨p', hp'⟩ hp
          · exact k1 _ (hprev k g' (by omega) hg' d hd))
  refine ⟨dl, h1, h2, ?_⟩
  rintro d ⟨g, hg, hd⟩
  obtain ⟨k, hk⟩ := List.getElem?_of_mem hg
  exact h3 k g (List.getElem?_eq_some_iff.mp hk).1 hk d hd

/-! The pieces around the gate loop. -/

theorem sliceR_ok {α} {l : List α} {a b : Nat} (h1 : a ≤ b) (h2 : b ≤ l.length) :
    sliceR l a b = .ok ((l.drop a).take (b - a)) := by simp [sliceR, h1, h2]

theorem gatesOK_mem {doms : List Nat} {gs : List Gate} (h : GatesOK doms gs) {g : Gate}
    (hg : g ∈ gs) : ∃ doms', GateOK doms' g := by
  induction gs generalizing doms with
  | nil => simp at hg
  | cons g' gs ih =>
    rcases List.mem_cons.mp hg with rfl | hg
    · exact ⟨_, h.1⟩
    · exact ih h.2 hg

theorem usesDomain_range {gs : List Gate} {g : Gate} (hg : g ∈ gs) {doms : List Nat}
    (hok : GateOK doms g) : usesDomain gs g.outputDomain := by
  refine ⟨g, hg, ?_⟩
  cases hk : g.kind with
  | add => left; simp [Gate.outputDomain, hk]
  | mul c => left; simp [Gate.outputDomain, hk]
  | proj p => right; exact ⟨p, rfl, by simp [Gate.outputDomain, hk]⟩
  | and =>
    left
    have := hok.arity; rw [hk] at this
    simp [Gate.outputDomain, hk, this.2]

/-- Everything about a run of `garble` on a well-typed circuit. -/
structure RunOK (E : Env) (c : Circuit) (run : GarbleRun) : Prop where
  start : run.outputsStartAt = c.numWires - c.numOutputs
  deltas : ∀ d, usesDomain c.gates d → DeltaOK run.delta d
  lab : LabInv (c.inputDomains ++ c.gates.map Gate.outputDomain) run.state.wires
  dec : DecInv E run.delta run.outputsStartAt (c.inputDomains ++ c.gates.map Gate.outputDomain)
    run.state.wires run.state.d
  enc : run.encWires.length = c.numInputs
  pre : ∀ i, i < c.numInputs → run.encWires[i]? = run.state.wires[i]?
  eval : ∀ ev vals, EvInv run.delta c.inputDomains run.encWires vals ev → ev.length = c.numWires →
    ∃ ev' j, c.gates.foldlM (evalStep E ⟨c, run.state.f, run.state.fHalf⟩) (ev, 0) = .ok (ev', j) ∧
      ev'.length = ev.length ∧
      EvInv run.delta (c.inputDomains ++ c.gates.map Gate.outputDomain) run.state.wires
        (wireValues c.gates vals) ev'

theorem garbleRun_ok (E : Env) (rnd : GarbleRand) {c : Circuit} (hc : WellTyped c) :
    ∃ run, garbleRun E rnd c = .ok run ∧ RunOK E c run := by
  have hgood : ∀ g ∈ c.gates, GoodDomain g.domain ∧ GoodDomain g.outputDomain := fun g hg => by
    obtain ⟨d, h⟩ := gatesOK_mem hc.gates hg; exact ⟨h.domain, h.range⟩
  obtain ⟨dl, hdl, hall, hdel⟩ := garbleDeltas_ok rnd c hgood
  obtain ⟨ws, hws, hf⟩ := mapM_exists (l := c.inputDomains.zipIdx)
    (f := fun p : Nat × Nat => Wire.new p.1 (rnd.input p.2)) (P := fun p w => IsLabel p.1 w) (by
      intro p hp
      have : p.1 ∈ c.inputDomains := by
        obtain ⟨a, b⟩ := p
        exact List.fst_mem_of_mem_zipIdx hp
      exact wireNew_ok (hc.inputGood _ this).1 _)
  have hlen : ws.length = c.inputDomains.length := by rw [← hf.length_eq]; simp
  have hlab : LabInv c.inputDomains ws := by
    refine ⟨hlen, fun i m hi => ?_⟩
    have hi' := (List.getElem?_eq_some_iff.mp hi).1
    have h1 : i < c.inputDomains.zipIdx.length := by simpa using hi'
    have h2 : i < ws.length := by omega
    have := List.Forall₂.get hf h1 h2
    simp only [List.get_eq_getElem, List.getElem_zipIdx] at this
    refine ⟨ws[i], List.getElem?_eq_getElem h2, ?_⟩
    rw [List.getElem?_eq_getElem hi'] at hi
    injection hi with hi
    rw [← hi]; exact this
  have hst : c.numOutputs ≤ c.numWires := by rw [hc.wires]; have := hc.outputs; omega
  have hdec : DecInv E dl (c.numWires - c.numOutputs) c.inputDomains ws [] := by
    have := hc.wires; have := hc.outputs; have := hc.inputs
    refine ⟨by simp; omega, fun i m h1 h2 => ?_⟩
    have := (List.getElem?_eq_some_iff.mp h2).1
    omega
  obtain ⟨s', h1, h2, h3, h4, h5, h6⟩ := gates_ok (E := E) (dl := dl)
    (start := c.numWires - c.numOutputs) c.gates c.inputDomains ⟨ws, [], [], [], 0⟩ hc.gates hlab
    hdec (fun g hg => ⟨hdel _ ⟨g, hg, .inl rfl⟩, by
      obtain ⟨d, h⟩ := gatesOK_mem hc.gates hg
      exact hdel _ (usesDomain_range hg h)⟩)
  have hsl : sliceR ws 0 c.numInputs = .ok ws := by
    rw [sliceR_ok (by omega) (by rw [hlen, hc.inputs])]
    simp [← hc.inputs, ← hlen]
  refine ⟨⟨s', dl, ws, c.numWires - c.numOutputs⟩, ?_, ⟨rfl, hdel, h2, h3, ?_, ?_, ?_⟩⟩
  · unfold garbleRun
    simp only [hdl, okb, hws, hsl, subR_ok E.dbg hst, h1, purek]
  · simp only; rw [hlen, hc.inputs]
  · intro i hi
    rw [h4 i (by rw [hc.inputs]; exact hi)]
  · intro ev vals hev hl
    have hw := hc.wires
    have hi := hc.inputs
    obtain ⟨ev', he, hl', hinv⟩ := h6 ⟨c, s'.f, s'.fHalf⟩ (fun k _ => ⟨rfl, rfl⟩) ev vals hev
      (by rw [hl, hw, hi])
    exact ⟨ev', _, he, hl', hinv⟩

theorem encode_ok {E : Env} {c : Circuit} {run : GarbleRun} (hc : WellTyped c)
    (h : RunOK E c run) {x : List Nat} (hx : InputOK c x) :
    ∃ X, EncodingKey.encode E.dbg ⟨run.encWires, run.delta⟩ x = .ok X ∧ X.length = c.numInputs ∧
      ∀ (i m : Nat), c.inputDomains[i]? = some m → ∃ z w v, run.encWires[i]? = some z ∧
        X[i]? = some w ∧ x[i]? = some v ∧ Carries run.delta m z v w := by
  have hxl : x.length = c.numInputs := by rw [← hc.inputs]; exact hx.length_eq
  have key : ∀ (i m : Nat), c.inputDomains[i]? = some m → ∃ z v w, run.encWires[i]? = some z ∧
      x[i]? = some v ∧ ((do Wire.add E.dbg z (← Wire.mul E.dbg (← HMap.getR run.delta z.dom) v)) : R Wire) = .ok w ∧
        Carries run.delta m z v w := by
    intro i m hm
    have hi : i < c.inputDomains.length := (List.getElem?_eq_some_iff.mp hm).1
    obtain ⟨z, hz, hlz⟩ := h.lab.lab i m (by rw [List.getElem?_append_left hi]; exact hm)
    rw [← h.pre i (by rw [← hc.inputs]; exact hi)] at hz
    have hxi : i < x.length := by rw [hxl, ← hc.inputs]; exact hi
    have hv := List.Forall₂.get hx hxi hi
    simp only [List.get_eq_getElem] at hv
    rw [List.getElem?_eq_getElem hi] at hm
    injection hm with hm
    rw [hm] at hv
    obtain ⟨hg, hu⟩ := hc.inputGood m (hm ▸ List.getElem_mem hi)
    obtain ⟨δ, hδ, hδi⟩ := h.deltas m hu
    obtain ⟨dx, w, e1, e2, hcar⟩ := carries_mk E.dbg hg hlz hδ hδi hv
    refine ⟨z, x[i], w, hz, List.getElem?_eq_getElem hxi, ?_, hcar⟩
    rw [IsLabel.domEq hg hlz.dom, HMap.getR_ok hδ]
    simp only [okb, e1, e2]
  obtain ⟨X, hX, hf⟩ := mapM_exists (l := run.encWires.zip x)
    (f := fun p : Wire × Nat => (do
      Wire.add E.dbg p.1 (← Wire.mul E.dbg (← HMap.getR run.delta p.1.dom) p.2)))
    (P := fun _ _ => True) (by
      intro p hp
      obtain ⟨i, hi⟩ := List.getElem?_of_mem hp
      have hi' := List.getElem?_zip_eq_some.mp hi
      have hlt : i < c.inputDomains.length := by
        rw [hc.inputs, ← hxl]; exact (List.getElem?_eq_some_iff.mp hi'.2).1
      obtain ⟨z, v, w, hz, hv, hw, _⟩ := key i _ (List.getElem?_eq_getElem hlt)
      rw [hz] at hi'; rw [hv] at hi'
      obtain ⟨h1, h2⟩ := hi'
      injection h1 with h1; injection h2 with h2
      exact ⟨w, by rw [← h1, ← h2]; exact hw, trivial⟩)
  refine ⟨X, ?_, ?_, ?_⟩
  · unfold EncodingKey.encode
    rw [debugAssertR_ok (by simp [h.enc, hxl])]
    exact hX
  · rw [mapM_length hX]; simp [h.enc, hxl]
  · intro i m hm
    obtain ⟨z, v, w, hz, hv, hw, hcar⟩ := key i m hm
    obtain ⟨b, hb, hfb⟩ := mapM_getElem? hX i (z, v) (List.getElem?_zip_eq_some.mpr ⟨hz, hv⟩)
    simp only at hfb
    rw [hw] at hfb
    injection hfb with hfb
    exact ⟨z, w, v, hz, hfb ▸ hb, hv, hcar⟩

theorem wireValues_length (gs : List Gate) (vals : List Nat) :
    (wireValues gs vals).length = vals.length + gs.length := by
  induction gs generalizing vals with
  | nil => rfl
  | cons g gs ih =>
    have : wireValues (g :: gs) vals =
      wireValues gs (vals ++ [gateValue g (g.inputs.map (vals.getD · 0))]) := rfl
    rw [this, ih]; simp; omega

theorem evaluate_ok {E : Env} {c : Circuit} {run : GarbleRun} (hc : WellTyped c)
    (h : RunOK E c run) {x : List Nat} (hx : InputOK c x) {X : List Wire}
    (hXl : X.length = c.numInputs)
    (hX : ∀ (i m : Nat), c.inputDomains[i]? = some m → ∃ z w v, run.encWires[i]? = some z ∧
        X[i]? = some w ∧ x[i]? = some v ∧ Carries run.delta m z v w) :
    ∃ Z, evaluate E ⟨c, run.state.f, run.state.fHalf⟩ X = .ok Z ∧ Z.length = c.numOutputs ∧
      ∀ i, i < c.numOutputs → ∃ m z w v,
        (c.inputDomains ++ c.gates.map Gate.outputDomain)[run.outputsStartAt + i]? = some m ∧
        run.state.wires[run.outputsStartAt + i]? = some z ∧ Z[i]? = some w ∧
        (meaning c x)[i]? = some v ∧ Carries run.delta m z v w := by
  have hxl : x.length = c.numInputs := by rw [← hc.inputs]; exact hx.length_eq
  have hw := hc.wires
  have ho := hc.outputs
  have hi := hc.inputs
  -- the input copy loop
  obtain ⟨ev0, hev0, hl0, hin0⟩ := foldlM_inv (l := List.range c.numInputs)
    (f := fun (w : List (Option Wire)) i => ((do setR w i (some (← idxR X i))) : R _))
    (s := List.replicate c.numWires none)
    (fun k ev => ev.length = c.numWires ∧ ∀ i, i < k → ∃ w, X[i]? = some w ∧ ev[i]? = some (some w))
    ⟨by simp, by intro i hi; omega⟩ (by
      intro k a ev hk ⟨hl, hin⟩
      have hkd : k < c.numInputs := by
        have := (List.getElem?_eq_some_iff.mp hk).1; simpa using this
      obtain rfl : k = a := by rw [List.getElem?_range hkd] at hk; injection hk
      have hkX : k < X.length := by omega
      have hkl : k < ev.length := by omega
      refine ⟨ev.set k (some X[k]), ?_, by simp [hl], ?_⟩
      · simp only [idxR_ok (List.getElem?_eq_getElem hkX), okb, setR_ok _ hkl]
      · intro i hik
        by_cases hik' : i = k
        · subst hik'
          exact ⟨X[i], List.getElem?_eq_getElem hkX, by simp [hkl]⟩
        · obtain ⟨w, h1, h2⟩ := hin i (by omega)
          exact ⟨w, h1, by rw [List.getElem?_set_ne (by omega)]; exact h2⟩)
  have hevinv : EvInv run.delta c.inputDomains run.encWires x ev0 := by
    refine ⟨by rw [hxl, hi], fun i m hm => ?_⟩
    obtain ⟨z, w, v, h1, h2, h3, h4⟩ := hX i m hm
    have hlt := (List.getElem?_eq_some_iff.mp hm).1
    obtain ⟨w', h5, h6⟩ := hin0 i (by simpa [← hi] using hlt)
    obtain rfl : w = w' := by rw [h2] at h5; injection h5
    exact ⟨z, w, v, h1, h6, h3, h4⟩
  obtain ⟨ev', j, hfold, hl', hinv⟩ := h.eval ev0 x hevinv hl0
  have hdl : (c.inputDomains ++ c.gates.map Gate.outputDomain).length = c.numWires := by
    simp; omega
  -- reading the outputs
  have hread : ∀ i, i < c.numOutputs → ∃ m z w v,
      (c.inputDomains ++ c.gates.map Gate.outputDomain)[run.outputsStartAt + i]? = some m ∧
      run.state.wires[run.outputsStartAt + i]? = some z ∧
      ev'[run.outputsStartAt + i]? = some (some w) ∧
      (meaning c x)[i]? = some v ∧ Carries run.delta m z v w := by
    intro i hi
    have hlt : run.outputsStartAt + i <
        (c.inputDomains ++ c.gates.map Gate.outputDomain).length := by
      rw [hdl, h.start]; omega
    obtain ⟨z, w, v, h1, h2, h3, h4⟩ := hinv.car _ _ (List.getElem?_eq_getElem hlt)
    refine ⟨_, z, w, v, List.getElem?_eq_getElem hlt, h1, h2, ?_, h4⟩
    rw [meaning, List.getElem?_drop, ← h.start]; exact h3
  have hev'len : ev'.length = c.numWires := by rw [hl', hl0]
  obtain ⟨Z, hZ, _⟩ := mapM_exists
    (l := (ev'.drop (c.numWires - c.numOutputs)).take (c.numWires - (c.numWires - c.numOutputs)))
    (f := fun w => match w with
      | some w => pure w
      | none => (ubR : R Wire)) (P := fun _ _ => True) (by
        intro a ha
        obtain ⟨i, hi⟩ := List.getElem?_of_mem (List.mem_of_mem_take ha)
        rw [List.getElem?_drop] at hi
        have := (List.getElem?_eq_some_iff.mp hi).1
        obtain ⟨m, z, w, v, _, _, h3, _⟩ := hread i (by omega)
        rw [h.start, hi] at h3
        injection h3 with h3
        subst h3
        exact ⟨w, rfl, trivial⟩)
  refine ⟨Z, ?_, ?_, ?_⟩
  · unfold evaluate
    have he : evalStep E ⟨c, run.state.f, run.state.fHalf⟩ = fun s g => (do
      let (w, j) ← evalGate E ⟨c, run.state.f, run.state.fHalf⟩ s.1 s.2 g
      return (← setR s.1 g.output (some w), j)) := rfl
    rw [he] at hfold
    simp only [debugAssertR_ok (dbg := E.dbg) (b := decide (X.length = c.numInputs)) (by simp [hXl]),
      okb, hev0, hfold, subR_ok E.dbg (show c.numOutputs ≤ c.numWires by omega),
      sliceR_ok (show c.numWires - c.numOutputs ≤ c.numWires by omega) (show c.numWires ≤ ev'.length by omega)]
    exact hZ
  · rw [mapM_length hZ]; simp; omega
  · intro i hi
    obtain ⟨m, z, w, v, h1, h2, h3, h4, h5⟩ := hread i hi
    refine ⟨m, z, w, v, h1, h2, ?_, h4, h5⟩
    obtain ⟨b, hb, hfb⟩ := mapM_getElem? hZ i (some w) (by
      rw [List.getElem?_take, if_pos (by omega), List.getElem?_drop, ← h.start]; exact h3)
    simp only [purek] at hfb
    injection hfb with hfb
    exact hfb ▸ hb

theorem Carries.labelOf {dl : HMap Nat Wire} {m v : Nat} {z w δ : Wire} (h : Carries dl m z v w)
    (hδ : List.lookup m dl = some δ) : IsLabelOf m z δ v w := by
  refine ⟨h.lab, fun i => ?_⟩
  have := h.eq δ hδ i
  unfold zd at this
  have h2 : ((digit w i : ℕ) : ZMod m) = ((digit z i + v * digit δ i : ℕ) : ZMod m) := by
    rw [this]; push_cast; ring
  rw [ZMod.natCast_eq_natCast_iff'] at h2
  rwa [Nat.mod_eq_of_lt (h.lab.lt i)] at h2

/-- Distinct values have distinct labels. -/
theorem carries_inj {dl : HMap Nat Wire} {m v v' : Nat} {z w δ : Wire}
    (hδi : IsDelta m δ) (hδ : List.lookup m dl = some δ) (h : Carries dl m z v w)
    (h' : Carries dl m z v' w) : v = v' := by
  have e1 := h.eq δ hδ (colorPos δ.domain)
  have e2 := h'.eq δ hδ (colorPos δ.domain)
  rw [e1] at e2
  have h1 : zd m δ (colorPos δ.domain) = 1 := by unfold zd; rw [hδi.one]; simp
  rw [h1] at e2
  have e3 : (v : ZMod m) = v' := by
    have := add_left_cancel e2; simpa using this
  rw [ZMod.natCast_eq_natCast_iff'] at e3
  rwa [Nat.mod_eq_of_lt h.vlt, Nat.mod_eq_of_lt h'.vlt] at e3

theorem decodeSearch_ok {E : Env} {o m v : Nat} {W : Wire} {hs : List WireBytes}
    (hlen : hs.length = m) (hv : v < m) (hmatch : hs[v]? = some (hashOut E o v W))
    (hne : ∀ k, k < v → ∀ h, hs[k]? = some h → hashOut E o k W ≠ h) (n : Nat) (hn : n ≤ v) :
    decodeSearch E o W hs (List.range' n (m - n)) = .ok (some v) := by
  obtain ⟨k, rfl⟩ : ∃ k, n = v - k := ⟨v - n, by omega⟩
  induction k with
  | zero =>
    have : m - (v - 0) = (m - v - 1) + 1 := by omega
    rw [this, List.range'_succ, decodeSearch, Nat.sub_zero, idxR_ok hmatch, okb]
    simp [purek]
  | succ k ih =>
    by_cases hk : k < v
    · have h1 : m - (v - (k + 1)) = (m - (v - k)) + 1 := by omega
      have h2 : v - (k + 1) + 1 = v - k := by omega
      have hlt : v - (k + 1) < hs.length := by omega
      rw [h1, List.range'_succ, decodeSearch, idxR_ok (List.getElem?_eq_getElem hlt), okb, h2,
        if_neg (hne _ (by omega) _ (List.getElem?_eq_getElem hlt))]
      exact ih (by omega)
    · have : v - (k + 1) = v - k := by omega
      rw [this]; exact ih (by omega)

end FP
