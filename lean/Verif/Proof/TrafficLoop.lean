import Verif.Proof.TrafficGarble
/-
Sizes of garbled circuits: no row of a table stays empty.
-/
namespace FP
open Spec

attribute [local irreducible] Spec.modulus

/-- Every wire has the domain of the circuit. -/
structure DomInv (doms : List Nat) (wires : List Wire) : Prop where
  len : wires.length = doms.length
  dom : ∀ (i d : Nat), doms[i]? = some d → ∃ w, wires[i]? = some w ∧ Domain.new d = .ok w.domain

theorem DomInv.snoc {doms : List Nat} {wires : List Wire} (h : DomInv doms wires) {d : Nat} {w : Wire}
    (hw : Domain.new d = .ok w.domain) : DomInv (doms ++ [d]) (wires ++ [w]) := by
  refine ⟨by simp [h.len], fun i e hi => ?_⟩
  rcases Nat.lt_or_ge i doms.length with hlt | hge
  · rw [List.getElem?_append_left hlt] at hi
    obtain ⟨w', h1, h2⟩ := h.dom i e hi
    exact ⟨w', by rw [List.getElem?_append_left (by rw [h.len]; exact hlt)]; exact h1, h2⟩
  · rw [List.getElem?_append_right hge] at hi
    have hi0 : i - doms.length = 0 := by
      have := (List.getElem?_eq_some_iff.mp hi).1
      simp only [List.length_singleton] at this
      omega
    rw [hi0] at hi
    refine ⟨w, ?_, ?_⟩
    · rw [List.getElem?_append_right (by rw [h.len]; exact hge), h.len, hi0]; rfl
    · rw [← Option.some.inj hi]; exact hw

theorem DomInv.read {doms : List Nat} {wires : List Wire} (h : DomInv doms wires) {i d : Nat} (hi : doms[i]? = some d) :
    Post (fun w => Domain.new d = .ok w.domain) (idxR wires i) := by
  obtain ⟨w, h1, h2⟩ := h.dom i d hi
  unfold idxR
  rw [h1]
  exact .ok h2

theorem garbleGate_dom (E : Env) {delta : HMap Nat Wire} (hd : DeltaDom delta) {doms : List Nat} {s : GarbleState} {g : Gate}
    (hs : DomInv doms s.wires) (hg : GateFits SmallPos doms g) :
    Post (fun s' => DomInv (doms ++ [g.outputDomain]) s'.wires) (garbleGate E delta s g) := by
  have har := hg.arity
  unfold garbleGate
  cases hk : g.kind with
  | add =>
    rw [hk] at har
    simp only at har ⊢
    have ho : g.outputDomain = g.domain := by unfold Gate.outputDomain; rw [hk]
    rw [ho]
    obtain ⟨i, is, hi⟩ := List.exists_cons_of_ne_nil har
    have h0 := hg.inputs i (by rw [hi]; simp)
    rw [hi, List.mapM_cons]
    refine Post.bind (P := fun ws => ∃ w ws', ws = w :: ws' ∧ Domain.new g.domain = .ok w.domain) ?_ ?_
    · exact (hs.read h0).bind fun w hw => (Post.any _).bind fun ws _ => .ok ⟨w, ws, rfl, hw⟩
    · rintro _ ⟨w, ws, rfl, hw⟩
      exact (sum_post ..).bind fun c hc => .ok (hs.snoc (by rw [hc]; exact hw))
  | mul c =>
    rw [hk] at har
    simp only at har ⊢
    have ho : g.outputDomain = g.domain := by unfold Gate.outputDomain; rw [hk]
    rw [ho]
    refine (idxR_post _ _).bind fun i hi => (hs.read (hg.inputs i hi)).bind fun w hw => (mul_post ..).bind fun c hc => .ok ?_
    exact hs.snoc (by rw [hc]; exact hw)
  | proj p =>
    have ho : g.outputDomain = p.dom := by unfold Gate.outputDomain; rw [hk]
    rw [ho]
    refine Post.bind (P := fun r => Domain.new p.dom = .ok r.1.domain) ?_ fun r hr => .ok (hs.snoc hr)
    unfold garbleProj
    refine (Post.any _).bind fun i _ => (Post.any _).bind fun win _ => ?_
    dsimp only
    refine (Post.any _).bind fun dm _ => (getR_post _ _).bind fun dn hdn => ?_
    refine (Post.any _).bind fun m1 _ => (Post.any _).bind fun m2 _ => (hashWire_post ..).bind fun hw hhw => ?_
    refine (Post.any _).bind fun m3 _ => (Post.any _).bind fun m4 _ => (Post.any _).bind fun m5 _ => ?_
    refine (add_post ..).bind fun w1 hw1 => (neg_post ..).bind fun w hw => (Post.any _).bind fun t _ => .ok ?_
    rw [hw, hw1, hhw]
    exact hd _ _ hdn
  | and =>
    rw [hk] at har
    have ho : g.outputDomain = 2 := by unfold Gate.outputDomain; rw [hk]
    rw [ho]
    exact (garbleAnd_dom ..).bind fun r hr => .ok (hs.snoc (by rw [hr.1]; rfl))

theorem garbleLoop_dom (E : Env) {delta : HMap Nat Wire} (hd : DeltaDom delta) (o : Nat) (gs : List Gate) :
    ∀ (doms : List Nat) (s : GarbleState), GatesFit SmallPos doms gs → DomInv doms s.wires →
      Post (fun s' => DomInv (doms ++ gs.map Gate.outputDomain) s'.wires)
        (gs.foldlM (fun s g => do garbleDecoding E delta o (← garbleGate E delta s g) g) s) := by
  induction gs with
  | nil => intro doms s _ h; rw [List.map_nil, List.append_nil]; exact .ok h
  | cons g gs ih =>
    intro doms s hg hs
    rw [List.foldlM_cons]
    refine Post.bind (P := fun s' => DomInv (doms ++ [g.outputDomain]) s'.wires) ?_ fun s' hs' => ?_
    · exact (garbleGate_dom E hd hs hg.1).bind fun s1 h1 => (garbleDecoding_tab ..).mono fun s2 h2 => by rw [h2.1]; exact h1
    · exact (ih _ s' hg.2 hs').mono fun s2 h2 => by simpa using h2

theorem gatesFit_split {good : Nat → Prop} {doms : List Nat} {done rest : List Gate} (h : GatesFit good doms (done ++ rest)) :
    GatesFit good doms done ∧ GatesFit good (doms ++ done.map Gate.outputDomain) rest := by
  induction done generalizing doms with
  | nil => exact ⟨trivial, by simpa using h⟩
  | cons g done ih =>
    obtain ⟨h1, h2⟩ := h
    obtain ⟨h3, h4⟩ := ih h2
    exact ⟨⟨h1, h3⟩, by simpa using h4⟩

theorem gatesFit_outs {good : Nat → Prop} {gs : List Gate} : ∀ {doms : List Nat}, GatesFit good doms gs →
    gs.map (·.output) = List.range' doms.length gs.length := by
  induction gs with
  | nil => intros; rfl
  | cons g gs ih =>
    intro doms h
    rw [List.map_cons, h.1.output, ih h.2, List.length_cons, List.range'_succ]
    simp

theorem inputs_dom (rnd : Nat → WireBytes) (doms : List Nat) :
    Post (DomInv doms) (doms.zipIdx.mapM fun p => Wire.new p.1 (rnd p.2)) := by
  have key : ∀ (l : List (Nat × Nat)), Post (fun ws : List Wire => DomInv (l.map Prod.fst) ws) (l.mapM fun p => Wire.new p.1 (rnd p.2)) := by
    intro l
    induction l with
    | nil => exact .ok ⟨rfl, fun i d h => by simp at h⟩
    | cons p l ih =>
      rw [List.mapM_cons]
      refine (new_post p.1 _).bind fun w hw => ih.bind fun ws hws => .ok ⟨by simp [hws.len], fun i d hi => ?_⟩
      cases i with
      | zero => exact ⟨w, rfl, by rw [← Option.some.inj hi]; exact hw⟩
      | succ i => exact hws.dom i d hi
  exact (key doms.zipIdx).mono fun ws h => by simpa using h

theorem binary_of_new {D : Domain} (h : Domain.new 2 = .ok D) : D = .binary := (Except.ok.inj h).symm

theorem color_binary {w : Wire} (h : w.domain = .binary) : w.color < 2 := by
  unfold Wire.color
  rw [h]
  simp only [BitVec.toNat_and]
  exact Nat.lt_of_le_of_lt Nat.and_le_right (by decide)

theorem inputs_lab {rnd : Nat → WireBytes} {c : Circuit} (hc : WellTyped c) :
    Post (LabInv c.inputDomains) (c.inputDomains.zipIdx.mapM fun p => Wire.new p.1 (rnd p.2)) := by
  obtain ⟨ws, hws, hf⟩ := mapM_exists (l := c.inputDomains.zipIdx)
    (f := fun p : Nat × Nat => Wire.new p.1 (rnd p.2)) (P := fun p w => IsLabel p.1 w) (by
      intro p hp
      have : p.1 ∈ c.inputDomains := by
        obtain ⟨a, b⟩ := p
        exact List.fst_mem_of_mem_zipIdx hp
      exact wireNew_ok (hc.inputGood _ this).1 _)
  have hlen : ws.length = c.inputDomains.length := by rw [← hf.length_eq]; simp
  rw [hws]
  refine .ok ⟨hlen, fun i m hi => ?_⟩
  have hi' := (List.getElem?_eq_some_iff.mp hi).1
  have h1 : i < c.inputDomains.zipIdx.length := by simpa using hi'
  have h2 : i < ws.length := by omega
  have := List.Forall₂.get hf h1 h2
  simp only [List.get_eq_getElem, List.getElem_zipIdx] at this
  refine ⟨ws[i], List.getElem?_eq_getElem h2, ?_⟩
  rw [List.getElem?_eq_getElem hi'] at hi
  injection hi with hi
  rw [← hi]; exact this

/-- The tables of a garbled circuit. -/
theorem garbleRun_tab (E : Env) (rnd : GarbleRand) {c : Circuit}
    (hc : WellFormed SmallPos c ∧ BitProjections c ∨ WellTyped c) :
    Post (fun r => TabInv c.gates r.state) (garbleRun E rnd c) := by
  rcases hc with ⟨hc, hb⟩ | hc
  · unfold garbleRun
    refine (garbleDeltas_dom rnd c).bind fun delta hd => (inputs_dom _ _).bind fun wires hw => (Post.any _).bind fun _ _ =>
      (Post.any _).bind fun o _ => (garbleLoop_tab E hd o wires c.gates ?_).bind fun s hs => .ok hs
    intro done g rest s e hrun p hk
    have hf := gatesFit_split (e ▸ hc.gates)
    have hdom := (garbleLoop_dom E hd o done _ ⟨wires, [], [], [], 0⟩ hf.1 hw).out s hrun
    have hg := hf.2.1
    have h0 : p.dom ≠ 0 := by
      have := hg.range.1
      unfold Gate.outputDomain at this
      rw [hk] at this
      exact Nat.pos_iff_ne_zero.mp this
    refine ⟨h0, ?_⟩
    rcases hb g (by rw [e]; simp) p hk with h2 | h2
    · right
      refine ⟨by omega, fun i hi w hwi => ?_⟩
      obtain ⟨w', h1, h3⟩ := hdom.dom i _ (hg.inputs i (List.mem_of_mem_head? hi))
      rw [hwi] at h1
      rw [← Option.some.inj h1, h2] at h3
      rw [h2]
      exact color_binary (binary_of_new h3)
    · exact .inl h2
  · have hgood : ∀ g ∈ c.gates, GoodDomain g.domain ∧ GoodDomain g.outputDomain := fun g hg => by
      obtain ⟨d, h⟩ := gatesOK_mem hc.gates hg; exact ⟨h.domain, h.range⟩
    obtain ⟨dl, hdl, hall, hdel⟩ := garbleDeltas_ok rnd c hgood
    have hd : DeltaDom dl := (garbleDeltas_dom rnd c).out dl hdl
    unfold garbleRun
    rw [hdl, okb]
    refine (inputs_lab hc).bind fun ws hlab => (Post.any _).bind fun _ _ => ?_
    have hst : c.numOutputs ≤ c.numWires := by rw [hc.wires]; have := hc.outputs; omega
    have hdec : DecInv E dl (c.numWires - c.numOutputs) c.inputDomains ws [] := by
      have := hc.wires; have := hc.outputs; have := hc.inputs
      refine ⟨by simp; omega, fun i m h1 h2 => ?_⟩
      have := (List.getElem?_eq_some_iff.mp h2).1
      omega
    rw [subR_ok E.dbg hst, okb]
    refine (garbleLoop_tab E hd _ ws c.gates ?_).bind fun s hs => .ok hs
    intro done g rest s e hrun p hk
    have hf := gatesFit_split (e ▸ hc.gates)
    have hmem : ∀ g ∈ done, g ∈ c.gates := fun g hg => by rw [e]; simp [hg]
    obtain ⟨s', h1, h2, -⟩ := gates_ok (E := E) (dl := dl) (start := c.numWires - c.numOutputs) done c.inputDomains
      ⟨ws, [], [], [], 0⟩ hf.1 hlab hdec (fun g hg => ⟨hdel _ ⟨g, hmem g hg, .inl rfl⟩, by
        obtain ⟨d, h⟩ := gatesOK_mem hc.gates (hmem g hg)
        exact hdel _ (usesDomain_range (hmem g hg) h)⟩)
    rw [hrun] at h1
    cases Except.ok.inj h1
    have hg := hf.2.1
    have hr := good_small hg.range
    have hd' := hg.domain
    refine ⟨?_, .inr ⟨?_, fun i hi w hwi => ?_⟩⟩
    · have := hr.1
      unfold Gate.outputDomain at this
      rw [hk] at this
      exact Nat.pos_iff_ne_zero.mp this
    · unfold GoodDomain at hd'; omega
    · obtain ⟨z, hz, hl⟩ := h2.lab i _ (hg.inputs i (List.mem_of_mem_head? hi))
      rw [hwi] at hz
      cases Option.some.inj hz
      rw [color_eq]
      exact hl.lt _

end FP
