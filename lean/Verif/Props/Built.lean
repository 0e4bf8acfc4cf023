import Verif.Proof.Built
import Verif.Proof.Tables
import Verif.Props.Builder
/-
C94: what circuits made with the builder compute.
-/
namespace FP.Props
open FP.Spec

/-- C94: if the gates fit together, every input is read exactly once, and in order unless all inputs have the same
domain, then the builder finds the domains of the inputs. -/
theorem C94_input_domains (dbg : Bool) (n : Nat) (h : List BuilderCall) (hr : ∀ c ∈ h, c.InRange)
    (b : CircuitBuilder) (hb : builderAfter dbg n h = .ok b) (doms : List Nat) (hn : doms.length = n)
    (good : Nat → Prop) (hfit : GatesFit good doms b.build.gates) (hperm : (inputReads n b.build.gates).Perm (List.range n))
    (hord : inputReads n b.build.gates = List.range n ∨ ∃ m, ∀ d ∈ doms, d = m) :
    b.build.inputDomains = doms := by
  obtain ⟨h1, -, -, -, -, -⟩ := builder_inv dbg n h hr b hb
  subst hn
  have hall : ∀ i ∈ inputReads doms.length b.build.gates, i < doms.length := fun i hi =>
    List.mem_range.mp (hperm.mem_iff.mp hi)
  have := inputDomains_reads hfit hall
  show ((b.gates.filter fun g => g.inputs.any (· < b.numInputs)).flatMap fun g => g.inputs.map fun _ => g.domain) = doms
  rw [h1]
  refine this.trans ?_
  rcases hord with ho | ⟨m, hm⟩
  · rw [ho, map_getD_range]
  · have hl : (inputReads doms.length b.build.gates).length = doms.length := by rw [hperm.length_eq, List.length_range]
    refine Eq.trans (b := List.replicate doms.length m) ?_ (List.eq_replicate_of_mem hm).symm
    refine List.eq_replicate_iff.mpr ⟨by simp [hl], fun d hd => ?_⟩
    obtain ⟨i, hi, rfl⟩ := List.mem_map.mp hd
    have := hall i hi
    refine hm _ ?_
    rw [List.getD_eq_getElem?_getD, List.getElem?_eq_getElem this, Option.getD_some]
    exact List.getElem_mem _

/-- C94: exactly when the built circuit is one that garbling supports, if the gates fit together and every input is read:
the gates that read an input read each input exactly once and nothing else, and the domains in the order of reading are
those of the inputs. -/
theorem C94_wellFormed_iff (dbg : Bool) (n : Nat) (h : List BuilderCall) (hr : ∀ c ∈ h, c.InRange)
    (b : CircuitBuilder) (hb : builderAfter dbg n h = .ok b) (doms : List Nat) (hn : doms.length = n)
    (good : Nat → Prop) (hfit : GatesFit good doms b.build.gates) (hread : ∀ i < n, ∃ g ∈ b.build.gates, i ∈ g.inputs) :
    WellFormed good b.build ↔ (inputReads n b.build.gates).Perm (List.range n) ∧
      (inputReads n b.build.gates).map (doms.getD · 0) = doms := by
  obtain ⟨-, hw, ho, hi, -⟩ := C13_builder dbg n h hr b hb
  subst hn
  have hlen : b.build.inputDomains.length = (inputReads doms.length b.build.gates).length := by
    show ((b.gates.filter fun g => g.inputs.any (· < b.numInputs)).flatMap fun g => g.inputs.map fun _ => g.domain).length = _
    rw [show b.numInputs = doms.length from hi, inputReads, List.length_flatMap, List.length_flatMap]
    simp only [List.length_map]
    rfl
  have hdoms : (∀ i ∈ inputReads doms.length b.build.gates, i < doms.length) →
      b.build.inputDomains = (inputReads doms.length b.build.gates).map (doms.getD · 0) := fun hall => by
    show ((b.gates.filter fun g => g.inputs.any (· < b.numInputs)).flatMap fun g => g.inputs.map fun _ => g.domain) = _
    rw [show b.numInputs = doms.length from hi]
    exact inputDomains_reads hfit hall
  constructor
  · intro hwf
    have hl : (inputReads doms.length b.build.gates).length = doms.length := by rw [← hlen, hwf.inputs, hi]
    have hsub : List.range doms.length ⊆ inputReads doms.length b.build.gates := fun i hlt => by
      have hlt := List.mem_range.mp hlt
      obtain ⟨g, hg, hgi⟩ := hread i hlt
      exact List.mem_flatMap.mpr ⟨g, List.mem_filter.mpr ⟨hg, List.any_eq_true.mpr ⟨i, hgi, by simpa using hlt⟩⟩, hgi⟩
    have hperm : (inputReads doms.length b.build.gates).Perm (List.range doms.length) :=
      ((List.subperm_of_subset List.nodup_range hsub).perm_of_length_le (by rw [hl, List.length_range])).symm
    have hall : ∀ i ∈ inputReads doms.length b.build.gates, i < doms.length := fun i hi =>
      List.mem_range.mp (hperm.mem_iff.mp hi)
    refine ⟨hperm, ?_⟩
    rw [← hdoms hall]
    refine List.ext_getElem? fun i => ?_
    by_cases hlt : i < doms.length
    · obtain ⟨g, hg, hgi⟩ := hread i hlt
      rw [gatesFit_reads hfit g hg i hgi hlt, gatesFit_reads hwf.gates g hg i hgi (by rw [hlen, hl]; exact hlt)]
    · rw [List.getElem?_eq_none (by omega), List.getElem?_eq_none (by omega)]
  · rintro ⟨hperm, hmap⟩
    have hdom : b.build.inputDomains = doms := by
      rw [hdoms fun i hi => List.mem_range.mp (hperm.mem_iff.mp hi), hmap]
    refine ⟨by rw [hdom, hi], ?_, by rw [hdom]; exact hfit, by rw [hw, mentioned_all hfit hread, hi],
      by rw [ho]; exact unread_card_le hfit⟩
    rw [hdom]
    intro d hd
    obtain ⟨i, hi', rfl⟩ := List.mem_iff_getElem.mp hd
    obtain ⟨g, hg, hgi⟩ := hread i hi'
    have hgd := gatesFit_reads hfit g hg i hgi hi'
    rw [List.getElem?_eq_getElem hi'] at hgd
    obtain ⟨ds, hok⟩ := gatesFit_mem hfit hg
    rw [Option.some.inj hgd]
    exact ⟨hok.domain, g, hg, .inl rfl⟩

example := C94_wellFormed_iff true 2 [.addGate ⟨2, 2, [1, 0], .add⟩] (by decide) _ rfl [2, 2] rfl GoodDomain
  ⟨⟨rfl, by decide, by decide, by decide, by simp⟩, trivial⟩ (by decide)

/-- The property C94 at full strength: whatever gates that fit together are given to the builder, garbling the circuit,
evaluating it and decoding the result gives the values of the wires that nobody reads, in order. -/
def C94_builder_computes : Prop :=
  ∀ (E : Env) (rnd : GarbleRand) (n : Nat) (h : List BuilderCall) (b : CircuitBuilder) (doms x : List Nat),
    (∀ c ∈ h, c.InRange) → builderAfter E.dbg n h = .ok b → doms.length = n → GatesFit GoodDomain doms b.build.gates →
    (∀ i < n, ∃ g ∈ b.build.gates, i ∈ g.inputs) → List.Forall₂ (· < ·) x doms →
    ∃ gc e d X Z, garble E rnd b.build = .ok (gc, e, d) ∧ e.encode E.dbg x = .ok X ∧ evaluate E gc X = .ok Z ∧
      ((∀ run, garbleRun E rnd b.build = .ok run → NoCollision E run) →
        ∃ y, d.decode E Z = .ok y ∧ y.length = (unreadWires b.build.gates).ncard ∧
          ∃ ws : List Nat, ws.Pairwise (· < ·) ∧ (∀ w, w ∈ ws ↔ w ∈ unreadWires b.build.gates) ∧
            y = ws.map ((wireValues b.build.gates x).getD · 0))

/-- C94, what holds: as `C94_builder_computes`, if in addition every input is read exactly once, in an order that does not
change the list of domains, and the wires that nobody reads come last.  Missing: the builder neither requires nor
establishes these two conditions, and without them the claim fails (`C94_fails_half_adder`, `C94_fails_outputs`). -/
theorem C94_builder_computes_partial (E : Env) (rnd : GarbleRand) (n : Nat) (h : List BuilderCall) (b : CircuitBuilder)
    (doms x : List Nat) (hr : ∀ c ∈ h, c.InRange) (hb : builderAfter E.dbg n h = .ok b) (hn : doms.length = n)
    (hfit : GatesFit GoodDomain doms b.build.gates) (hx : List.Forall₂ (· < ·) x doms)
    (hperm : (inputReads n b.build.gates).Perm (List.range n))
    (hord : (inputReads n b.build.gates).map (doms.getD · 0) = doms)
    (hlast : UnreadLast (n + b.build.gates.length) b.build.gates) :
    WellTyped b.build ∧ ∃ gc e d X Z, garble E rnd b.build = .ok (gc, e, d) ∧ e.encode E.dbg x = .ok X ∧ evaluate E gc X = .ok Z ∧
      ((∀ run, garbleRun E rnd b.build = .ok run → NoCollision E run) →
        ∃ y, d.decode E Z = .ok y ∧ y.length = (unreadWires b.build.gates).ncard ∧
          ∃ ws : List Nat, ws.Pairwise (· < ·) ∧ (∀ w, w ∈ ws ↔ w ∈ unreadWires b.build.gates) ∧
            y = ws.map ((wireValues b.build.gates x).getD · 0)) := by
  obtain ⟨-, hw, ho, hi, -⟩ := C13_builder E.dbg n h hr b hb
  have hread : ∀ i < n, ∃ g ∈ b.build.gates, i ∈ g.inputs := fun i hlt => by
    have : i ∈ inputReads n b.build.gates := hperm.mem_iff.mpr (List.mem_range.mpr hlt)
    obtain ⟨g, hg, hi⟩ := List.mem_flatMap.mp this
    exact ⟨g, List.mem_of_mem_filter hg, hi⟩
  have hwt : WellTyped b.build :=
    (C94_wellFormed_iff E.dbg n h hr b hb doms hn GoodDomain hfit hread).mpr ⟨hperm, hord⟩
  have hdom : b.build.inputDomains = doms := by
    refine List.ext_getElem? fun i => ?_
    by_cases hlt : i < n
    · obtain ⟨g, hg, hgi⟩ := hread i hlt
      rw [gatesFit_reads hfit g hg i hgi (by omega), gatesFit_reads hwt.gates g hg i hgi (by rw [hwt.inputs, hi]; exact hlt)]
    · rw [List.getElem?_eq_none (show b.build.inputDomains.length ≤ i by rw [hwt.inputs, hi]; omega),
        List.getElem?_eq_none (by omega)]
  refine ⟨hwt, ?_⟩
  obtain ⟨gc, e, d, X, Z, h1, h2, h3, h4⟩ := C01_garble_correct E rnd b.build x hwt (by rw [InputOK, hdom]; exact hx)
  refine ⟨gc, e, d, X, Z, h1, h2, h3, fun hnc => ⟨_, h4 hnc, ?_⟩⟩
  have hxl : x.length = n := by rw [← hn]; exact hx.length_eq
  have hN : b.build.numWires = n + b.build.gates.length := by rw [hwt.wires, hi]
  have hle := hwt.outputs
  have hmem := upper_set (N := n + b.build.gates.length) (s := unreadWires b.build.gates)
    (fun w hw => by have := gatesFit_mentioned_lt hfit w (unread_mentioned hw); omega) hlast
  have hlen : (wireValues b.build.gates x).length = n + b.build.gates.length := by rw [wireValues_length, hxl]
  refine ⟨by rw [meaning, List.length_drop, hlen, hN, ← ho]; omega,
    List.range' (n + b.build.gates.length - b.build.numOutputs) b.build.numOutputs, List.pairwise_lt_range', fun w => ?_, ?_⟩
  · rw [hmem, ← ho, List.mem_range'_1]; omega
  · rw [meaning, hN]
    apply List.ext_getElem
    · simp [hlen]; omega
    · intro i h1 h2
      simp only [List.length_map, List.length_range'] at h2
      simp only [List.getElem_drop, List.getElem_map, List.getElem_range', Nat.one_mul]
      rw [List.getD_eq_getElem?_getD, List.getElem?_eq_getElem (by omega), Option.getD_some]

/-- C94: the builder, given the gates of a well-formed circuit whose inputs are each read exactly once (in order, unless
all have the same domain) and whose unread wires are as many as its outputs, gives back the circuit. -/
theorem C94_rebuild (dbg : Bool) (good : Nat → Prop) (c : Circuit) (hc : WellFormed good c) (hw : c.numWires < 2 ^ 64)
    (hperm : (inputReads c.numInputs c.gates).Perm (List.range c.numInputs))
    (hord : inputReads c.numInputs c.gates = List.range c.numInputs ∨ ∃ m, ∀ d ∈ c.inputDomains, d = m)
    (hout : (unreadWires c.gates).ncard = c.numOutputs) :
    ∃ b, builderAfter dbg c.numInputs (c.gates.map .addGate) = .ok b ∧ b.build = c := by
  have hlt : ∀ w ∈ mentioned c.gates, w < 2 ^ 64 := fun w h => by
    have := gatesFit_mentioned_lt hc.gates w h
    have := hc.wires
    have := hc.inputs
    omega
  have hr : ∀ d ∈ c.gates.map BuilderCall.addGate, d.InRange := by
    intro d hd
    obtain ⟨g, hg, rfl⟩ := List.mem_map.mp hd
    exact ⟨hlt _ ⟨g, hg, .inr rfl⟩, fun i hi => hlt _ ⟨g, hg, .inl hi⟩⟩
  obtain ⟨hd, hl⟩ := described_addGates c.gates
  obtain ⟨b, hb⟩ : ∃ b, builderAfter dbg c.numInputs (c.gates.map .addGate) = .ok b := by
    cases dbg
    · exact C13_release _ _
    · obtain ⟨b, hb, -⟩ := (C13_checked c.numInputs _ hr).1 ⟨by rw [hd]; exact hlt, by rw [hl]; decide⟩
      exact ⟨b, hb⟩
  refine ⟨b, hb, ?_⟩
  obtain ⟨h1, h2, h3, h4, -⟩ := C13_builder dbg c.numInputs _ hr b hb
  rw [hd, rewire_of_lt hlt] at h1
  have h5 := C94_input_domains dbg c.numInputs _ hr b hb c.inputDomains hc.inputs good (by rw [h1]; exact hc.gates)
    (by rw [h1]; exact hperm) (by rw [h1]; exact hord)
  have h6 : b.build.numWires = c.numWires := by
    rw [h2, h1, hc.wires, ← hc.inputs]
    refine mentioned_all hc.gates fun i hi => ?_
    have : i ∈ inputReads c.numInputs c.gates := hperm.mem_iff.mpr (List.mem_range.mpr (hc.inputs ▸ hi))
    obtain ⟨g, hg, hi⟩ := List.mem_flatMap.mp this
    exact ⟨g, List.mem_of_mem_filter hg, hi⟩
  have h7 : b.build.numOutputs = c.numOutputs := by rw [h3, h1, hout]
  generalize b.build = c' at *
  obtain ⟨⟩ := c
  obtain ⟨⟩ := c'
  simp only at h1 h4 h5 h6 h7
  subst h1 h4 h5 h6 h7
  rfl

/-- C94: in particular the circuits of `build_circuit` and `build_circuit_v2` are what the builder makes of their gates, for
every positive size and every threshold that fit 16 bits. -/
theorem C94_threshold (dbg : Bool) (n t : Nat) (hn : 0 < n) (hn2 : n < 65535) (ht : t < 65535) :
    ∃ c c' b b', buildCircuit dbg n t = .ok c ∧ buildCircuitV2 dbg n t = .ok c' ∧
      builderAfter dbg (2 * n) (c.gates.map .addGate) = .ok b ∧ b.build = c ∧
      builderAfter dbg (3 * n) (c'.gates.map .addGate) = .ok b' ∧ b'.build = c' := by
  obtain ⟨b, hb, hbc⟩ := C94_rebuild dbg SmallPos (thrCircuit n (n + 1) (t + 1))
    (thr_typed hn (by decide) ⟨by omega, by omega⟩) (by simp only [thrCircuit]; omega)
    (by simp only [thrCircuit]; rw [Nat.mul_comm]; exact thr_reads n _ _)
    (.inr ⟨2, fun d hd => List.eq_of_mem_replicate hd⟩)
    (by
      have h := thr_typed (good := SmallPos) (T := t + 1) hn (by decide) ⟨by omega, by omega⟩
      exact tail_unread (xorGates n) (by simp [xorGates]) (by
        have := gatesFit_outputs h.gates
        simpa [thrCircuit, Nat.mul_comm] using this))
  obtain ⟨b', hb', hbc'⟩ := C94_rebuild dbg SmallPos (thrCircuit3 n (n + 1) (t + 1))
    (thr3_typed hn (by decide) ⟨by omega, by omega⟩) (by simp only [thrCircuit3]; omega)
    (by simp only [thrCircuit3]; rw [Nat.mul_comm]; exact thr3_reads n _ _)
    (.inr ⟨2, fun d hd => List.eq_of_mem_replicate hd⟩)
    (by
      have h := thr3_typed (good := SmallPos) (T := t + 1) hn (by decide) ⟨by omega, by omega⟩
      exact tail_unread (xorGates3 n) (by simp [xorGates3]) (by
        have := gatesFit_outputs h.gates
        simpa [thrCircuit3, Nat.mul_comm] using this))
  refine ⟨_, _, b, b', buildCircuit_ok dbg hn2 ht, buildCircuitV2_ok dbg hn2 ht, ?_, hbc, ?_, hbc'⟩
  · rw [Nat.mul_comm]; exact hb
  · rw [Nat.mul_comm]; exact hb'

example := C94_threshold true 3 1 (by meets) (by meets) (by meets)

/-- One input pair and its sum satisfy the conditions. -/
example (E : Env) (rnd : GarbleRand) : ∃ b, builderAfter E.dbg 2 [.addGate ⟨2, 2, [0, 1], .add⟩] = .ok b ∧
    ∃ gc e d X Z, garble E rnd b.build = .ok (gc, e, d) ∧ e.encode E.dbg [1, 0] = .ok X ∧ evaluate E gc X = .ok Z := by
  refine ⟨_, rfl, ?_⟩
  obtain ⟨-, gc, e, d, X, Z, h1, h2, h3, -⟩ := C94_builder_computes_partial E rnd 2 [.addGate ⟨2, 2, [0, 1], .add⟩] _ [2, 2] [1, 0]
    (by decide) rfl rfl ⟨⟨rfl, by decide, by decide, by decide, by simp [CircuitBuilder.build]⟩, trivial⟩
    (.cons (by decide) (.cons (by decide) .nil)) (List.Perm.refl _) rfl (by
      rintro w ⟨i, g, hg, rfl, -⟩ v hv hv2
      have : i = 0 := by
        have := (List.getElem?_eq_some_iff.mp hg).1
        simpa [CircuitBuilder.build, CircuitBuilder.addGate, CircuitBuilder.new] using this
      subst this
      cases hg
      exact absurd hv2 (by simp [CircuitBuilder.build, CircuitBuilder.addGate, CircuitBuilder.new]; simp at hv; omega))
  exact ⟨gc, e, d, X, Z, h1, h2, h3⟩

/-- The circuit the builder makes of the half adder. -/
def halfAdderCircuit : Circuit :=
  { numWires := 4, numInputs := 2, numOutputs := 2, inputDomains := [2, 2, 2, 2]
    gates := [⟨2, 2, [0, 1], .add⟩, ⟨3, 2, [0, 1], .and⟩] }

theorem add_bit (dbg : Bool) (w δ : WireBytes) (p : Bool) :
    ((do Wire.add dbg ⟨.binary, w⟩ (← Wire.mul dbg ⟨.binary, δ⟩ p.toNat)) : R Wire) = .ok ⟨.binary, add32 w (when32 p δ)⟩ := by
  cases p
  · rw [show when32 false δ = zero32 from rfl, add32_zero]
    exact bin_mul_zero_add dbg rfl rfl
  · rw [show true.toNat = 1 from rfl, bin_mul_one dbg rfl, okb, add_binary]; rfl

theorem sum_two (dbg : Bool) (a b : WireBytes) :
    Wire.sum dbg [⟨.binary, a⟩, ⟨.binary, b⟩] = .ok ⟨.binary, add32 a b⟩ := by
  unfold Wire.sum
  simp only [List.foldlM_cons, List.foldlM_nil, add_binary, okb]
  rfl

/-- C94 fails for the half adder, the sum and the carry of the same two bits, with every hash function and all random
draws.  The builder accepts the gates and `verify_circuit` the circuit, but its list of input domains has an entry for
every reading, so four instead of two.  Garbling, encoding and evaluation succeed, and the label of the sum is right;
but the decoding key was made from the label of a third input that does not exist.  So decoding can only succeed if the
hash of the sum's label is by chance that of one of two unrelated labels. -/
theorem C94_fails_half_adder (E : Env) (rnd : GarbleRand) (p q : Bool) :
    ∃ b, builderAfter E.dbg 2 halfAdder = .ok b ∧ verifyCircuit b.build = .ok () ∧ b.build.inputDomains = [2, 2, 2, 2] ∧
      GatesFit GoodDomain [2, 2] b.build.gates ∧
      wireValues b.build.gates [p.toNat, q.toNat] = [p.toNat, q.toNat, (p ^^ q).toNat, (p && q).toNat] ∧
      ∃ gc e d X z Z δ, garble E rnd b.build = .ok (gc, e, d) ∧ e.encode E.dbg [p.toNat, q.toNat] = .ok X ∧
        evaluate E gc X = .ok (z :: Z) ∧
        z = ⟨.binary, add32 (add32 (rnd.input 0) (rnd.input 1)) (when32 (p ^^ q) δ)⟩ ∧
        ∀ y, d.decode E (z :: Z) = .ok y →
          hashOut E 2 0 z = hashOut E 2 0 ⟨.binary, rnd.input 2⟩ ∨
          hashOut E 2 1 z = hashOut E 2 1 ⟨.binary, add32 (rnd.input 2) δ⟩ := by
  have hb : builderAfter E.dbg 2 halfAdder = .ok ((((CircuitBuilder.new 2).addGate ⟨2, 2, [0, 1], .add⟩).addGate
    ⟨3, 2, [0, 1], .and⟩)) := rfl
  refine ⟨_, hb, ?_⟩
  have hc : (((CircuitBuilder.new 2).addGate ⟨2, 2, [0, 1], .add⟩).addGate ⟨3, 2, [0, 1], .and⟩).build = halfAdderCircuit := by
    decide
  rw [hc]
  refine ⟨by decide, rfl, ⟨⟨rfl, by decide, by decide, by decide, by simp⟩, ⟨rfl, by decide, by decide, by decide, by simp⟩, trivial⟩,
    by cases p <;> cases q <;> decide, ?_⟩
  obtain ⟨δ, hδ⟩ : ∃ δ, garbleDeltas rnd halfAdderCircuit = .ok [(2, ⟨.binary, δ⟩)] := ⟨_, rfl⟩
  let bin (v : WireBytes) : Wire := ⟨.binary, v⟩
  let w (i : Nat) : Wire := bin (rnd.input i)
  let g0 : Gate := ⟨2, 2, [0, 1], .add⟩
  let g1 : Gate := ⟨3, 2, [0, 1], .and⟩
  let dl : HMap Nat Wire := [(2, bin δ)]
  let s0 : GarbleState := ⟨[w 0, w 1, w 2, w 3], [], [], [], 0⟩
  let s1 : GarbleState := ⟨[w 0, w 1, w 2, w 3, bin (add32 (rnd.input 0) (rnd.input 1))], [], [], [], 0⟩
  have hg0 : garbleGate E dl s0 g0 = .ok s1 := by
    unfold garbleGate
    show (([0, 1] : List Nat).mapM (idxR s0.wires) >>= fun a => Wire.sum E.dbg a >>= fun w => _) = _
    rw [show ([0, 1] : List Nat).mapM (idxR s0.wires) = .ok [w 0, w 1] from rfl, okb, sum_two, okb]
    rfl
  have hvals : ∀ (ws : List Wire) (o : Nat) (a : WireBytes), ws[o]? = some (bin a) → ((List.range 2).mapM fun x => do
      return hashOut E o x (← Wire.add E.dbg (← idxR ws o) (← Wire.mul E.dbg (← HMap.getR dl 2) x)) : R _) =
      .ok [hashOut E o 0 (bin a), hashOut E o 1 (bin (add32 a δ))] := by
    intro ws o a ha
    have h0 := add_bit E.dbg a δ false
    have h1 := add_bit E.dbg a δ true
    rw [show when32 false δ = zero32 from rfl, add32_zero] at h0
    rw [show when32 true δ = δ from rfl] at h1
    rw [show false.toNat = 0 from rfl] at h0
    rw [show true.toNat = 1 from rfl] at h1
    rw [show List.range 2 = [0, 1] from rfl, List.mapM_cons, List.mapM_cons, List.mapM_nil, idxR_ok ha,
      show HMap.getR dl 2 = .ok (bin δ) from rfl]
    simp only [okb]
    rw [← bind_assoc, h0, okb, ← bind_assoc, h1]
    rfl
  let hs0 := [hashOut E 2 0 (w 2), hashOut E 2 1 (bin (add32 (rnd.input 2) δ))]
  let hs1 := [hashOut E 3 0 (w 3), hashOut E 3 1 (bin (add32 (rnd.input 3) δ))]
  have hd0 : garbleDecoding E dl 2 s1 g0 = .ok { s1 with d := [hs0] } := by
    unfold garbleDecoding
    rw [show g0.outputDomain = 2 from rfl, show g0.output = 2 from rfl, if_pos (le_refl _), hvals s1.wires 2 (rnd.input 2) rfl, okb]
    rfl
  obtain ⟨L, T1, T2, hand⟩ : ∃ L T1 T2, garbleAnd E dl s1.wires g1 1 = .ok (bin L, (bin T1, bin T2)) :=
    ⟨_, _, _, garbleAnd_exact (a := 0) (b := 1) rfl rfl rfl rfl rfl⟩
  let s2 : GarbleState := ⟨s1.wires ++ [bin L], [], [(3, (bin T1, bin T2))], [hs0], 1⟩
  have hg1 : garbleGate E dl { s1 with d := [hs0] } g1 = .ok s2 := by
    unfold garbleGate
    show (garbleAnd E dl s1.wires g1 1 >>= fun r => _) = _
    rw [hand, okb]
    rfl
  have hd1 : garbleDecoding E dl 2 s2 g1 = .ok { s2 with d := [hs0, hs1] } := by
    unfold garbleDecoding
    rw [show g1.outputDomain = 2 from rfl, show g1.output = 3 from rfl, if_pos (by omega), hvals s2.wires 3 (rnd.input 3) rfl, okb]
    rfl
  have hws : (halfAdderCircuit.inputDomains.zipIdx.mapM fun (domain, i) => Wire.new domain (rnd.input i)) =
    .ok [w 0, w 1, w 2, w 3] := rfl
  have hrun : garbleRun E rnd halfAdderCircuit = .ok ⟨{ s2 with d := [hs0, hs1] }, dl, [w 0, w 1], 2⟩ := by
    unfold garbleRun
    rw [hδ, okb, hws, okb, show sliceR [w 0, w 1, w 2, w 3] 0 halfAdderCircuit.numInputs = .ok [w 0, w 1] from rfl,
      okb, show subR E.dbg (2 ^ 64) halfAdderCircuit.numWires halfAdderCircuit.numOutputs = .ok 2 from rfl, okb,
      show halfAdderCircuit.gates = [g0, g1] from rfl]
    simp only [List.foldlM_cons, List.foldlM_nil]
    rw [show (⟨[w 0, w 1, w 2, w 3], [], [], [], 0⟩ : GarbleState) = s0 from rfl, hg0, okb, hd0, okb, hg1, okb, hd1]
    rfl
  let A := add32 (rnd.input 0) (when32 p δ)
  let B := add32 (rnd.input 1) (when32 q δ)
  have hX : EncodingKey.encode E.dbg ⟨[w 0, w 1], dl⟩ [p.toNat, q.toNat] = .ok [bin A, bin B] := by
    unfold EncodingKey.encode
    rw [show debugAssertR E.dbg (decide (([w 0, w 1] : List Wire).length = [p.toNat, q.toNat].length)) = .ok () from debugAssertR_ok rfl,
      okb, show ([w 0, w 1].zip [p.toNat, q.toNat]) = [(w 0, p.toNat), (w 1, q.toNat)] from rfl, List.mapM_cons,
      List.mapM_cons, List.mapM_nil]
    simp only [show HMap.getR dl (w 0).dom = .ok (bin δ) from rfl, show HMap.getR dl (w 1).dom = .ok (bin δ) from rfl, okb]
    rw [add_bit E.dbg (rnd.input 0) δ p, okb, add_bit E.dbg (rnd.input 1) δ q]
    rfl
  let gc : GarbledCircuit := ⟨halfAdderCircuit, [], [(3, (bin T1, bin T2))]⟩
  have he0 : evalGate E gc [some (bin A), some (bin B), none, none] 0 g0 = .ok (bin (add32 A B), 0) := by
    unfold evalGate
    show (([0, 1] : List Nat).mapM (readInit [some (bin A), some (bin B), none, none]) >>= fun a =>
      Wire.sum E.dbg a >>= fun w => _) = _
    rw [show ([0, 1] : List Nat).mapM (readInit [some (bin A), some (bin B), none, none]) = .ok [bin A, bin B] from rfl, okb, sum_two, okb]
    rfl
  have he1 : ∃ M, evalGate E gc [some (bin A), some (bin B), some (bin (add32 A B)), none] 0 g1 = .ok (bin M, 1) := by
    have hA : idxR g1.inputs 0 = .ok 0 := rfl
    have hB : idxR g1.inputs 1 = .ok 1 := rfl
    have rA : readInit [some (bin A), some (bin B), some (bin (add32 A B)), none] 0 = .ok (bin A) := rfl
    have rB : readInit [some (bin A), some (bin B), some (bin (add32 A B)), none] 1 = .ok (bin B) := rfl
    have hT : HMap.getR gc.fHalf g1.output = .ok (bin T1, bin T2) := rfl
    unfold evalGate
    rw [show g1.kind = .and from rfl]
    simp only [hA, hB, rA, rB, hT, okb, bin, hashHalf_eq, add_binary]
    split <;> split <;> simp only [purek, okb, add_binary] <;> exact ⟨_, rfl⟩
  obtain ⟨M, he1⟩ := he1
  have hZ : evaluate E gc [bin A, bin B] = .ok [bin (add32 A B), bin M] := by
    unfold evaluate
    show (debugAssertR E.dbg (decide (([bin A, bin B] : List Wire).length = 2)) >>= fun _ => _) = _
    rw [show debugAssertR E.dbg (decide (([bin A, bin B] : List Wire).length = 2)) = .ok () from debugAssertR_ok rfl, okb]
    show (Except.ok [some (bin A), some (bin B), none, none] >>= fun _ => _) = _
    rw [okb, show gc.circuit.gates = [g0, g1] from rfl]
    simp only [List.foldlM_cons, List.foldlM_nil]
    have hs : setR [some (bin A), some (bin B), none, none] g0.output (some (bin (add32 A B))) =
      .ok [some (bin A), some (bin B), some (bin (add32 A B)), none] := rfl
    have hs' : setR [some (bin A), some (bin B), some (bin (add32 A B)), none] g1.output (some (bin M)) =
      .ok [some (bin A), some (bin B), some (bin (add32 A B)), some (bin M)] := rfl
    have ho : subR E.dbg (2 ^ 64) gc.circuit.numWires gc.circuit.numOutputs = .ok 2 := rfl
    simp only [he0, he1, hs, hs', ho, okb, purek]
    rfl
  have hz : add32 A B = add32 (add32 (rnd.input 0) (rnd.input 1)) (when32 (p ^^ q) δ) := by
    apply xb_ext
    intro i k
    simp only [A, B, xb_add, xb_when]
    cases xb (rnd.input 0) i k <;> cases xb (rnd.input 1) i k <;> cases p <;> cases q <;> simp
  refine ⟨gc, ⟨[w 0, w 1], dl⟩, ⟨[hs0, hs1], 2⟩, _, _, [bin M], δ, by unfold garble; rw [hrun]; rfl, hX, hZ, by rw [← hz], ?_⟩
  intro y hy
  by_contra hno
  push Not at hno
  have : decodeOne E ⟨[hs0, hs1], 2⟩ (bin (add32 A B), 0) = .error (.err .decode) := by
    unfold decodeOne
    show (decodeSearch E 2 (bin (add32 A B)) hs0 [0, 1] >>= fun r => _) = _
    unfold decodeSearch
    rw [show idxR hs0 0 = .ok (hashOut E 2 0 (w 2)) from rfl, okb, if_neg hno.1]
    unfold decodeSearch
    rw [show idxR hs0 1 = .ok (hashOut E 2 1 (bin (add32 (rnd.input 2) δ))) from rfl, okb, if_neg hno.2]
    rfl
  unfold DecodingKey.decode at hy
  rw [show [bin (add32 A B), bin M].zipIdx = [(bin (add32 A B), 0), (bin M, 1)] from rfl, List.mapM_cons, this] at hy
  cases hy

/-- With a hash function that does not confuse labels, decoding the half adder fails for all but at most two values of the
draw behind the third input. -/
theorem C94_fails_half_adder_decode (E : Env) (rnd : GarbleRand) (p q : Bool)
    (hinj : ∀ (k : Nat) (v w : WireBytes), hashOut E 2 k ⟨.binary, v⟩ = hashOut E 2 k ⟨.binary, w⟩ → v = w) :
    ∃ b gc e d X Z δ, builderAfter E.dbg 2 halfAdder = .ok b ∧ garble E rnd b.build = .ok (gc, e, d) ∧
      e.encode E.dbg [p.toNat, q.toNat] = .ok X ∧ evaluate E gc X = .ok Z ∧
      ((∃ y, d.decode E Z = .ok y) →
        rnd.input 2 = add32 (add32 (rnd.input 0) (rnd.input 1)) (when32 (p ^^ q) δ) ∨
        rnd.input 2 = add32 (add32 (add32 (rnd.input 0) (rnd.input 1)) (when32 (p ^^ q) δ)) δ) := by
  obtain ⟨b, hb, -, -, -, -, gc, e, d, X, z, Z, δ, h1, h2, h3, rfl, h4⟩ := C94_fails_half_adder E rnd p q
  refine ⟨b, gc, e, d, X, _, δ, hb, h1, h2, h3, fun ⟨y, hy⟩ => ?_⟩
  rcases h4 y hy with h | h
  · exact .inl (hinj 0 _ _ h).symm
  · right
    rw [hinj 1 _ _ h]
    apply xb_ext
    intro i k
    simp only [xb_add]
    cases xb (rnd.input 2) i k <;> cases xb δ i k <;> rfl

example := C94_fails_half_adder_decode (toyEnv true) Witness.rand true false fun k v w h => by
  have h : toyHash _ = toyHash _ := h
  rwa [toyHash_append, toyHash_append] at h

/-- The circuit of `twoSums`. -/
def twoSumsCircuit : Circuit :=
  { numWires := 7, numInputs := 4, numOutputs := 2, inputDomains := [2, 2, 2, 2]
    gates := [⟨4, 2, [0, 1], .add⟩, ⟨5, 2, [2, 3], .add⟩, ⟨6, 2, [5], .mul 1⟩] }

/-- C94 fails for gates whose unread wires are not the last ones, although the circuit is accepted, well typed and runs:
of two sums, of which only the second is read, the result contains the second sum twice and the first not at all. -/
theorem C94_fails_outputs (E : Env) (rnd : GarbleRand) (p q r s : Bool) :
    ∃ b, builderAfter E.dbg 4 twoSums = .ok b ∧ verifyCircuit b.build = .ok () ∧ WellTyped b.build ∧
      unreadWires b.build.gates = {4, 6} ∧
      wireValues b.build.gates [p.toNat, q.toNat, r.toNat, s.toNat] =
        [p.toNat, q.toNat, r.toNat, s.toNat, (p ^^ q).toNat, (r ^^ s).toNat, (r ^^ s).toNat] ∧
      ∃ gc e d X Z, garble E rnd b.build = .ok (gc, e, d) ∧ e.encode E.dbg [p.toNat, q.toNat, r.toNat, s.toNat] = .ok X ∧
        evaluate E gc X = .ok Z ∧
        ((∀ run, garbleRun E rnd b.build = .ok run → NoCollision E run) →
          d.decode E Z = .ok [(r ^^ s).toNat, (r ^^ s).toNat]) := by
  let b := ((((CircuitBuilder.new 4).addGate ⟨4, 2, [0, 1], .add⟩).addGate ⟨5, 2, [2, 3], .add⟩).addGate ⟨6, 2, [5], .mul 1⟩)
  have hb : builderAfter E.dbg 4 twoSums = .ok b := rfl
  refine ⟨_, hb, ?_⟩
  have hinv := builder_inv E.dbg 4 twoSums (by decide) b hb
  have hc : b.build = twoSumsCircuit := by decide
  have hun : unreadWires b.build.gates = {4, 6} := by
    ext w
    show w ∈ unreadWires b.gates ↔ _
    rw [← hinv.unread, show b.unread = [6, 4] by decide]
    simp [or_comm]
  rw [hc] at hun ⊢
  have hwt : WellTyped twoSumsCircuit := by
    refine ⟨rfl, ?_, ⟨⟨rfl, by decide, by decide, by decide, by simp⟩, ⟨rfl, by decide, by decide, by decide, by simp⟩,
      ⟨rfl, by decide, by decide, by decide, by simp⟩, trivial⟩, rfl, by decide⟩
    intro d hd
    obtain rfl : d = 2 := by simpa [twoSumsCircuit] using hd
    exact ⟨by decide, ⟨4, 2, [0, 1], .add⟩, by simp [twoSumsCircuit], .inl rfl⟩
  have hbit : ∀ b : Bool, b.toNat < 2 := fun b => by cases b <;> decide
  have hv : wireValues twoSumsCircuit.gates [p.toNat, q.toNat, r.toNat, s.toNat] =
      [p.toNat, q.toNat, r.toNat, s.toNat, (p ^^ q).toNat, (r ^^ s).toNat, (r ^^ s).toNat] := by
    cases p <;> cases q <;> cases r <;> cases s <;> decide
  obtain ⟨gc, e, d, X, Z, h1, h2, h3, h4⟩ := C01_garble_correct E rnd twoSumsCircuit [p.toNat, q.toNat, r.toNat, s.toNat] hwt
    (.cons (hbit p) (.cons (hbit q) (.cons (hbit r) (.cons (hbit s) .nil))))
  refine ⟨by decide, hwt, hun, hv, gc, e, d, X, Z, h1, h2, h3, fun hnc => ?_⟩
  rw [h4 hnc, meaning, hv]
  rfl

/-- So the claim is false. -/
theorem C94_builder_computes_false : ¬ C94_builder_computes := by
  intro h
  let rnd : GarbleRand := Witness.rand
  obtain ⟨b, hb, -, hwt, hun, hv, gc, e, d, X, Z, h1, h2, h3, h4⟩ := C94_fails_outputs (toyEnv true) rnd true false false false
  have hin : b.build.inputDomains = [2, 2, 2, 2] := by
    obtain rfl := Except.ok.inj hb
    decide
  obtain ⟨gc', e', d', X', Z', h1', h2', h3', h4'⟩ := h (toyEnv true) rnd 4 twoSums b [2, 2, 2, 2] [1, 0, 0, 0] (by decide) hb rfl
    (by have := hwt.gates; rwa [hin] at this)
    (by
      obtain rfl := Except.ok.inj hb
      decide)
    (.cons (by decide) (.cons (by decide) (.cons (by decide) (.cons (by decide) .nil))))
  rw [h1] at h1'
  obtain ⟨rfl, h1''⟩ := Prod.mk.inj (Except.ok.inj h1')
  obtain ⟨rfl, rfl⟩ := Prod.mk.inj h1''
  rw [show [1, 0, 0, 0] = [true.toNat, false.toNat, false.toNat, false.toNat] from rfl, h2] at h2'
  obtain rfl := Except.ok.inj h2'
  rw [h3] at h3'
  obtain rfl := Except.ok.inj h3'
  obtain ⟨y, hy, -, ws, hs, hw, rfl⟩ := h4' fun run _ => toy_noCollision true run
  rw [h4 fun run _ => toy_noCollision true run] at hy
  have hy := Except.ok.inj hy
  have hmem : 4 ∈ ws := (hw 4).mpr (by rw [hun]; simp)
  have : (wireValues b.build.gates [true.toNat, false.toNat, false.toNat, false.toNat]).getD 4 0 ∈
      ws.map ((wireValues b.build.gates [1, 0, 0, 0]).getD · 0) := List.mem_map_of_mem hmem
  rw [← hy, hv] at this
  revert this
  decide

end FP.Props
