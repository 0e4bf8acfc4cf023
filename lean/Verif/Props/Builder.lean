import Verif.Proof.Builder
import Verif.Proof.Circuit
import Verif.Proof.Keys
import Verif.Props.Garble
import Verif.Proof.Witness
/-
C13: circuit builder and verifier.
-/
namespace FP.Props
open FP.Spec

/-- C13: for every history of builder calls that does not panic, the built circuit consists of the
gates that were added, in order, each moved by the later offsets (as machine words: modulo 2^64).
It has as many wires as its gates mention, as many outputs as there are written wires nobody reads
afterwards, the given number of inputs, and `verify_circuit` accepts it exactly when no two gates
write the same wire. -/
theorem C13_builder (dbg : Bool) (n : Nat) (h : List BuilderCall) (hr : ∀ c ∈ h, c.InRange)
    (b : CircuitBuilder) (hb : builderAfter dbg n h = .ok b) :
    let c := b.build
    c.gates = (described h).map (rewire (· % 2 ^ 64)) ∧
    c.numWires = (mentioned c.gates).ncard ∧ c.numOutputs = (unreadWires c.gates).ncard ∧
    c.numInputs = n ∧
    (verifyCircuit c = .ok () ↔
      ∀ (i j : Nat) (gi gj : Gate), c.gates[i]? = some gi → c.gates[j]? = some gj → gi.output = gj.output → i = j) := by
  obtain ⟨h1, h0, -, h2, h3, -⟩ := builder_inv dbg n h hr b hb
  refine ⟨h0, gateWires_length _, (ncard_of_nodup h2 h3).symm, h1, ?_⟩
  unfold verifyCircuit
  rw [if_neg (by simp [CircuitBuilder.build])]
  have key : ∀ gates : List Gate, (gates.map Gate.output).Nodup ↔
      ∀ (i j : Nat) (gi gj : Gate), gates[i]? = some gi → gates[j]? = some gj → gi.output = gj.output → i = j := by
    intro gates
    rw [List.nodup_iff_injective_getElem]
    constructor
    · intro hinj i j gi gj hi hj he
      obtain ⟨hi1, rfl⟩ := List.getElem?_eq_some_iff.mp hi
      obtain ⟨hj1, rfl⟩ := List.getElem?_eq_some_iff.mp hj
      have := @hinj ⟨i, by simpa using hi1⟩ ⟨j, by simpa using hj1⟩ (by simpa using he)
      simpa using this
    · rintro hinj ⟨i, hi⟩ ⟨j, hj⟩ he
      simp only [List.length_map] at hi hj
      simp only [List.getElem_map] at he
      simpa using hinj i j _ _ (List.getElem?_eq_getElem hi) (List.getElem?_eq_getElem hj) he
  by_cases hn : (b.build.gates.map Gate.output).Nodup
  · rw [if_neg (by simpa using hn)]
    simp only [true_iff]
    exact (key _).mp hn
  · rw [if_pos hn]
    constructor
    · intro h; cases h
    · intro h; exact absurd ((key _).mpr h) hn

/-- C13: a build without overflow checks builds every history. -/
theorem C13_release (n : Nat) (h : List BuilderCall) : ∃ b, builderAfter false n h = .ok b :=
  builder_release n h

/-- C13: a build with overflow checks builds a history exactly when every wire of the described gates
is a machine word, and so is the sum of the offsets that come before the first gate (which move
nothing); otherwise it panics.  In what it builds no wire number has been reduced. -/
theorem C13_checked (n : Nat) (h : List BuilderCall) (hr : ∀ c ∈ h, c.InRange) :
    (((∀ w ∈ mentioned (described h), w < 2 ^ 64) ∧ leadingOffsets h < 2 ^ 64) →
      ∃ b, builderAfter true n h = .ok b ∧ b.build.gates = described h) ∧
    (¬ ((∀ w ∈ mentioned (described h), w < 2 ^ 64) ∧ leadingOffsets h < 2 ^ 64) →
      builderAfter true n h = .error .panic) := by
  rcases builder_checked n h hr with ⟨h1, b, hb⟩ | ⟨h1, hb⟩
  · exact ⟨fun _ => ⟨b, hb, (builder_inv true n h hr b hb).gates.trans (rewire_of_lt h1.1)⟩,
      fun h2 => absurd h1 h2⟩
  · exact ⟨fun h2 => absurd h2 h1, fun _ => hb⟩

/-- A history with an offset between its gates. -/
def exHistory : List BuilderCall :=
  [.addGate ⟨2, 2, [0, 1], .and⟩, .offset 5, .addGate ⟨8, 2, [7], .proj (.map 5)⟩]

theorem exHistory_inRange : ∀ c ∈ exHistory, c.InRange := by decide

example : ∃ b, builderAfter true 2 exHistory = .ok b ∧
    b.build.gates = [⟨7, 2, [5, 6], .and⟩, ⟨8, 2, [7], .proj (.map 5)⟩] ∧ b.build.numWires = 4 ∧
    b.build.numOutputs = 1 ∧ verifyCircuit b.build = .ok () := by
  obtain ⟨b, hb, hg⟩ := (C13_checked 2 exHistory exHistory_inRange).1 ⟨by
    rintro w ⟨g, hg, hw⟩
    fin_cases hg <;> simp [rewire, offsetsIn] at hw <;> omega, by decide⟩
  have hb' : builderAfter true 2 exHistory =
    .ok ⟨[⟨7, 2, [5, 6], .and⟩, ⟨8, 2, [7], .proj (.map 5)⟩], 8, 2, [8]⟩ := by decide
  exact ⟨_, hb', rfl, by decide, by decide, by decide⟩

example := C13_builder true 2 exHistory exHistory_inRange _
  (show builderAfter true 2 exHistory = .ok ⟨[⟨7, 2, [5, 6], .and⟩, ⟨8, 2, [7], .proj (.map 5)⟩], 8, 2, [8]⟩ by decide)

/-- Two offsets before any gate: they move nothing, and a build with checks panics. -/
example : builderAfter true 1 [.offset (2 ^ 63), .offset (2 ^ 63), .addGate ⟨1, 2, [0], .add⟩] = .error .panic :=
  (C13_checked 1 _ (by decide)).2 fun h => absurd h.2 (by decide)

/-- A build without checks wraps the wire numbers. -/
example : ∃ b, builderAfter false 1 [.addGate ⟨2 ^ 64 - 1, 2, [0], .add⟩, .offset 1] = .ok b ∧
    b.build.gates = [⟨0, 2, [1], .add⟩] := ⟨⟨[⟨0, 2, [1], .add⟩], 0, 1, [0]⟩, by decide, rfl⟩

/-- C13: `verify_circuit` on an arbitrary circuit. -/
theorem C13_verify_iff (c : Circuit) :
    verifyCircuit c = .ok () ↔
      c.numWires = (mentioned c.gates).ncard ∧ (c.gates.map Gate.output).Nodup := by
  unfold verifyCircuit
  rw [gateWires_length]
  by_cases h1 : (mentioned c.gates).ncard = c.numWires
  · rw [if_neg (by simpa using h1)]
    by_cases h2 : (c.gates.map Gate.output).Nodup
    · rw [if_neg (by simpa using h2)]; simp [h1, h2]
    · rw [if_pos h2]; simp [errR, h2]
  · rw [if_pos h1]
    simp only [errR, reduceCtorEq, false_iff]
    rintro ⟨h, -⟩; exact h1 h.symm

/-- C13: a well-formed circuit is accepted exactly when every input wire is read by some gate. -/
theorem C13_wellFormed_accepted (good : Nat → Prop) (c : Circuit) (hc : WellFormed good c) :
    verifyCircuit c = .ok () ↔ ∀ i, i < c.numInputs → ∃ g ∈ c.gates, i ∈ g.inputs := by
  have hout := gatesFit_outputs hc.gates
  have hin := gatesFit_inputs_lt hc.gates
  have hi := hc.inputs
  have hw := hc.wires
  have hnd : (c.gates.map Gate.output).Nodup := by rw [hout]; exact List.nodup_range'
  have hmem : ∀ w, w ∈ mentioned c.gates ↔ (c.numInputs ≤ w ∧ w < c.numWires) ∨
      (w < c.numInputs ∧ ∃ g ∈ c.gates, w ∈ g.inputs) := by
    intro w
    have hw1 : (∃ g ∈ c.gates, w = g.output) ↔ c.numInputs ≤ w ∧ w < c.numWires := by
      have : w ∈ c.gates.map Gate.output ↔ c.numInputs ≤ w ∧ w < c.numWires := by
        rw [hout, List.mem_range'_1, hi, hw]
      rw [← this, List.mem_map]
      simp only [eq_comm]
    constructor
    · rintro ⟨g, hg, h | h⟩
      · have := hin g hg w h
        by_cases hlt : w < c.numInputs
        · exact .inr ⟨hlt, g, hg, h⟩
        · exact .inl ⟨by omega, by omega⟩
      · exact .inl (hw1.mp ⟨g, hg, h⟩)
    · rintro (h | ⟨-, g, hg, h⟩)
      · obtain ⟨g, hg, h⟩ := hw1.mpr h
        exact ⟨g, hg, .inr h⟩
      · exact ⟨g, hg, .inl h⟩
  rw [C13_verify_iff]
  constructor
  · rintro ⟨h1, -⟩ i hlt
    by_contra hno
    have hsub : mentioned c.gates ⊆ ((Finset.range c.numWires).erase i : Set Nat) := by
      intro w hw'
      have := (hmem w).mp hw'
      simp only [Finset.coe_erase, Finset.coe_range, Set.mem_diff, Set.mem_Iio, Set.mem_singleton_iff]
      rcases this with h | ⟨h, hg⟩
      · exact ⟨h.2, by omega⟩
      · refine ⟨by omega, ?_⟩
        rintro rfl; exact hno hg
    have hle := Set.ncard_le_ncard hsub (Finset.finite_toSet _)
    rw [Set.ncard_coe_finset, Finset.card_erase_of_mem (by simp; omega), Finset.card_range] at hle
    omega
  · intro hall
    refine ⟨?_, hnd⟩
    have : mentioned c.gates = (Finset.range c.numWires : Set Nat) := by
      ext w
      rw [hmem]
      simp only [Finset.coe_range, Set.mem_Iio]
      constructor
      · rintro (h | h)
        · exact h.2
        · omega
      · intro h
        by_cases hlt : w < c.numInputs
        · exact .inr ⟨hlt, hall w hlt⟩
        · exact .inl ⟨by omega, h⟩
    rw [this, Set.ncard_coe_finset, Finset.card_range]

example := C13_wellFormed_accepted GoodDomain exCircuit (by meets)

/-- The second half of C13 at full strength: every accepted circuit can be garbled and, on
labels for its inputs, evaluated without a panic or an uninitialised read. -/
def C13_accepted_runs : Prop :=
  ∀ (E : Env) (rnd : GarbleRand) (c : Circuit), verifyCircuit c = .ok () →
    ∃ gc e d, garble E rnd c = .ok (gc, e, d) ∧
      ∀ x, x.length = c.numInputs → ∀ X, e.encode E.dbg x = .ok X → ∃ Z, evaluate E gc X = .ok Z

/-- C13, what holds of the second half: accepted circuits that are in addition well typed can be
garbled and evaluated.  Missing: `verify_circuit` does not check well-typedness, and without it
the claim fails (`C13_accepted_panics`, `C13_accepted_uninit`). -/
theorem C13_accepted_runs_partial (E : Env) (rnd : GarbleRand) (c : Circuit) (hc : WellTyped c)
    (_ : verifyCircuit c = .ok ()) (x : List Nat) (hx : InputOK c x) :
    ∃ gc e d X Z, garble E rnd c = .ok (gc, e, d) ∧ e.encode E.dbg x = .ok X ∧
      evaluate E gc X = .ok Z := by
  obtain ⟨gc, e, d, X, Z, h1, h2, h3, -⟩ := C01_garble_correct E rnd c x hc hx
  exact ⟨gc, e, d, X, Z, h1, h2, h3⟩

example := C13_accepted_runs_partial (toyEnv true) Witness.rand exCircuit (by meets) (by meets) [1, 0, 4] (by meets)

/-- A builder circuit with a gap in its wire numbers. -/
def gapCircuit : Circuit := ((CircuitBuilder.new 1).addGate ⟨2, 2, [0], .add⟩).build

/-- A builder circuit whose gate reads a wire that is neither an input nor written. -/
def uninitCircuit : Circuit := ((CircuitBuilder.new 1).addGate ⟨2, 2, [0, 1], .add⟩).build

/-- `verify_circuit` accepts the circuit with a gap, and garbling it panics. -/
theorem C13_accepted_panics (E : Env) (rnd : GarbleRand) :
    verifyCircuit gapCircuit = .ok () ∧ garble E rnd gapCircuit = .error .panic := by
  exact ⟨by decide, rfl⟩

/-- `verify_circuit` accepts the other circuit; it can be garbled, and evaluating it reads an
uninitialised wire. -/
theorem C13_accepted_uninit (E : Env) (rnd : GarbleRand) (w : Wire) :
    verifyCircuit uninitCircuit = .ok () ∧ ∃ gc e d, garble E rnd uninitCircuit = .ok (gc, e, d) ∧
      evaluate E gc [w] = .error .ub := by
  refine ⟨by decide, ?_⟩
  have hd : ∃ δ, garbleDeltas rnd uninitCircuit = .ok [(2, δ)] ∧ δ.domain = .binary := ⟨_, rfl, rfl⟩
  obtain ⟨δ, hδ, hδb⟩ := hd
  have hw : (uninitCircuit.inputDomains.zipIdx.mapM fun (domain, i) => Wire.new domain (rnd.input i)) =
    .ok [⟨.binary, rnd.input 0⟩, ⟨.binary, rnd.input 1⟩] := rfl
  obtain ⟨d0, hd0, hl0, -⟩ := mulZ E.dbg (m := 2) (by decide) (binary_isLabel hδb).dom (x := 0) (by omega)
  have hd0b : d0.domain = .binary := by have := hl0.dom; simp [Domain.new] at this; exact this.symm
  let a : Wire := ⟨.binary, rnd.input 0⟩
  let b : Wire := ⟨.binary, rnd.input 1⟩
  let g : Gate := ⟨2, 2, [0, 1], .add⟩
  let s1 : GarbleState := ⟨[a, b, oneLabel a b], [], [], [], 0⟩
  have hg : garbleGate E [(2, δ)] ⟨[a, b], [], [], [], 0⟩ g = .ok s1 := by
    have hi : g.inputs.mapM (idxR [a, b]) = .ok [a, b] := rfl
    have hsum : Wire.sum E.dbg [a, b] = .ok (oneLabel a b) := by
      unfold Wire.sum
      simp only [List.foldlM_cons, List.foldlM_nil, bin_add E.dbg (w := a) (δ := b) rfl rfl, okb]
      rfl
    unfold garbleGate
    simp only [g] at hi ⊢
    rw [hi, okb, hsum, okb]
    rfl
  have hdec : ∃ s2, garbleDecoding E [(2, δ)] 2 s1 g = .ok s2 := by
    have hm : ((List.range 2).mapM fun x => do
        return hashOut E 2 x (← Wire.add E.dbg (← idxR s1.wires 2)
          (← Wire.mul E.dbg (← HMap.getR [(2, δ)] 2) x))) =
        (.ok [hashOut E 2 0 (oneLabel (oneLabel a b) d0), hashOut E 2 1 (oneLabel (oneLabel a b) δ)] : R _) := by
      rw [show List.range 2 = [0, 1] from rfl, List.mapM_cons, List.mapM_cons, List.mapM_nil]
      rw [show idxR s1.wires 2 = .ok (oneLabel a b) from rfl,
        show HMap.getR [(2, δ)] 2 = .ok δ from rfl]
      simp only [okb, hd0, bin_mul_one E.dbg hδb, bin_add E.dbg (w := oneLabel a b) rfl hd0b,
        bin_add E.dbg (w := oneLabel a b) rfl hδb, purek]
    unfold garbleDecoding
    simp only [g, Gate.outputDomain, le_refl, if_true]
    rw [hm]
    exact ⟨_, rfl⟩
  obtain ⟨s2, hdec⟩ := hdec
  have hrun : ∃ run, garbleRun E rnd uninitCircuit = .ok run := by
    unfold garbleRun
    rw [hδ, okb, hw, okb]
    have : (sliceR [a, b] 0 uninitCircuit.numInputs) = .ok [a] := rfl
    rw [this, okb]
    have : subR E.dbg (2 ^ 64) uninitCircuit.numWires uninitCircuit.numOutputs = .ok 2 := rfl
    rw [this, okb]
    rw [show uninitCircuit.gates = [g] from rfl, List.foldlM_cons, hg, okb, hdec, okb]
    exact ⟨_, rfl⟩
  obtain ⟨run, hrun⟩ := hrun
  refine ⟨_, _, _, by unfold garble; rw [hrun, okb, purek], ?_⟩
  have hdb : debugAssertR E.dbg (decide ([w].length = uninitCircuit.numInputs)) = .ok () :=
    debugAssertR_ok rfl
  unfold evaluate
  show (debugAssertR E.dbg (decide ([w].length = uninitCircuit.numInputs)) >>= fun _ => _) = _
  rw [hdb]
  rfl

theorem C13_accepted_runs_false : ¬ C13_accepted_runs := by
  intro h
  obtain ⟨gc, e, d, hg, -⟩ := h (toyEnv true) ⟨fun _ => Vector.replicate 32 0, fun _ => Vector.replicate 32 0⟩
    gapCircuit (C13_accepted_panics (toyEnv true) ⟨fun _ => Vector.replicate 32 0, fun _ => Vector.replicate 32 0⟩).1
  rw [(C13_accepted_panics _ _).2] at hg
  cases hg

/-- C13: the circuits of `build_circuit` and `build_circuit_v2` pass `verify_circuit`, for every
positive size and every threshold that fit 16 bits. -/
theorem C13_threshold_accepted (dbg : Bool) (n t : Nat) (hn : 0 < n) (hn2 : n < 65535) (ht : t < 65535) :
    ∃ c c', buildCircuit dbg n t = .ok c ∧ verifyCircuit c = .ok () ∧
      buildCircuitV2 dbg n t = .ok c' ∧ verifyCircuit c' = .ok () := by
  refine ⟨_, _, buildCircuit_ok dbg hn2 ht, ?_, buildCircuitV2_ok dbg hn2 ht, ?_⟩
  · rw [C13_wellFormed_accepted SmallPos _ (thr_typed hn (by decide) ⟨by omega, by omega⟩)]
    intro i hi
    simp only [thrCircuit] at hi
    by_cases h : i < n
    · exact ⟨⟨i + 2 * n, 2, [i, i + n], .add⟩, by simp [thrCircuit, xorGates, h], by simp⟩
    · refine ⟨⟨i - n + 2 * n, 2, [i - n, i - n + n], .add⟩, ?_, by simp; omega⟩
      have : i - n < n := by omega
      simp only [thrCircuit, xorGates, List.mem_append, List.mem_map, List.mem_range]
      exact .inl ⟨i - n, this, rfl⟩
  · rw [C13_wellFormed_accepted SmallPos _ (thr3_typed hn (by decide) ⟨by omega, by omega⟩)]
    intro i hi
    simp only [thrCircuit3] at hi
    have key : ∀ k, k < n → (⟨k + 3 * n, 2, [k, k + n, k + 2 * n], .add⟩ : Gate) ∈
        (thrCircuit3 n (n + 1) (t + 1)).gates := by
      intro k hk
      simp only [thrCircuit3, xorGates3, List.mem_append, List.mem_map, List.mem_range]
      exact .inl ⟨k, hk, rfl⟩
    by_cases h : i < n
    · exact ⟨_, key i h, by simp⟩
    · by_cases h2 : i < 2 * n
      · exact ⟨_, key (i - n) (by omega), by simp; omega⟩
      · exact ⟨_, key (i - 2 * n) (by omega), by simp; omega⟩

example := C13_threshold_accepted true 3 1 (by meets) (by meets) (by meets)

/-- A builder circuit that is accepted, with its counts. -/
example : let c := (((CircuitBuilder.new 2).addGate ⟨2, 2, [0, 1], .and⟩).addGate ⟨3, 2, [2], .proj (.map 5)⟩).build
    c.numWires = 4 ∧ c.numOutputs = 1 ∧ c.numInputs = 2 ∧ c.inputDomains = [2, 2] ∧
    verifyCircuit c = .ok () := by decide

/-- Two gates writing the same wire are rejected. -/
example : verifyCircuit (((CircuitBuilder.new 1).addGate ⟨1, 2, [0], .add⟩).addGate ⟨1, 2, [0], .add⟩).build =
    .error (.err .circuit) := by decide

end FP.Props
