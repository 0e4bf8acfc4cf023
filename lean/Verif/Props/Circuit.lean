import Verif.Proof.Circuit
import Verif.Proof.PlainExact
import Verif.Props.Garble
import Verif.Proof.Witness
import Verif.Proof.WitnessRun
/-
C03: the plain evaluator.  C04, C05: the threshold circuits.
-/
namespace FP.Props
open FP.Spec

/-! ### C03 -/

/-- Full statement of C03 for one circuit and input: the plain evaluator returns, on the output
wires, what the circuit means (and hence what garbled evaluation decodes to, by C01). -/
def PlainAgrees (dbg : Bool) (c : Circuit) (x : List Nat) : Prop :=
  ∃ ws, c.eval dbg x = .ok ws ∧ ws.length = c.numWires ∧
    ws.drop (c.numWires - c.numOutputs) = meaning c x

/-- C03 for circuits and inputs that stay within what the plain evaluator gets right
(`PlainSafe`, see Spec/Circuit.lean), in particular all circuits of projections and additions
whose plain sums fit 16 bits; any positive 16-bit domains.  Missing: ANDs with first input 1 and
second input 0, multiplications that need a reduction, and additions that exceed 16 bits, on
which the code is wrong (see below). -/
theorem C03_plain_eval_partial (dbg : Bool) (c : Circuit) (x : List Nat)
    (hc : WellFormed SmallPos c) (hx : InputOK c x)
    (hsafe : ∀ g ∈ c.gates, PlainSafe (wireValues c.gates x) g) : PlainAgrees dbg c x := by
  refine ⟨_, eval_ok dbg hc hsafe hx, ?_, rfl⟩
  have h3 : x.length = c.inputDomains.length := hx.length_eq
  have := hc.inputs; have := hc.wires
  rw [wireValues_length]; omega

example := C03_plain_eval_partial true exCircuit [0, 1, 4] (by meets) (by meets) (by simp [exCircuit, PlainSafe, wireValues, gateValue])

/-- C03, combined with C01: for those circuits, garbled and plain evaluation agree. -/
theorem C03_plain_eq_garbled_partial (E : Env) (rnd : GarbleRand) (c : Circuit) (x : List Nat)
    (hc : WellTyped c) (hx : InputOK c x)
    (hsafe : ∀ g ∈ c.gates, PlainSafe (wireValues c.gates x) g)
    (hnc : ∀ run, garbleRun E rnd c = .ok run → NoCollision E run) :
    ∃ gc e d X Z ws, garble E rnd c = .ok (gc, e, d) ∧ e.encode E.dbg x = .ok X ∧
      evaluate E gc X = .ok Z ∧ c.eval E.dbg x = .ok ws ∧
      d.decode E Z = .ok (ws.drop (c.numWires - c.numOutputs)) := by
  obtain ⟨gc, e, d, X, Z, h1, h2, h3, h4⟩ := C01_garble_correct E rnd c x hc hx
  have mono : ∀ (doms : List Nat) (gs : List Gate), GatesOK doms gs → GatesFit SmallPos doms gs := by
    intro doms gs
    induction gs generalizing doms with
    | nil => intro _; trivial
    | cons g gs ih =>
      intro ⟨h, h'⟩
      exact ⟨⟨h.output, h.inputs, good_small h.domain, good_small h.range, h.arity⟩, ih _ h'⟩
  have hc' : WellFormed SmallPos c := ⟨hc.inputs, fun d hd =>
    ⟨good_small (hc.inputGood d hd).1, (hc.inputGood d hd).2⟩, mono _ _ hc.gates, hc.wires, hc.outputs⟩
  refine ⟨gc, e, d, X, Z, _, h1, h2, h3, eval_ok E.dbg hc' hsafe hx, ?_⟩
  exact h4 hnc

example := C03_plain_eq_garbled_partial (toyEnv true) Witness.rand exCircuit [0, 1, 4] (by meets) (by meets)
    (by simp [exCircuit, PlainSafe, wireValues, gateValue]) fun run _ => toy_noCollision true run

/-- C03, exactly: for every well-formed circuit and input, the plain evaluator assigns every wire the value the
circuit means if and only if every gate is one on which it is right (`PlainRight`, see Spec/Circuit.lean): no AND
reads 1 and then 0, no product reaches its domain and no sum leaves 16 bits, except, without overflow checks,
where the reduction modulo 2^16 gives the right value by chance. -/
theorem C03_exact (dbg : Bool) (c : Circuit) (x : List Nat) (hc : WellFormed SmallPos c) (hx : InputOK c x) :
    c.eval dbg x = .ok (wireValues c.gates x) ↔
      ∀ g ∈ c.gates, PlainRight dbg (wireValues c.gates x) g :=
  eval_iff dbg hc hx

example := C03_exact true exCircuit [1, 0, 4] (by meets) (by meets)

/-- A circuit with a single AND gate. -/
def andCircuit : Circuit := ⟨3, 2, 1, [⟨2, 2, [0, 1], .and⟩], [2, 2]⟩
/-- A circuit that multiplies by 3 mod 5. -/
def mulCircuit : Circuit := ⟨2, 1, 1, [⟨1, 5, [0], .mul 3⟩], [5]⟩

/-- C03 is false of the code: the plain evaluator computes `1 AND 0 = 1`. -/
theorem C03_fails_and : WellTyped andCircuit ∧ InputOK andCircuit [1, 0] ∧
    ∀ dbg, ¬ PlainAgrees dbg andCircuit [1, 0] := by
  refine ⟨⟨rfl, ?_, ⟨⟨rfl, by decide, by decide, by decide, by simp⟩, trivial⟩, rfl, by decide⟩,
    .cons (by decide) (.cons (by decide) .nil), ?_⟩
  · intro d hd
    simp only [andCircuit, List.mem_cons, List.not_mem_nil, or_false, or_self] at hd
    subst hd
    exact ⟨by decide, ⟨2, 2, [0, 1], .and⟩, by simp [andCircuit], .inl rfl⟩
  · rintro dbg ⟨ws, h1, _, h3⟩
    have : andCircuit.eval dbg [1, 0] = .ok [1, 0, 1] := by cases dbg <;> rfl
    rw [this] at h1
    injection h1 with h1
    subst h1
    revert h3; decide

/-- C03 is false of the code: the plain evaluator computes `3 * 3 = 9` in domain 5. -/
theorem C03_fails_mul : WellTyped mulCircuit ∧ InputOK mulCircuit [3] ∧
    ∀ dbg, ¬ PlainAgrees dbg mulCircuit [3] := by
  refine ⟨⟨rfl, ?_, ⟨⟨rfl, by decide, by decide, by decide, by simp⟩, trivial⟩, rfl, by decide⟩,
    .cons (by decide) .nil, ?_⟩
  · intro d hd
    simp only [mulCircuit, List.mem_cons, List.not_mem_nil, or_false] at hd
    subst hd
    exact ⟨by decide, ⟨1, 5, [0], .mul 3⟩, by simp [mulCircuit], .inl rfl⟩
  · rintro dbg ⟨ws, h1, _, h3⟩
    have : mulCircuit.eval dbg [3] = .ok [3, 9] := by cases dbg <;> rfl
    rw [this] at h1
    injection h1 with h1
    subst h1
    revert h3; decide

/-! ### C04 -/

/-- The full statement of C04 for one size and threshold: the circuit exists; its meaning and the
plain evaluator's output (last wire) on two bit strings of length `n` are 1 when they differ in at
most `t` positions and 0 otherwise. -/
def DecidesHamming (dbg : Bool) (n t : Nat) : Prop :=
  ∃ c, buildCircuit dbg n t = .ok c ∧ c.numInputs = 2 * n ∧ c.numOutputs = 1 ∧
    ∀ a b : List Bool, a.length = n → b.length = n →
      meaning c (bitsNat (a ++ b)) = [if hamming a b ≤ t then 1 else 0] ∧
      ∃ ws, c.eval dbg (bitsNat (a ++ b)) = .ok ws ∧
        ws.getLast? = some (if hamming a b ≤ t then 1 else 0)

/-- C04 for all sizes and thresholds below 65535.  Missing: `n ≥ 65535` and `t = 65535`, where the
code is wrong (see below). -/
theorem C04_threshold_circuit_partial (dbg : Bool) (n t : Nat) (hn : 0 < n ∧ n < 65535)
    (ht : t < 65535) : DecidesHamming dbg n t := by
  refine ⟨_, buildCircuit_ok dbg hn.2 ht, by simp [thrCircuit]; omega, rfl, ?_⟩
  intro a b ha hb
  have hxl : (xorBits a b).length = n := by simp [xorBits, ha, hb]
  have hm := meaning_thr (D := n + 1) (T := t + 1) ha hb
  rw [tailSum_eq hxl, ← hamming_eq_weight] at hm
  simp only [Nat.lt_succ_iff] at hm
  have hv := values_thr (D := n + 1) (T := t + 1) ha hb
  refine ⟨hm, _, eval_ok dbg (thr_typed hn.1 (by decide) ⟨by omega, by omega⟩) ?_ ?_, ?_⟩
  · exact thr_safe ha hb (by omega)
  · exact inputOK_bits (by simp [ha, hb]; omega)
  · rw [hv, tailSum_eq hxl, ← hamming_eq_weight]; simp [Nat.lt_succ_iff]

/-- C04 for garbled evaluation: for every size whose comparison domain `n + 1` label arithmetic
supports, garbling the circuit and evaluating it on the encodings of two bit strings decodes to
the threshold decision. -/
theorem C04_threshold_garbled_partial (E : Env) (rnd : GarbleRand) (n t : Nat) (hn : 0 < n)
    (hg : GoodDomain (n + 1)) (ht : t < 65535) (a b : List Bool) (ha : a.length = n)
    (hb : b.length = n) :
    ∃ c, buildCircuit E.dbg n t = .ok c ∧
      ∃ gc e d X Z, garble E rnd c = .ok (gc, e, d) ∧
        e.encode E.dbg (bitsNat (a ++ b)) = .ok X ∧ evaluate E gc X = .ok Z ∧
        ((∀ run, garbleRun E rnd c = .ok run → NoCollision E run) →
          d.decode E Z = .ok [if hamming a b ≤ t then 1 else 0]) := by
  have hn' : n < 65535 := by unfold GoodDomain at hg; omega
  have hxl : (xorBits a b).length = n := by simp [xorBits, ha, hb]
  refine ⟨_, buildCircuit_ok E.dbg hn' ht, ?_⟩
  obtain ⟨gc, e, d, X, Z, h1, h2, h3, h4⟩ := C01_garble_correct E rnd _ (bitsNat (a ++ b))
    (thr_typed (T := t + 1) hn good2 hg) (inputOK_bits (by simp [ha, hb]; omega))
  refine ⟨gc, e, d, X, Z, h1, h2, h3, fun hnc => ?_⟩
  rw [h4 hnc, meaning_thr ha hb, tailSum_eq hxl, ← hamming_eq_weight]
  simp [Nat.lt_succ_iff]

example := C04_threshold_garbled_partial (toyEnv true) Witness.rand 3 1 (by meets) (by meets) (by meets) [true, false, true]
    [false, false, true] rfl rfl

/-- Hypotheses are met, non-trivially. -/
example : DecidesHamming true 256 13 := C04_threshold_circuit_partial true 256 13 (by omega) (by omega)
example : GoodDomain (256 + 1) ∧ hamming [true, false, true] [true, true, false] = 2 := by decide

/-- C04 is false of the code for bit sizes that are a positive multiple of 65536: the size is
truncated to 16 bits, the comparison domain becomes 1, and any two strings are accepted. -/
theorem C04_fails_wrap (dbg : Bool) (k t : Nat) (hk : 0 < k) (ht : t < 65535) :
    ∃ c, buildCircuit dbg (65536 * k) t = .ok c ∧
      (∀ a b : List Bool, a.length = 65536 * k → b.length = 65536 * k →
        meaning c (bitsNat (a ++ b)) = [1]) ∧ ¬ DecidesHamming dbg (65536 * k) t := by
  have hbuild : buildCircuit dbg (65536 * k) t = .ok (thrCircuit (65536 * k) 1 (t + 1)) :=
    buildCircuit_eq (by rw [Nat.mul_mod_right]; exact addR_ok dbg (by omega)) (addR_ok dbg (by omega))
  have hall : ∀ a b : List Bool, a.length = 65536 * k → b.length = 65536 * k →
        meaning (thrCircuit (65536 * k) 1 (t + 1)) (bitsNat (a ++ b)) = [1] := by
    intro a b ha hb
    rw [meaning_thr ha hb]
    simp [tailSum, Nat.mod_one]
  refine ⟨_, hbuild, hall, ?_⟩
  rintro ⟨c, h1, _, _, h4⟩
  rw [hbuild] at h1
  injection h1 with h1
  subst h1
  have h5 := (h4 (List.replicate (65536 * k) true) (List.replicate (65536 * k) false)
    (by simp) (by simp)).1
  rw [hall _ _ (by simp) (by simp), hamming_replicate] at h5
  rw [if_neg (by omega)] at h5
  exact absurd h5 (by decide)

example := C04_fails_wrap true 1 1 (by meets) (by meets)

/-- C04 is false of the code at size 65535 in debug builds (panic) ... -/
theorem C04_fails_65535_debug (t : Nat) : buildCircuit true 65535 t = .error .panic := by
  unfold buildCircuit
  have : addR true 65536 (65535 % 65536) 1 = .error .panic := rfl
  rw [this]; rfl

/-- ... and at threshold 65535: debug builds panic, release builds build a circuit that rejects
even equal strings. -/
theorem C04_fails_threshold_max (n : Nat) (hn : n < 65535) :
    buildCircuit true n 65535 = .error .panic ∧
    ∃ c, buildCircuit false n 65535 = .ok c ∧
      ∀ a : List Bool, a.length = n → meaning c (bitsNat (a ++ a)) = [0] := by
  have hD : ∀ dbg, addR dbg 65536 (n % 65536) 1 = .ok (n + 1) := fun dbg => by
    rw [Nat.mod_eq_of_lt (by omega)]; exact addR_ok dbg (by omega)
  constructor
  · unfold buildCircuit
    have : addR true 65536 65535 1 = .error .panic := rfl
    rw [hD, okb, this]; rfl
  · refine ⟨_, buildCircuit_eq (hD false) (T := 0) rfl, ?_⟩
    intro a ha
    rw [meaning_thr ha ha]; simp

example := C04_fails_threshold_max 3 (by meets)

/-! ### C05 -/

/-- The full statement of C05 for one size and threshold. -/
def DecidesMasked (dbg : Bool) (n t : Nat) : Prop :=
  ∃ c, buildCircuitV2 dbg n t = .ok c ∧ c.numInputs = 3 * n ∧ c.numOutputs = 1 ∧
    ∀ a b d : List Bool, a.length = n → b.length = n → d.length = n →
      meaning c (bitsNat (a ++ b ++ d)) = [if weight (xorBits (xorBits a b) d) ≤ t then 1 else 0] ∧
      ∃ ws, c.eval dbg (bitsNat (a ++ b ++ d)) = .ok ws ∧
        ws.getLast? = some (if weight (xorBits (xorBits a b) d) ≤ t then 1 else 0)

/-- C05 for all sizes and thresholds below 65535. -/
theorem C05_masked_circuit_partial (dbg : Bool) (n t : Nat) (hn : 0 < n ∧ n < 65535)
    (ht : t < 65535) : DecidesMasked dbg n t := by
  refine ⟨_, buildCircuitV2_ok dbg hn.2 ht, by simp [thrCircuit3]; omega, rfl, ?_⟩
  intro a b d ha hb hd
  have hxl : (xorBits (xorBits a b) d).length = n := by simp [xorBits, ha, hb, hd]
  have hm := meaning_thr3 (D := n + 1) (T := t + 1) ha hb hd
  rw [tailSum_eq hxl] at hm
  simp only [Nat.lt_succ_iff] at hm
  have hv := values_thr3 (D := n + 1) (T := t + 1) ha hb hd
  refine ⟨hm, _, eval_ok dbg (thr3_typed hn.1 (by decide) ⟨by omega, by omega⟩) ?_ ?_, ?_⟩
  · exact thr3_safe ha hb hd (by omega)
  · exact inputOK_bits (by simp [ha, hb, hd]; omega)
  · rw [hv, tailSum_eq hxl]; simp [Nat.lt_succ_iff]

/-- C05 for garbled evaluation. -/
theorem C05_masked_garbled_partial (E : Env) (rnd : GarbleRand) (n t : Nat) (hn : 0 < n)
    (hg : GoodDomain (n + 1)) (ht : t < 65535) (a b d : List Bool) (ha : a.length = n)
    (hb : b.length = n) (hd : d.length = n) :
    ∃ c, buildCircuitV2 E.dbg n t = .ok c ∧
      ∃ gc e dk X Z, garble E rnd c = .ok (gc, e, dk) ∧
        e.encode E.dbg (bitsNat (a ++ b ++ d)) = .ok X ∧ evaluate E gc X = .ok Z ∧
        ((∀ run, garbleRun E rnd c = .ok run → NoCollision E run) →
          dk.decode E Z = .ok [if weight (xorBits (xorBits a b) d) ≤ t then 1 else 0]) := by
  have hn' : n < 65535 := by unfold GoodDomain at hg; omega
  have hxl : (xorBits (xorBits a b) d).length = n := by simp [xorBits, ha, hb, hd]
  refine ⟨_, buildCircuitV2_ok E.dbg hn' ht, ?_⟩
  obtain ⟨gc, e, dk, X, Z, h1, h2, h3, h4⟩ := C01_garble_correct E rnd _ (bitsNat (a ++ b ++ d))
    (thr3_typed (T := t + 1) hn good2 hg) (inputOK_bits (by simp [ha, hb, hd]; omega))
  refine ⟨gc, e, dk, X, Z, h1, h2, h3, fun hnc => ?_⟩
  rw [h4 hnc, meaning_thr3 ha hb hd, tailSum_eq hxl]
  simp [Nat.lt_succ_iff]

example := C05_masked_garbled_partial (toyEnv true) Witness.rand 3 1 (by meets) (by meets) (by meets) [true, false, true]
    [false, false, true] [true, true, true] rfl rfl rfl

/-- Unmasking: fed a masked password, the mask and another password, the circuit compares the two
passwords. -/
theorem C05_unmask (p q mask : List Bool) (h1 : mask.length = p.length) :
    weight (xorBits (xorBits (xorBits p mask) q) mask) = hamming p q := by
  rw [hamming_eq_weight]
  congr 1
  induction p generalizing q mask with
  | nil => simp [xorBits]
  | cons x p ih =>
    cases mask with
    | nil => simp at h1
    | cons y mask =>
      cases q with
      | nil => simp [xorBits]
      | cons z q =>
        have := ih q mask (by simpa using h1)
        simp only [xorBits, List.zipWith_cons_cons] at *
        rw [this]; cases x <;> cases y <;> cases z <;> rfl

example := C05_unmask [true, false, true] [false, false, true] [true, true, true] rfl

/-- C05 is false of the code for bit sizes that are a positive multiple of 65536. -/
theorem C05_fails_wrap (dbg : Bool) (k t : Nat) (hk : 0 < k) (ht : t < 65535) :
    ∃ c, buildCircuitV2 dbg (65536 * k) t = .ok c ∧
      (∀ a b d : List Bool, a.length = 65536 * k → b.length = 65536 * k → d.length = 65536 * k →
        meaning c (bitsNat (a ++ b ++ d)) = [1]) ∧ ¬ DecidesMasked dbg (65536 * k) t := by
  have hbuild : buildCircuitV2 dbg (65536 * k) t = .ok (thrCircuit3 (65536 * k) 1 (t + 1)) :=
    buildCircuitV2_eq (by rw [Nat.mul_mod_right]; exact addR_ok dbg (by omega)) (addR_ok dbg (by omega))
  have hall : ∀ a b d : List Bool, a.length = 65536 * k → b.length = 65536 * k →
      d.length = 65536 * k →
        meaning (thrCircuit3 (65536 * k) 1 (t + 1)) (bitsNat (a ++ b ++ d)) = [1] := by
    intro a b d ha hb hd
    rw [meaning_thr3 ha hb hd]
    simp [tailSum, Nat.mod_one]
  refine ⟨_, hbuild, hall, ?_⟩
  rintro ⟨c, h1, _, _, h4⟩
  rw [hbuild] at h1
  injection h1 with h1
  subst h1
  have h5 := (h4 (List.replicate (65536 * k) true) (List.replicate (65536 * k) false)
    (List.replicate (65536 * k) false) (by simp) (by simp) (by simp)).1
  rw [hall _ _ _ (by simp) (by simp) (by simp)] at h5
  have e : weight (xorBits (xorBits (List.replicate (65536 * k) true)
      (List.replicate (65536 * k) false)) (List.replicate (65536 * k) false)) = 65536 * k := by
    simp only [xorBits, List.zipWith_replicate', Nat.min_self]
    exact weight_replicate _
  rw [e, if_neg (by omega)] at h5
  exact absurd h5 (by decide)

example := C05_fails_wrap true 1 1 (by meets) (by meets)

example : DecidesMasked false 2048 100 := C05_masked_circuit_partial false 2048 100 (by omega) (by omega)

end FP.Props
