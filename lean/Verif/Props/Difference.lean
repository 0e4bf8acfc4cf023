import Verif.Proof.Difference
import Verif.Proof.CuriousMany
import Verif.Proof.Witness
/-
C79: what a garbled circuit gives away of its inputs is at most what its projections and ANDs read, and for the circuits
of the key exchanges it is exactly that: the difference of the passwords.
-/
namespace FP.Props
open FP FP.Spec

/-- C79: for every well-formed circuit, two inputs for which the projections and ANDs read the same values lead to the
same garbled circuit and the same labels, under a one-to-one correspondence of the random choices that changes only what
is drawn for the inputs; if the results are equal, so is the key for decoding them.  No assumption on the hash. -/
theorem C79_at_most (c : Circuit) (hc : WellTyped c) :
    ∃ Φ : List Nat → List Nat → GarbleRand → GarbleRand, ∀ x x', InputOK c x → InputOK c x' → ∀ r, Drawn c r →
      Drawn c (Φ x x' r) ∧ Φ x' x (Φ x x' r) = r ∧ (Φ x x' r).delta = r.delta ∧ (SameAtTables c x x' →
        ∀ E : Env, evaluatorView c x' (E, Φ x x' r) = evaluatorView c x (E, r) ∧
          (meaning c x' = meaning c x → decoderView c x' (E, Φ x x' r) = decoderView c x (E, r))) :=
  ⟨otherDraws c, fun _ _ hx hx' r hr => ⟨otherDraws_drawn hc hx' r, otherDraws_back hc hx hx' hr, rfl,
    fun hs _ => twin_run hc hx hx' hs r⟩⟩

example := C79_at_most exCircuit (by meets)

theorem tail_tables {p n D T : Nat} {g : Gate} (hg : g ∈ tailGates p n D T) (ht : isAnd g = true ∨ isProj g = true) :
    ∀ i ∈ g.inputs, p ≤ i := by
  unfold tailGates at hg
  simp only [List.mem_append, List.mem_map, List.mem_range, List.mem_cons, List.not_mem_nil, or_false] at hg
  rcases hg with ⟨i, hi, rfl⟩ | rfl | rfl
  · intro j hj; simp at hj; omega
  · simp [isAnd, isProj] at ht
  · intro j hj; simp at hj; omega

theorem inputOK_bits {k : Nat} {bits : List Bool} (h : bits.length = k) {c : Circuit} (hc : c.inputDomains = List.replicate k 2) :
    InputOK c (bitsNat bits) := by
  unfold InputOK
  rw [hc]
  subst h
  clear hc
  induction bits with
  | nil => exact .nil
  | cons b bits ih => exact .cons (by cases b <;> decide) ih

theorem after_prefix {P P' R : List Nat} {l : Nat} (h : P.length = l) (h' : P'.length = l) :
    (∀ i, l ≤ i → (P' ++ R).getD i 0 = (P ++ R).getD i 0) ∧ ∀ k, l ≤ k → (P' ++ R).drop k = (P ++ R).drop k := by
  refine ⟨fun i hi => ?_, fun k hk => ?_⟩
  · rw [List.getD_eq_getElem?_getD, List.getD_eq_getElem?_getD, List.getElem?_append_right (by omega),
      List.getElem?_append_right (by omega), h, h']
  · rw [List.drop_append, List.drop_append, List.drop_eq_nil_of_le (as := P') (by omega),
      List.drop_eq_nil_of_le (as := P) (by omega), h, h']

theorem thr_same {n D T : Nat} {a b a' b' : List Bool} (ha : a.length = n) (hb : b.length = n) (ha' : a'.length = n)
    (hb' : b'.length = n) (h : xorBits a' b' = xorBits a b) :
    SameAtTables (thrCircuit n D T) (bitsNat (a ++ b)) (bitsNat (a' ++ b')) ∧
      meaning (thrCircuit n D T) (bitsNat (a' ++ b')) = meaning (thrCircuit n D T) (bitsNat (a ++ b)) := by
  have v1 := values_thr (D := D) (T := T) ha hb
  have v2 := values_thr (D := D) (T := T) ha' hb'
  rw [h] at v2
  simp only [List.append_assoc] at v1 v2
  have l1 : (bitsNat (a ++ b)).length = 2 * n := by simp [bitsNat, ha, hb]; omega
  have l2 : (bitsNat (a' ++ b')).length = 2 * n := by simp [bitsNat, ha', hb']; omega
  constructor
  · intro g hg ht i hi
    rw [v1, v2]
    refine (after_prefix l1 l2).1 i ?_
    rcases List.mem_append.mp (show g ∈ xorGates n ++ tailGates (2 * n) n D T from hg) with hg | hg
    · obtain ⟨j, -, rfl⟩ := List.mem_map.mp hg
      simp [isAnd, isProj] at ht
    · exact tail_tables hg ht i hi
  · unfold meaning
    rw [v1, v2]
    exact (after_prefix l1 l2).2 _ (by show 2 * n ≤ 4 * n + 2 - 1; omega)

theorem thr3_same {n D T : Nat} {a b d a' b' d' : List Bool} (ha : a.length = n) (hb : b.length = n) (hd : d.length = n)
    (ha' : a'.length = n) (hb' : b'.length = n) (hd' : d'.length = n)
    (h : xorBits (xorBits a' b') d' = xorBits (xorBits a b) d) :
    SameAtTables (thrCircuit3 n D T) (bitsNat (a ++ b ++ d)) (bitsNat (a' ++ b' ++ d')) ∧
      meaning (thrCircuit3 n D T) (bitsNat (a' ++ b' ++ d')) = meaning (thrCircuit3 n D T) (bitsNat (a ++ b ++ d)) := by
  have v1 := values_thr3 (D := D) (T := T) ha hb hd
  have v2 := values_thr3 (D := D) (T := T) ha' hb' hd'
  have l1 : (bitsNat (a ++ b ++ d)).length = 3 * n := by simp [bitsNat, ha, hb, hd]; omega
  have l2 : (bitsNat (a' ++ b' ++ d')).length = 3 * n := by simp [bitsNat, ha', hb', hd']; omega
  rw [h] at v2
  generalize bitsNat (a ++ b ++ d) = P at *
  generalize bitsNat (a' ++ b' ++ d') = P' at *
  simp only [List.append_assoc] at v1 v2
  constructor
  · intro g hg ht i hi
    rw [v1, v2]
    refine (after_prefix l1 l2).1 i ?_
    rcases List.mem_append.mp (show g ∈ xorGates3 n ++ tailGates (3 * n) n D T from hg) with hg | hg
    · obtain ⟨j, -, rfl⟩ := List.mem_map.mp hg
      simp [isAnd, isProj] at ht
    · exact tail_tables hg ht i hi
  · unfold meaning
    rw [v1, v2]
    exact (after_prefix l1 l2).2 _ (by show 3 * n ≤ 5 * n + 2 - 1; omega)

/-- What is sent for the input `x`. -/
theorem decoderView_parts {E : Env} {c : Circuit} (hc : WellTyped c) {x : List Nat} (hx : InputOK c x) (r : GarbleRand) :
    ∃ run X, garbleRun E r c = .ok run ∧ X.length = c.numInputs ∧
      decoderView c x (E, r) = .ok (⟨c, run.state.f, run.state.fHalf⟩, X, ⟨run.state.d, run.outputsStartAt⟩) ∧
      ∀ (i m : Nat), c.inputDomains[i]? = some m → ∃ z w v, run.encWires[i]? = some z ∧ X[i]? = some w ∧
        x[i]? = some v ∧ Carries run.delta m z v w := by
  obtain ⟨run, hrun, hok⟩ := garbleRun_ok E r hc
  obtain ⟨X, h1, h2, h3⟩ := encode_ok hc hok hx
  refine ⟨run, X, hrun, h2, ?_, h3⟩
  unfold decoderView
  simp only
  rw [garble_of_run hrun, okb]
  simp only
  rw [h1, okb]
  rfl

/-- The bits that are in front of an evaluator of the circuit of `build_circuit`. -/
theorem thr_differ {n D T : Nat} (hn : 0 < n) (hDg : GoodDomain D) (hD : 3 ≤ D) {a b a' b' : List Bool} (ha : a.length = n)
    (hb : b.length = n) (ha' : a'.length = n) (hb' : b'.length = n)
    (h : LookTheSame (thrCircuit n D T) (bitsNat (a ++ b)) (bitsNat (a' ++ b'))) : xorBits a' b' = xorBits a b := by
  obtain ⟨f, g, hf, -, hv⟩ := h
  have hc := thr_typedD (T := T) hn good2 hDg
  have hx : InputOK (thrCircuit n D T) (bitsNat (a ++ b)) := inputOK_bits (k := n * 2) (by simp [ha, hb]; omega) rfl
  have hx' : InputOK (thrCircuit n D T) (bitsNat (a' ++ b')) := inputOK_bits (k := n * 2) (by simp [ha', hb']; omega) rfl
  have hr := otherDraws_drawn hc (x := bitsNat (a ++ b)) hx ⟨fun _ => zero32, fun _ => zero32⟩
  generalize otherDraws _ _ _ _ = r at hr
  obtain ⟨run, X, e1, e2, e3, e4⟩ := decoderView_parts (E := ⟨false, fun _ => zero32⟩) hc hx r
  obtain ⟨run', X', f1, f2, f3, f4⟩ := decoderView_parts (E := ⟨false, fun _ => zero32⟩) hc hx' (f r)
  have hv := hv ⟨false, fun _ => zero32⟩ r hr
  rw [e3, f3] at hv
  have hv := Except.ok.inj hv
  have hX : X' = X := congrArg (fun p => p.2.1) hv
  have hF : run'.state.f = run.state.f := congrArg (fun p => p.1.f) hv
  subst hX
  change X'.length = n * 2 at e2
  have k1 := others_ok hn hDg hD e1 ha hb e4 (gc := ⟨thrCircuit n D T, run.state.f, run.state.fHalf⟩) (fun _ => rfl)
    (theirs := X'.take n) (ours := X'.drop n) (List.take_append_drop _ _) (by rw [List.length_take]; omega)
  have k2 := others_ok hn hDg hD f1 ha' hb' f4 (gc := ⟨thrCircuit n D T, run.state.f, run.state.fHalf⟩) (fun _ => by rw [hF])
    (theirs := X'.take n) (ours := X'.drop n) (List.take_append_drop _ _) (by rw [List.length_take]; omega)
  apply List.ext_getElem
  · simp [xorBits, ha, hb, ha', hb']
  intro i h1 h2
  have hi : i < n := by simp [xorBits, ha, hb] at h2; exact h2
  have m1 := congrArg (fun l => l[i]?) k1
  have m2 := congrArg (fun l => l[i]?) k2
  simp only [othersBits, List.getElem?_map, List.getElem?_range hi, Option.map_some] at m1 m2
  rw [List.getElem?_eq_getElem (by omega), List.getD_eq_getElem?_getD, List.getElem?_eq_getElem (by omega)] at m1 m2
  have m1 := Option.some.inj m1
  have m2 := Option.some.inj m2
  simp only [xorBits, List.getElem_zipWith]
  rw [← m1, ← m2]
  simp only [Option.getD_some]
  generalize colourAt _ _ = u1
  generalize colourAt _ _ = u2
  generalize ((firstRow _ _).color == 0) = u3
  cases u1 <;> cases u2 <;> cases u3 <;> cases b[i] <;> cases b'[i] <;> rfl

theorem thr3_differ {n D T : Nat} (hn : 0 < n) (hDg : GoodDomain D) (hD : 3 ≤ D) {a b d a' b' d' : List Bool} (ha : a.length = n)
    (hb : b.length = n) (hd : d.length = n) (ha' : a'.length = n) (hb' : b'.length = n) (hd' : d'.length = n)
    (h : LookTheSame (thrCircuit3 n D T) (bitsNat (a ++ b ++ d)) (bitsNat (a' ++ b' ++ d'))) :
    xorBits (xorBits a' b') d' = xorBits (xorBits a b) d := by
  obtain ⟨f, g, hf, -, hv⟩ := h
  have hc := thr3_typedD (T := T) hn good2 hDg
  have hx : InputOK (thrCircuit3 n D T) (bitsNat (a ++ b ++ d)) := inputOK_bits (k := n * 3) (by simp [ha, hb, hd]; omega) rfl
  have hx' : InputOK (thrCircuit3 n D T) (bitsNat (a' ++ b' ++ d')) :=
    inputOK_bits (k := n * 3) (by simp [ha', hb', hd']; omega) rfl
  have hr := otherDraws_drawn hc (x := bitsNat (a ++ b ++ d)) hx ⟨fun _ => zero32, fun _ => zero32⟩
  generalize otherDraws _ _ _ _ = r at hr
  obtain ⟨run, X, e1, e2, e3, e4⟩ := decoderView_parts (E := ⟨false, fun _ => zero32⟩) hc hx r
  obtain ⟨run', X', f1, f2, f3, f4⟩ := decoderView_parts (E := ⟨false, fun _ => zero32⟩) hc hx' (f r)
  have hv := hv ⟨false, fun _ => zero32⟩ r hr
  rw [e3, f3] at hv
  have hv := Except.ok.inj hv
  have hX : X' = X := congrArg (fun p => p.2.1) hv
  have hF : run'.state.f = run.state.f := congrArg (fun p => p.1.f) hv
  subst hX
  change X'.length = n * 3 at e2
  have hsplit : X'.take n ++ (X'.drop n).take n ++ X'.drop (n + n) = X' := by
    rw [List.append_assoc, ← List.drop_drop, List.take_append_drop, List.take_append_drop]
  rw [← sum3_ok hn hDg hD e1 ha hb hd e4 (gc := ⟨thrCircuit3 n D T, run.state.f, run.state.fHalf⟩) (fun _ => rfl) hsplit
    (by rw [List.length_take]; omega) (by rw [List.length_take, List.length_drop]; omega)]
  exact (sum3_ok hn hDg hD f1 ha' hb' hd' f4 (gc := ⟨thrCircuit3 n D T, run.state.f, run.state.fHalf⟩) (fun _ => by rw [hF]) hsplit
    (by rw [List.length_take]; omega) (by rw [List.length_take, List.length_drop]; omega)).symm

/-- C79: what an evaluator of the circuit of the key exchange is sent, the key for decoding the result included, looks the
same for two pairs of bit strings exactly if the differences of the two pairs are the same.  So the difference is in front
of every evaluator, and nothing else is. -/
theorem C79_exchange (dbg : Bool) (n t : Nat) (hn : 2 ≤ n) (hg : GoodDomain (n + 1)) (ht : t < 65535) :
    ∃ c, buildCircuit dbg n t = .ok c ∧ ∀ a b a' b' : List Bool, a.length = n → b.length = n → a'.length = n → b'.length = n →
      (LookTheSame c (bitsNat (a ++ b)) (bitsNat (a' ++ b')) ↔ xorBits a' b' = xorBits a b) := by
  have hlt : n < 65535 := by unfold GoodDomain at hg; omega
  refine ⟨_, buildCircuit_ok dbg hlt ht, fun a b a' b' ha hb ha' hb' => ⟨thr_differ (by omega) hg (by omega) ha hb ha' hb', fun h => ?_⟩⟩
  obtain ⟨h1, h2⟩ := thr_same (D := n + 1) (T := t + 1) ha hb ha' hb' h
  exact look_same (thr_typedD (by omega) good2 hg) (inputOK_bits (k := n * 2) (by simp [ha, hb]; omega) rfl)
    (inputOK_bits (k := n * 2) (by simp [ha', hb']; omega) rfl) h1 h2

example := C79_exchange true 3 1 (by meets) (by meets) (by meets)

/-- C79 for the circuit with three inputs of the one-of-many exchange: exactly the exclusive or of all three is in front of
the evaluator. -/
theorem C79_masked (dbg : Bool) (n t : Nat) (hn : 2 ≤ n) (hg : GoodDomain (n + 1)) (ht : t < 65535) :
    ∃ c, buildCircuitV2 dbg n t = .ok c ∧ ∀ a b d a' b' d' : List Bool, a.length = n → b.length = n → d.length = n →
      a'.length = n → b'.length = n → d'.length = n →
      (LookTheSame c (bitsNat (a ++ b ++ d)) (bitsNat (a' ++ b' ++ d')) ↔
        xorBits (xorBits a' b') d' = xorBits (xorBits a b) d) := by
  have hlt : n < 65535 := by unfold GoodDomain at hg; omega
  refine ⟨_, buildCircuitV2_ok dbg hlt ht, fun a b d a' b' d' ha hb hd ha' hb' hd' =>
    ⟨thr3_differ (by omega) hg (by omega) ha hb hd ha' hb' hd', fun h => ?_⟩⟩
  obtain ⟨h1, h2⟩ := thr3_same (D := n + 1) (T := t + 1) ha hb hd ha' hb' hd' h
  exact look_same (thr3_typedD (by omega) good2 hg) (inputOK_bits (k := n * 3) (by simp [ha, hb, hd]; omega) rfl)
    (inputOK_bits (k := n * 3) (by simp [ha', hb', hd']; omega) rfl) h1 h2

example := C79_masked true 3 1 (by meets) (by meets) (by meets)

/-- Passwords of one byte and of 32 bytes. -/
example : GoodDomain (8 + 1) ∧ GoodDomain (8 * 32 + 1) := by decide

/-- Two pairs with the same difference, and two with the same distance but not the same difference. -/
example : xorBits [true, false, true, true] [true, true, false, true] = xorBits [false, false, false, true] [false, true, true, true] ∧
    xorBits [true, false, true, true] [true, true, false, true] ≠ xorBits [true, true, true, true] [false, false, true, true] := by
  decide

end FP.Props
