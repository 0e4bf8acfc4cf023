import Verif.Props.Circuit
import Verif.Proof.Witness
/-
C64: exactly which sizes and thresholds the threshold circuits support, and what they compute beyond.
-/
namespace FP.Props
open Spec

theorem tailSum_mod (D : Nat) (u : List Bool) : tailSum D u = weight u % D := by
  unfold tailSum
  rw [← List.sum_nat_mod]
  refine congrArg (· % D) ?_
  induction u with
  | nil => rfl
  | cons b u ih =>
    have : bitsNat (b :: u) = (if b then 1 else 0) :: bitsNat u := by cases b <;> rfl
    rw [this, List.sum_cons, ih]
    rfl

/-- Two strings of `n` bits that differ in exactly the first `d` positions. -/
theorem differ_in (n d : Nat) (h : d ≤ n) :
    weight (xorBits (List.replicate d true ++ List.replicate (n - d) false) (List.replicate n false)) = d := by
  induction d generalizing n with
  | zero =>
    have : ∀ n, weight (xorBits (List.replicate n false) (List.replicate n false)) = 0 := by
      intro n
      induction n with
      | zero => rfl
      | succ n ih => simpa [List.replicate_succ, xorBits, weight] using ih
    simpa using this n
  | succ d ih =>
    obtain ⟨n, rfl⟩ : ∃ m, n = m + 1 := ⟨n - 1, by omega⟩
    have := ih n (by omega)
    simp only [List.replicate_succ, List.cons_append, xorBits, List.zipWith_cons_cons, weight]
    rw [show n + 1 - (d + 1) = n - d by omega]
    unfold xorBits at this
    rw [this]
    simp; omega

/-- A circuit with a gate that always fails. -/
theorem eval_stuck {dbg : Bool} {c : Circuit} {g : Gate} (hg : g ∈ c.gates)
    (h : ∀ w v, g.evalPlain dbg w ≠ .ok v) (inputs ws : List Nat) : c.eval dbg inputs ≠ .ok ws := by
  unfold Circuit.eval
  intro he
  have : ∀ (gs : List Gate) (w : List Nat), g ∈ gs →
      gs.foldlM (fun w g => do setR w g.output (← g.evalPlain dbg w) : List Nat → Gate → R (List Nat)) w ≠ .ok ws := by
    intro gs
    induction gs with
    | nil => simp
    | cons x gs ih =>
      intro w hm he
      rw [List.foldlM_cons] at he
      cases hx : (do setR w x.output (← x.evalPlain dbg w) : R (List Nat)) with
      | error e => rw [hx] at he; cases he
      | ok w' =>
        rw [hx, okb] at he
        rcases List.mem_cons.mp hm with rfl | hm
        · cases hv : g.evalPlain dbg w with
          | error e => rw [hv] at hx; cases hx
          | ok v => exact h w v hv
        · exact ih w' hm he
  cases hw : (inputs.zipIdx).foldlM (fun w p => setR w p.2 p.1) (List.replicate c.numWires 0) with
  | error e => rw [hw] at he; cases he
  | ok w => rw [hw, okb] at he; exact this _ _ hg he

/-- The case of no bits at all. -/
theorem plain_empty (dbg : Bool) (t : Nat) (ht : t < 65535) : DecidesHamming dbg 0 t := by
  refine ⟨_, buildCircuit_ok dbg (by omega) ht, rfl, rfl, ?_⟩
  intro a b ha hb
  obtain rfl := List.length_eq_zero_iff.mp ha
  obtain rfl := List.length_eq_zero_iff.mp hb
  have hm := meaning_thr (D := 0 + 1) (T := t + 1) ha hb
  refine ⟨by rw [hm]; simp [tailSum, xorBits, bitsNat, hamming], [0, 1], ?_, by simp [hamming]⟩
  have hp : (ProjKind.less (t + 1)).project 0 = .ok 1 := by simp [ProjKind.project]
  have e : (thrCircuit 0 (0 + 1) (t + 1)).eval dbg (bitsNat ([] ++ [])) = (do
      let w ← setR [0, 0] 0 0
      let x ← idxR w 0
      let y ← (ProjKind.less (t + 1)).project x
      setR w 1 y) := by
    rfl
  rw [e]
  show (do let y ← (ProjKind.less (t + 1)).project 0; setR [0, 0] 1 y) = _
  rw [hp]
  rfl

/-- C64: `build_circuit(n, t)` gives a circuit that decides whether two strings of `n` bits differ in at most
`t` positions, also in the plain evaluator, exactly for sizes below 65535 and thresholds below 65535. -/
theorem C64_plain_exact (dbg : Bool) (n t : Nat) (ht : t ≤ 65535) :
    DecidesHamming dbg n t ↔ n < 65535 ∧ t < 65535 := by
  constructor
  · rintro ⟨c, hc, -, -, h⟩
    have hT : t < 65535 := by
      by_contra hT
      obtain rfl : t = 65535 := by omega
      cases dbg with
      | true =>
        unfold buildCircuit at hc
        have h2 : addR true 65536 65535 1 = .error .panic := rfl
        cases h1 : addR true 65536 (n % 65536) 1 with
        | error e => rw [h1] at hc; cases hc
        | ok D => rw [h1, okb, h2] at hc; cases hc
      | false =>
        obtain ⟨D, hD⟩ : ∃ D, addR false 65536 (n % 65536) 1 = .ok D := by
          unfold addR
          split
          · exact ⟨_, rfl⟩
          · exact ⟨_, rfl⟩
        rw [buildCircuit_eq hD (T := 0) rfl] at hc
        injection hc with hc
        subst hc
        have := (h (List.replicate n false) (List.replicate n false) (by simp) (by simp)).1
        rw [meaning_thr (by simp) (by simp), hamming_eq_weight] at this
        have h0 := differ_in n 0 (by omega)
        simp only [List.replicate_zero, List.nil_append, Nat.sub_zero] at h0
        rw [h0] at this
        simp at this
    refine ⟨?_, hT⟩
    by_contra hn
    have hTe : addR dbg 65536 t 1 = .ok (t + 1) := addR_ok dbg (by omega)
    by_cases hmax : n % 65536 = 65535
    · cases dbg with
      | true =>
        unfold buildCircuit at hc
        have h1 : addR true 65536 (n % 65536) 1 = .error .panic := by rw [hmax]; rfl
        rw [h1] at hc; cases hc
      | false =>
        have h1 : addR false 65536 (n % 65536) 1 = .ok 0 := by rw [hmax]; rfl
        rw [buildCircuit_eq h1 hTe] at hc
        injection hc with hc
        subst hc
        obtain ⟨ws, hw, -⟩ := (h (List.replicate n false) (List.replicate n false) (by simp) (by simp)).2
        refine eval_stuck (g := ⟨4 * n, 0, List.range' (3 * n) n, .add⟩) ?_ ?_ _ _ hw
        · refine List.mem_append_right _ ?_
          unfold tailGates
          simp
          omega
        · intro w v hv
          unfold Gate.evalPlain at hv
          dsimp only at hv
          cases h1 : (List.range' (3 * n) n).mapM (idxR w) with
          | error e => rw [h1] at hv; cases hv
          | ok xs =>
            rw [h1, okb] at hv
            cases h2 : sumU16 false xs with
            | error e => rw [h2] at hv; cases hv
            | ok x => rw [h2, okb] at hv; cases hv
    · have hD : addR dbg 65536 (n % 65536) 1 = .ok (n % 65536 + 1) := addR_ok dbg (by omega)
      rw [buildCircuit_eq hD hTe] at hc
      injection hc with hc
      subst hc
      have key : ∀ d ≤ n, (d % (n % 65536 + 1) ≤ t ↔ d ≤ t) := by
        intro d hd
        have := (h (List.replicate d true ++ List.replicate (n - d) false) (List.replicate n false) (by simp; omega) (by simp)).1
        rw [meaning_thr (by simp; omega) (by simp), hamming_eq_weight, tailSum_mod, differ_in n d hd] at this
        by_cases h1 : d % (n % 65536 + 1) < t + 1 <;> by_cases h2 : d ≤ t <;> simp [h1, h2] at this <;> omega
      have h65 : 65536 ≤ n := by omega
      by_cases htd : t + 1 < n % 65536 + 1
      · have := key (n % 65536 + 1) (by have := Nat.mod_lt n (show 0 < 65536 by omega); omega)
        rw [Nat.mod_self] at this
        omega
      · have := key n (le_refl _)
        have := Nat.mod_lt n (show 0 < n % 65536 + 1 by omega)
        omega
  · rintro ⟨hn, ht⟩
    by_cases h0 : n = 0
    · subst h0; exact plain_empty dbg t ht
    · exact C04_threshold_circuit_partial dbg n t ⟨by omega, hn⟩ ht

example := C64_plain_exact true 64 9 (by meets)

theorem xor_zeros {n : Nat} {u : List Bool} (h : u.length = n) : xorBits u (List.replicate n false) = u := by
  induction u generalizing n with
  | nil => rfl
  | cons b u ih =>
    obtain ⟨n, rfl⟩ : ∃ m, n = m + 1 := ⟨n - 1, by simp at h; omega⟩
    have := ih (n := n) (by simpa using h)
    simp only [List.replicate_succ, xorBits, List.zipWith_cons_cons, Bool.xor_false] at *
    rw [this]

/-- The case of no bits at all. -/
theorem masked_empty (dbg : Bool) (t : Nat) (ht : t < 65535) : DecidesMasked dbg 0 t := by
  refine ⟨_, buildCircuitV2_ok dbg (by omega) ht, rfl, rfl, ?_⟩
  intro a b d ha hb hd
  obtain rfl := List.length_eq_zero_iff.mp ha
  obtain rfl := List.length_eq_zero_iff.mp hb
  obtain rfl := List.length_eq_zero_iff.mp hd
  have hm := meaning_thr3 (D := 0 + 1) (T := t + 1) ha hb hd
  refine ⟨by rw [hm]; simp [tailSum, xorBits, bitsNat, weight], [0, 1], ?_, by simp [weight, xorBits]⟩
  have hp : (ProjKind.less (t + 1)).project 0 = .ok 1 := by simp [ProjKind.project]
  have e : (thrCircuit3 0 (0 + 1) (t + 1)).eval dbg (bitsNat ([] ++ [] ++ [])) = (do
      let w ← setR [0, 0] 0 0
      let x ← idxR w 0
      let y ← (ProjKind.less (t + 1)).project x
      setR w 1 y) := by
    rfl
  rw [e]
  show (do let y ← (ProjKind.less (t + 1)).project 0; setR [0, 0] 1 y) = _
  rw [hp]
  rfl

/-- C64: the same for `build_circuit_v2(n, t)`, the sum of three strings and at most `t` ones. -/
theorem C64_masked_exact (dbg : Bool) (n t : Nat) (ht : t ≤ 65535) :
    DecidesMasked dbg n t ↔ n < 65535 ∧ t < 65535 := by
  constructor
  · rintro ⟨c, hc, -, -, h⟩
    have hT : t < 65535 := by
      by_contra hT
      obtain rfl : t = 65535 := by omega
      cases dbg with
      | true =>
        unfold buildCircuitV2 at hc
        have h2 : addR true 65536 65535 1 = .error .panic := rfl
        cases h1 : addR true 65536 (n % 65536) 1 with
        | error e => rw [h1] at hc; cases hc
        | ok D => rw [h1, okb, h2] at hc; cases hc
      | false =>
        obtain ⟨D, hD⟩ : ∃ D, addR false 65536 (n % 65536) 1 = .ok D := by
          unfold addR
          split
          · exact ⟨_, rfl⟩
          · exact ⟨_, rfl⟩
        rw [buildCircuitV2_eq hD (T := 0) rfl] at hc
        injection hc with hc
        subst hc
        have := (h (List.replicate n false) (List.replicate n false) (List.replicate n false) (by simp) (by simp) (by simp)).1
        rw [meaning_thr3 (by simp) (by simp) (by simp), xor_zeros (by simp [xorBits])] at this
        have h0 := differ_in n 0 (by omega)
        simp only [List.replicate_zero, List.nil_append, Nat.sub_zero] at h0
        rw [h0] at this
        simp at this
    refine ⟨?_, hT⟩
    by_contra hn
    have hTe : addR dbg 65536 t 1 = .ok (t + 1) := addR_ok dbg (by omega)
    by_cases hmax : n % 65536 = 65535
    · cases dbg with
      | true =>
        unfold buildCircuitV2 at hc
        have h1 : addR true 65536 (n % 65536) 1 = .error .panic := by rw [hmax]; rfl
        rw [h1] at hc; cases hc
      | false =>
        have h1 : addR false 65536 (n % 65536) 1 = .ok 0 := by rw [hmax]; rfl
        rw [buildCircuitV2_eq h1 hTe] at hc
        injection hc with hc
        subst hc
        obtain ⟨ws, hw, -⟩ := (h (List.replicate n false) (List.replicate n false) (List.replicate n false) (by simp) (by simp) (by simp)).2
        refine eval_stuck (g := ⟨5 * n, 0, List.range' (4 * n) n, .add⟩) ?_ ?_ _ _ hw
        · refine List.mem_append_right _ ?_
          unfold tailGates
          simp
          omega
        · intro w v hv
          unfold Gate.evalPlain at hv
          dsimp only at hv
          cases h1 : (List.range' (4 * n) n).mapM (idxR w) with
          | error e => rw [h1] at hv; cases hv
          | ok xs =>
            rw [h1, okb] at hv
            cases h2 : sumU16 false xs with
            | error e => rw [h2] at hv; cases hv
            | ok x => rw [h2, okb] at hv; cases hv
    · have hD : addR dbg 65536 (n % 65536) 1 = .ok (n % 65536 + 1) := addR_ok dbg (by omega)
      rw [buildCircuitV2_eq hD hTe] at hc
      injection hc with hc
      subst hc
      have key : ∀ d ≤ n, (d % (n % 65536 + 1) ≤ t ↔ d ≤ t) := by
        intro d hd
        have := (h (List.replicate d true ++ List.replicate (n - d) false) (List.replicate n false) (List.replicate n false) (by simp; omega) (by simp) (by simp)).1
        rw [meaning_thr3 (by simp; omega) (by simp) (by simp), xor_zeros (by simp [xorBits]; omega), tailSum_mod, differ_in n d hd] at this
        by_cases h1 : d % (n % 65536 + 1) < t + 1 <;> by_cases h2 : d ≤ t <;> simp [h1, h2] at this <;> omega
      have h65 : 65536 ≤ n := by omega
      by_cases htd : t + 1 < n % 65536 + 1
      · have := key (n % 65536 + 1) (by have := Nat.mod_lt n (show 0 < 65536 by omega); omega)
        rw [Nat.mod_self] at this
        omega
      · have := key n (le_refl _)
        have := Nat.mod_lt n (show 0 < n % 65536 + 1 by omega)
        omega
  · rintro ⟨hn, ht⟩
    by_cases h0 : n = 0
    · subst h0; exact masked_empty dbg t ht
    · exact C05_masked_circuit_partial dbg n t ⟨by omega, hn⟩ ht

example := C64_masked_exact true 64 9 (by meets)

/-- C64, larger sizes: the circuits count the differences modulo the truncated size plus one.  In a release
build on sizes of `65535` modulo `65536` this modulus is zero, and a debug build panics there. -/
theorem C64_long (dbg : Bool) (n t : Nat) (hn : n % 65536 ≠ 65535) (ht : t < 65535) :
    (∃ c, buildCircuit dbg n t = .ok c ∧ ∀ a b : List Bool, a.length = n → b.length = n →
      meaning c (bitsNat (a ++ b)) = [if hamming a b % (n % 65536 + 1) ≤ t then 1 else 0]) ∧
    (∃ c, buildCircuitV2 dbg n t = .ok c ∧ ∀ a b d : List Bool, a.length = n → b.length = n → d.length = n →
      meaning c (bitsNat (a ++ b ++ d)) = [if weight (xorBits (xorBits a b) d) % (n % 65536 + 1) ≤ t then 1 else 0]) := by
  have hD : addR dbg 65536 (n % 65536) 1 = .ok (n % 65536 + 1) := addR_ok dbg (by omega)
  have hT : addR dbg 65536 t 1 = .ok (t + 1) := addR_ok dbg (by omega)
  refine ⟨⟨_, buildCircuit_eq hD hT, fun a b ha hb => ?_⟩, ⟨_, buildCircuitV2_eq hD hT, fun a b d ha hb hd => ?_⟩⟩
  · rw [meaning_thr ha hb, tailSum_mod, hamming_eq_weight]
    simp [Nat.lt_succ_iff]
  · rw [meaning_thr3 ha hb hd, tailSum_mod]
    simp [Nat.lt_succ_iff]

example := C64_long true 70000 9 (by meets) (by meets)

/-- C64, sizes of 65535 modulo 65536: a debug build panics, a release build makes a circuit that the plain
evaluator cannot evaluate on any input. -/
theorem C64_zero_modulus (n t : Nat) (hn : n % 65536 = 65535) (ht : t < 65535) :
    (buildCircuit true n t = .error .panic ∧
      ∃ c, buildCircuit false n t = .ok c ∧ ∀ inputs ws, c.eval false inputs ≠ .ok ws) ∧
    (buildCircuitV2 true n t = .error .panic ∧
      ∃ c, buildCircuitV2 false n t = .ok c ∧ ∀ inputs ws, c.eval false inputs ≠ .ok ws) := by
  have h1 : addR true 65536 (n % 65536) 1 = .error .panic := by rw [hn]; rfl
  have h2 : addR false 65536 (n % 65536) 1 = .ok 0 := by rw [hn]; rfl
  have hT : addR false 65536 t 1 = .ok (t + 1) := addR_ok false (by omega)
  have stuck : ∀ (p : Nat) (w : List Nat) v,
      (⟨p + 2 * n, 0, List.range' (p + n) n, .add⟩ : Gate).evalPlain false w ≠ .ok v := by
    intro p w v hv
    unfold Gate.evalPlain at hv
    dsimp only at hv
    cases h1 : (List.range' (p + n) n).mapM (idxR w) with
    | error e => rw [h1] at hv; cases hv
    | ok xs =>
      rw [h1, okb] at hv
      cases h2 : sumU16 false xs with
      | error e => rw [h2] at hv; cases hv
      | ok x => rw [h2, okb] at hv; cases hv
  refine ⟨⟨by unfold buildCircuit; rw [h1]; rfl, _, buildCircuit_eq h2 hT, ?_⟩,
    by unfold buildCircuitV2; rw [h1]; rfl, _, buildCircuitV2_eq h2 hT, ?_⟩
  · intro inputs ws
    refine eval_stuck (List.mem_append_right _ ?_) (stuck (2 * n)) _ _
    unfold tailGates
    simp
  · intro inputs ws
    refine eval_stuck (List.mem_append_right _ ?_) (stuck (3 * n)) _ _
    unfold tailGates
    simp

example := C64_zero_modulus 65535 9 (by meets) (by meets)

/-! ### The cases occur -/

example : DecidesHamming false 2048 102 ∧ ¬ DecidesHamming false 65535 102 ∧ ¬ DecidesHamming true 70000 102 :=
  ⟨(C64_plain_exact _ _ _ (by omega)).mpr ⟨by omega, by omega⟩,
    fun h => by have := ((C64_plain_exact _ _ _ (by omega)).mp h).1; omega,
    fun h => by have := ((C64_plain_exact _ _ _ (by omega)).mp h).1; omega⟩

example : (70000 : Nat) % 65536 ≠ 65535 ∧ (131071 : Nat) % 65536 = 65535 := by decide

end FP.Props
