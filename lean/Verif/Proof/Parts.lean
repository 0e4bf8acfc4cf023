import Verif.Proof.Workers
import Verif.Spec.Parts
import Mathlib.Tactic.NormNum
import Mathlib.Tactic.Linarith
/-
The number of chunks that the OT extension makes.
-/
namespace FP

open Spec

theorem ceil_eq {n k m : Nat} (hk : 0 < k) (h1 : n ≤ m * k) (h2 : m * k < n + k) : (n + k - 1) / k = m := by
  apply Nat.div_eq_of_lt_le
  · omega
  · rw [Nat.succ_mul]; omega

/-- The number of chunks. -/
theorem parts_eq {cores n : Nat} (hc : 0 < cores) (hn : 0 < n) :
    (n + n / pickThreads cores n - 1) / (n / pickThreads cores n) = parts cores n := by
  unfold pickThreads parts
  by_cases h1 : n < cores
  · rw [if_pos h1, if_pos (Or.inl h1.le), Nat.div_self hn, Nat.min_eq_left h1.le]; omega
  · rw [if_neg h1]
    by_cases h2 : cores ∣ n
    · rw [if_pos (Nat.mod_eq_zero_of_dvd h2), if_pos (Or.inr h2), Nat.min_eq_right (by omega)]
      obtain ⟨k, rfl⟩ := h2
      have hk : 0 < k := Nat.pos_of_mul_pos_left hn
      rw [Nat.mul_div_cancel_left _ hc]
      exact ceil_eq hk le_rfl (by omega)
    · rw [if_neg (fun h => h2 (Nat.dvd_of_mod_eq_zero h))]
      have h3 : ¬ (n ≤ cores ∨ cores ∣ n) := by
        rintro (h | h)
        · have : n = cores := by omega
          exact h2 (this ▸ dvd_rfl)
        · exact h2 h
      rw [if_neg h3]
      set q := n / cores with hq
      have hqp : 0 < q := Nat.div_pos (by omega) hc
      have hqn : q ≤ n := Nat.div_le_self _ _
      have hkp : 0 < n / q := Nat.div_pos hqn hqp
      have hlt : n < (q + 1) * cores := by
        have := Nat.lt_div_mul_add (a := n) hc
        rw [Nat.succ_mul]; omega
      have hle : cores ≤ n / q := by
        rw [Nat.le_div_iff_mul_le hqp, Nat.mul_comm]; exact Nat.div_mul_le_self _ _
      have hqk : q * (n / q) ≤ n := Nat.mul_div_le _ _
      by_cases h4 : q ∣ n
      · rw [if_pos h4]
        have := Nat.mul_div_cancel' h4
        exact ceil_eq hkp (by omega) (by omega)
      · rw [if_neg h4]
        refine ceil_eq hkp ?_ ?_
        · exact hlt.le.trans (Nat.mul_le_mul_left _ hle)
        · rw [Nat.succ_mul]
          have : q * (n / q) ≠ n := fun h => h4 ⟨_, h.symm⟩
          omega

/-- Jobs on chunks: the order for their number is the only one that matters. -/
theorem divides_jobs {α β : Type} (chunks : List α) (job : Nat → α → R α) (f : List α → R β)
    (hf : ∀ cs, ∃ b, f cs = .ok b) :
    DividesInto (fun orders : Nat → List Nat => runJobs (orders chunks.length) job chunks >>= f)
      chunks.length := by
  refine ⟨fun o o' h => ?_, fun _ => [], fun k => if k = chunks.length then [k] else [], fun k hk => ?_, ?_⟩
  · simp only [h]
  · simp only [if_neg hk]
  · obtain ⟨b, hb⟩ := hf chunks
    have h1 : (runJobs [] job chunks >>= f) = .ok b := hb
    have h2 : (runJobs [chunks.length] job chunks >>= f) = panicR := by
      have : idxR chunks chunks.length = panicR := by unfold idxR; simp
      unfold runJobs
      simp only [List.foldlM_cons, this]
      rfl
    simp only [if_pos, h1, h2]
    intro h; exact absurd h (by unfold panicR; simp)

theorem chunksR_length {α : Type} {v : List α} {k : Nat} (hk : 0 < k) :
    ∃ cs, chunksR v k = .ok cs ∧ cs.length = (v.length + k - 1) / k := by
  unfold chunksR
  rw [if_neg hk.ne']
  exact ⟨_, rfl, by simp⟩

/-- Rows of `len` entries, as many to a chunk as the choice of threads says. -/
theorem divides_rows {α β : Type} {cores n len : Nat} (hc : 0 < cores) (hn : 0 < n) (hl : 0 < len) (v : List α)
    (hv : v.length = n * len) (job : Nat → Nat → List α → R (List α)) (f : List (List α) → R β)
    (hf : ∀ cs, ∃ b, f cs = .ok b) :
    DividesInto (fun orders : Nat → List Nat => divR n (pickThreads cores n) >>= fun k =>
      chunksR v (k * len) >>= fun chunks => runJobs (orders chunks.length) (job k) chunks >>= f)
      (parts cores n) := by
  have hp := pick_pos hc hn
  have hk : 0 < n / pickThreads cores n := Nat.div_pos hp.2 hp.1
  obtain ⟨cs, h1, h2⟩ := chunksR_length (v := v) (Nat.mul_pos hk hl)
  rw [hv, ceil_scale hl, parts_eq hc hn] at h2
  simp only [divR_ok hp.1, okb, h1]
  rw [← h2]
  exact divides_jobs cs _ f hf

end FP
