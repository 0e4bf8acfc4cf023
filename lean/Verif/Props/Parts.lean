import Verif.Proof.Witness
import Verif.Proof.Parts
import Verif.Model.Helpers
/-
C90: into how many parts the OT extension divides its work.
-/
namespace FP.Props

open Spec

/-- C90: encrypting the messages is divided into `parts` parts, whatever the keys and messages. -/
theorem C90_encrypt (X : Crypto) {cores : Nat} (hc : 0 < cores) (delta qT : Bytes)
    (msg : List (Bytes × Bytes)) (hm : 0 < msg.length) {size : Nat} (hs : 0 < size) :
    DividesInto (fun orders => apRandomize X cores orders delta qT msg size) (parts cores msg.length) :=
  divides_rows hc hm (by omega : 0 < size * 2) _ (by simp) _ _ fun cs => ⟨cs.flatten, rfl⟩

example := C90_encrypt (Witness.crypto true) (cores := 4) (by meets) (List.replicate 16 5) (List.replicate 128 3) Witness.messages
    (by meets) (size := 2) (by meets)

/-- C90: so it is in the loop with one buffer for all rows of a part. -/
theorem C90_encrypt_buffer (X : Crypto) {cores : Nat} (hc : 0 < cores) (delta qT : Bytes)
    (msg : List (Bytes × Bytes)) (hm : 0 < msg.length) {size : Nat} (hs : 0 < size) :
    DividesInto (fun orders => apRandomizeBuffer X cores orders delta qT msg size) (parts cores msg.length) :=
  divides_rows hc hm (by omega : 0 < size * 2) _ (by simp) _ _ fun cs => ⟨cs.flatten, rfl⟩

example := C90_encrypt_buffer (Witness.crypto true) (cores := 4) (by meets) (List.replicate 16 5) (List.replicate 128 3)
    Witness.messages (by meets) (size := 2) (by meets)

/-- C90: the receiver's masks. -/
theorem C90_masks (X : Crypto) {cores : Nat} (hc : 0 < cores) {l : Nat} (hl : 0 < l) (t : Bytes) :
    DividesInto (fun orders => apV X cores orders l t) (parts cores l) :=
  divides_rows hc hl (by omega : 0 < 32) _ (by simp) _ _ fun cs => ⟨cs.flatten, rfl⟩

example := C90_masks (Witness.crypto true) (cores := 6) (by meets) (l := 8) (by meets) (List.replicate 128 3)

/-- C90: decrypting the messages. -/
theorem C90_decrypt (X : Crypto) {cores : Nat} (hc : 0 < cores) (v d packed : Bytes) {n : Nat} (hn : 0 < n)
    (y : List Bytes) (hy : y.length = n) :
    DividesInto (fun orders => apDerandomize X cores orders v d packed n y) (parts cores n) := by
  have h := divides_rows (β := List Bytes) hc hn (by omega : 0 < 1) y (by omega)
    (fun k c chunk => (List.range chunk.length).foldlM (fun chunk i => do
      setR chunk i (← apDerandomizeRow X v d packed (d.length / 2 / n) (c * k + i) (← idxR chunk i))) chunk)
    (fun cs => pure cs.flatten) fun cs => ⟨cs.flatten, rfl⟩
  simp only [Nat.mul_one] at h
  simpa only [apDerandomize, divR_ok hn, okb] using h

example := C90_decrypt (Witness.crypto true) (cores := 6) (by meets) (List.replicate 256 7) (List.replicate 32 1) [9] (n := 8)
    (by meets) (List.replicate 8 [0, 0]) (by meets)

/-- C90: a number of rows that is at most the number of cores, or a multiple of it, is divided into as many
parts as there are cores, or rows if there are fewer. -/
theorem C90_even_partial {cores rows : Nat} (h : rows ≤ cores ∨ cores ∣ rows) :
    parts cores rows = min rows cores := if_pos h

example := C90_even_partial (cores := 4) (rows := 2048) (.inr (by decide))

/-- C90: there is at least one part, and never more than one for every core's worth of rows beyond that. -/
theorem C90_bounds {cores rows : Nat} (hc : 0 < cores) (hr : 0 < rows) :
    0 < parts cores rows ∧ parts cores rows ≤ max cores (rows / cores + 1) ∧ parts cores rows ≤ rows := by
  have h0 := Nat.div_le_self rows cores
  unfold parts
  by_cases h : rows ≤ cores ∨ cores ∣ rows
  · rw [if_pos h]; omega
  · rw [if_neg h]
    have h1 : cores < rows := by omega
    have h2 : 0 < rows / cores := Nat.div_pos h1.le hc
    split
    · omega
    · rename_i h3
      refine ⟨by omega, by omega, ?_⟩
      rcases Nat.lt_or_ge (rows / cores) rows with h4 | h4
      · omega
      · exact absurd (show rows / cores ∣ rows by rw [show rows / cores = rows by omega]) h3

example := C90_bounds (cores := 6) (rows := 2048) (by meets) (by meets)

/-- C90 fails: with more rows than cores, but fewer than twice as many, everything is one part. -/
theorem C90_fails_single {cores rows : Nat} (h1 : cores < rows) (h2 : rows < 2 * cores) :
    parts cores rows = 1 := by
  have hq : rows / cores = 1 := Nat.div_eq_of_lt_le (by omega) (by omega)
  have hd : ¬ cores ∣ rows := by
    rintro ⟨k, rfl⟩
    rcases k with _ | _ | k
    · omega
    · omega
    · have : cores * 2 ≤ cores * (k + 1 + 1) := Nat.mul_le_mul_left _ (by omega)
      omega
  unfold parts
  rw [if_neg (by omega), hq, if_pos (one_dvd _)]

/-- C90 fails: fewer than `cores` parts although there are more rows than cores, whenever the rows do not
divide evenly and are fewer than `cores * (cores - 1)`. -/
theorem C90_fails_fewer {cores rows : Nat} (h1 : cores < rows) (h2 : ¬ cores ∣ rows)
    (h3 : rows < cores * (cores - 1)) : parts cores rows < cores := by
  have h4 : rows / cores < cores - 1 := Nat.div_lt_of_lt_mul h3
  unfold parts
  rw [if_neg (by omega)]
  generalize rows / cores = q at h4 ⊢
  split
  · omega
  · omega

example := C90_fails_fewer (cores := 12) (rows := 16) (by meets) (by meets) (by meets)

/-- C90 fails: more parts than cores, without bound, when the rows do not divide evenly and there are many. -/
theorem C90_fails_more {cores rows : Nat} (hc : 0 < cores) (h2 : ¬ cores ∣ rows) :
    cores < rows → rows < (parts cores rows + 1) * cores := by
  intro h1
  have h3 : rows < (rows / cores + 1) * cores := by
    rw [Nat.succ_mul]; exact Nat.lt_div_mul_add hc
  unfold parts
  rw [if_neg (by omega)]
  split
  · exact h3
  · exact h3.trans_le (Nat.mul_le_mul_right _ (by omega))

/-- 2048 messages on four cores: four parts; on six cores: 342 parts; on 1100 cores: one part. -/
example : parts 4 2048 = 4 ∧ parts 6 2048 = 342 ∧ parts 1100 2048 = 1 := by decide +kernel

/-- The 16 messages of an exchange of passwords of 16 bits on 12 cores are encrypted by one worker. -/
example : parts 12 16 = 1 := C90_fails_single (by decide) (by decide)

end FP.Props
