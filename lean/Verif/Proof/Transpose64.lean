import Verif.Spec.Transpose64
import Verif.Model.Polynomial
import Verif.Proof.Bits
/-
The unused 64 by 64 transposition performs its five rounds.
-/
namespace FP
open Spec

/-- The rows handled before row `k` comes up. -/
def doneAt (j k i : Nat) : Bool := if i &&& j = 0 then decide (i < k) else decide (i - j < k)

theorem dist_next : ∀ j ∈ [16, 8, 4, 2, 1], ∀ k < 64, k &&& j = 0 →
    k + j < 64 ∧ k < (k + j + 1) - ((k + j + 1) &&& j) ∧ ((k + j + 1) - ((k + j + 1) &&& j)) ≤ 64 ∧
    ((k + j + 1) - ((k + j + 1) &&& j)) &&& j = 0 ∧ (k + j) &&& j ≠ 0 ∧
    (∀ i < 64, doneAt j ((k + j + 1) - ((k + j + 1) &&& j)) i = (doneAt j k i || i == k || i == k + j)) ∧
    doneAt j k k = false ∧ doneAt j k (k + j) = false := by
  decide +kernel

theorem dist_all : ∀ j ∈ [16, 8, 4, 2, 1], ∀ i < 64, doneAt j 64 i = true ∧ doneAt j 0 i = false := by
  decide +kernel

/-- The matrix while the round with distance `j` is under way. -/
def midRound (j : Nat) (m : BitVec 64) (M : Nat → BitVec 64) (k : Nat) (i : Nat) : BitVec 64 :=
  if doneAt j k i then transposeRound j m M i else M i

/-- A list holds the 64 rows `M`. -/
def Rows64 (l : List (BitVec 64)) (M : Nat → BitVec 64) : Prop := l.length = 64 ∧ ∀ i < 64, l[i]? = some (M i)

theorem shift_mask (x m : BitVec 64) (j : Nat) : ((x >>> j) &&& m) <<< j = x &&& (m <<< j) := by
  apply BitVec.eq_of_getLsbD_eq
  intro b hb
  simp only [BitVec.getLsbD_shiftLeft, BitVec.getLsbD_and, BitVec.getLsbD_ushiftRight]
  by_cases h : b < j
  · simp [h]
  · simp [h, hb, show j + (b - j) = b by omega]

theorem step64 {j : Nat} (hj : j ∈ [16, 8, 4, 2, 1]) (m : BitVec 64) (M : Nat → BitVec 64) {k : Nat} (hk : k < 64)
    (hz : k &&& j = 0) {l : List (BitVec 64)} (h : Rows64 l (midRound j m M k)) :
    ∃ l', transpose64Step j m k l = .ok l' ∧ Rows64 l' (midRound j m M ((k + j + 1) - ((k + j + 1) &&& j))) := by
  obtain ⟨h1, h2, h3, h4, h5, h6, h7, h8⟩ := dist_next j hj k hk hz
  obtain ⟨hl, hr⟩ := h
  have hj0 : k ≠ k + j := by
    intro e
    have : j = 0 := by omega
    subst this
    simp at hj
  have e1 : l[k]? = some (M k) := by rw [hr k hk]; simp [midRound, h7]
  have e2 : l[k + j]? = some (M (k + j)) := by rw [hr _ h1]; simp [midRound, h8]
  have i1 : idxR l k = .ok (M k) := by simp [idxR, e1]
  have i2 : idxR l (k + j) = .ok (M (k + j)) := by simp [idxR, e2]
  unfold transpose64Step
  simp only [i1, i2, okb]
  have s1 : ∀ v, setR l k v = .ok (l.set k v) := by intro v; simp [setR, hl, hk]
  simp only [s1, okb]
  have i3 : ∀ v, idxR (l.set k v) (k + j) = .ok (M (k + j)) := by
    intro v; simp [idxR, List.getElem?_set_ne hj0, e2]
  simp only [i3, okb]
  have s2 : ∀ v w, setR (l.set k v) (k + j) w = .ok ((l.set k v).set (k + j) w) := by intro v w; simp [setR, hl, h1]
  refine ⟨_, s2 _ _, by simp [hl], ?_⟩
  intro i hi
  simp only [midRound, h6 i hi]
  by_cases c1 : i = k
  · subst c1
    rw [List.getElem?_set_ne (by omega), List.getElem?_set_self (by omega)]
    simp [transposeRound, hz, ← BitVec.xor_assoc]
  · by_cases c2 : i = k + j
    · subst c2
      rw [List.getElem?_set_self (by simp; omega)]
      simp only [transposeRound, h5, if_false, beq_self_eq_true, Bool.or_true, if_true, Nat.add_sub_cancel,
        ← shift_mask]
      congr 1
      apply BitVec.eq_of_getLsbD_eq
      intro b hb
      simp only [BitVec.getLsbD_xor, BitVec.getLsbD_shiftLeft, Bool.xor_assoc]
      congr 1
      by_cases hbj : b < j <;> simp [hbj, hb]
    · rw [List.getElem?_set_ne (by omega), List.getElem?_set_ne (by omega), hr i hi]
      simp [midRound, c1, c2]

theorem inner64 {j : Nat} (hj : j ∈ [16, 8, 4, 2, 1]) (m : BitVec 64) (M : Nat → BitVec 64) (n : Nat) :
    ∀ k l, k ≤ 64 → 64 ≤ k + n → (k &&& j = 0) → Rows64 l (midRound j m M k) →
    ∃ l', transpose64Inner n j m k l = .ok l' ∧ Rows64 l' (midRound j m M 64) := by
  induction n with
  | zero =>
    intro k l h1 h2 _ h
    obtain rfl : k = 64 := by omega
    exact ⟨l, rfl, h⟩
  | succ n ih =>
    intro k l h1 h2 hz h
    unfold transpose64Inner
    by_cases hk : k < 64
    · rw [if_pos hk]
      obtain ⟨l', e, hr⟩ := step64 hj m M hk hz h
      obtain ⟨_, a2, a3, a4, _⟩ := dist_next j hj k hk hz
      rw [e, okb]
      exact ih _ _ a3 (by omega) a4 hr
    · obtain rfl : k = 64 := by omega
      rw [if_neg hk]
      exact ⟨l, rfl, h⟩

theorem round64 {j : Nat} (hj : j ∈ [16, 8, 4, 2, 1]) (m : BitVec 64) {M : Nat → BitVec 64} {l : List (BitVec 64)}
    (h : Rows64 l M) : ∃ l', transpose64Inner 64 j m 0 l = .ok l' ∧ Rows64 l' (transposeRound j m M) := by
  obtain ⟨l', e, a, b⟩ := inner64 hj m M 64 0 l (by omega) (by omega) (by simp)
    ⟨h.1, fun i hi => by rw [h.2 i hi]; simp [midRound, (dist_all j hj i hi).2]⟩
  exact ⟨l', e, a, fun i hi => by rw [b i hi]; simp [midRound, (dist_all j hj i hi).1]⟩

theorem transpose64_rounds {l : List (BitVec 64)} {M : Nat → BitVec 64} (h : Rows64 l M) :
    ∃ l', transpose64 l = .ok l' ∧ Rows64 l' (transposeRounds M) := by
  obtain ⟨l1, e1, r1⟩ := round64 (j := 16) (by simp) 0x00000000FFFFFFFF h
  obtain ⟨l2, e2, r2⟩ := round64 (j := 8) (by simp) 0x0000FFFF0000FFFF r1
  obtain ⟨l3, e3, r3⟩ := round64 (j := 4) (by simp) 0x00FF00FF00FF00FF r2
  obtain ⟨l4, e4, r4⟩ := round64 (j := 2) (by simp) 0x0F0F0F0F0F0F0F0F r3
  obtain ⟨l5, e5, r5⟩ := round64 (j := 1) (by simp) 0x3333333333333333 r4
  refine ⟨l5, ?_, r5⟩
  have m1 : (0x00000000FFFFFFFF : BitVec 64) ^^^ ((0x00000000FFFFFFFF : BitVec 64) <<< 16) = 0x0000FFFF0000FFFF := by
    decide
  have m2 : (0x0000FFFF0000FFFF : BitVec 64) ^^^ ((0x0000FFFF0000FFFF : BitVec 64) <<< 8) = 0x00FF00FF00FF00FF := by
    decide
  have m3 : (0x00FF00FF00FF00FF : BitVec 64) ^^^ ((0x00FF00FF00FF00FF : BitVec 64) <<< 4) = 0x0F0F0F0F0F0F0F0F := by
    decide
  have m4 : (0x0F0F0F0F0F0F0F0F : BitVec 64) ^^^ ((0x0F0F0F0F0F0F0F0F : BitVec 64) <<< 2) = 0x3333333333333333 := by
    decide
  unfold transpose64
  simp only [List.foldlM_cons, List.foldlM_nil, e1, okb, purek, m1, e2, m2, e3, m3, e4, m4, e5]

end FP
