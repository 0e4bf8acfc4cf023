import Verif.Proof.Served
import Verif.Proof.Shape
/-
Databases whose passwords have different lengths.
-/
namespace FP
open Spec

theorem zip_take {mask p : Bytes} {len : Nat} (hm : mask.length = len) :
    List.zipWith (· ^^^ ·) mask (p.take len) = List.zipWith (· ^^^ ·) mask p := by
  conv_lhs => rw [← List.take_of_length_le (l := mask) (i := len) (by omega)]
  rw [← List.take_zipWith, List.take_of_length_le]
  rw [List.length_zipWith]
  omega

theorem maskPasswords_cut {mask : Bytes} {len : Nat} {passwords : List Bytes} (hm : mask.length = len)
    (h : ∀ p ∈ passwords, len ≤ p.length) :
    maskPasswords false mask len (passwords.map (·.take len)) = maskPasswords false mask len passwords := by
  unfold maskPasswords
  rw [List.mapM_map]
  refine mapM_congr_mem fun p hp => ?_
  have h1 := h p hp
  simp only [Function.comp]
  rw [xorBytesInplace_ok _ (by simp [hm]), okb, okb, zipWith_zero' hm, xorBytesInplace_release (by simp; omega),
    xorBytesInplace_release (by omega), zip_take hm]

theorem maskPasswords_refuses {dbg : Bool} {mask : Bytes} {len : Nat} {passwords : List Bytes} (hm : mask.length = len)
    (h : ∃ p ∈ passwords, p.length < len ∨ dbg = true ∧ p.length ≠ len) (out : List Bytes) :
    maskPasswords dbg mask len passwords ≠ .ok out := by
  intro ho
  obtain ⟨p, hp, hl⟩ := h
  obtain ⟨b, hb⟩ := mapM_each ho p hp
  rw [xorBytesInplace_ok _ (by simp [hm]), okb, zipWith_zero' hm] at hb
  have hx : xorBytesInplace dbg mask p = .error .panic := by
    rcases hl with h | ⟨h, h'⟩
    · exact xorBytesInplace_short dbg (by omega)
    · unfold xorBytesInplace debugAssertR assertR
      rw [h, if_neg (by simp; omega)]
      rfl
  rw [hx] at hb
  cases hb

theorem idxR_take {p : Bytes} {len i : Nat} (hi : i < len) : idxR (p.take len) i = idxR p i := by
  unfold idxR
  rw [List.getElem?_take_of_lt hi]

theorem bitsUpTo_take (p : Bytes) (len : Nat) : bitsUpTo (p.take len) len = bitsUpTo p len := by
  unfold bitsUpTo
  refine mapM_congr_mem fun i hi => ?_
  rw [List.mem_range] at hi
  rw [idxR_take (by omega)]

theorem bitsUpTo_short {p : Bytes} {len : Nat} (h : p.length < len) (out : List Bool) : bitsUpTo p len ≠ .ok out := by
  intro ho
  obtain ⟨b, hb⟩ := mapM_each ho (8 * p.length) (List.mem_range.mpr (by omega))
  rw [show 8 * p.length / 8 = p.length by omega] at hb
  unfold idxR at hb
  rw [List.getElem?_eq_none (by omega)] at hb
  cases hb

theorem allBits_cut (passwords : List Bytes) (len : Nat) :
    allBits (passwords.map (·.take len)) len = allBits passwords len := by
  unfold allBits
  rw [List.mapM_map]
  congr 1
  exact mapM_congr_mem fun p _ => bitsUpTo_take p len

theorem encodeAll_cut (e : List (Wire × Wire)) (passwords : List Bytes) (len : Nat) :
    encodeAll e (len * 8) (passwords.map (·.take len)) = encodeAll e (len * 8) passwords := by
  unfold encodeAll
  rw [List.mapM_map]
  refine mapM_congr_mem fun p _ => ?_
  simp only [Function.comp]
  congr 1
  refine mapM_congr_mem fun i hi => ?_
  rw [List.mem_range] at hi
  rw [idxR_take (by omega)]

theorem encodeAll_short {e : List (Wire × Wire)} {passwords : List Bytes} {len : Nat}
    (h : ∃ p ∈ passwords, p.length < len) (out : List Bytes) : encodeAll e (len * 8) passwords ≠ .ok out := by
  intro ho
  obtain ⟨p, hp, hl⟩ := h
  obtain ⟨b, hb⟩ := mapM_each ho p hp
  obtain ⟨rows, hr, -⟩ := bind_inv hb
  obtain ⟨b, hb⟩ := mapM_each hr (8 * p.length) (List.mem_range.mpr (by omega))
  rw [show 8 * p.length / 8 = p.length by omega] at hb
  unfold idxR at hb
  rw [List.getElem?_eq_none (by omega)] at hb
  cases hb

end FP
