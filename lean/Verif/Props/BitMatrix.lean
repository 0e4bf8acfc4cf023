import Verif.Proof.Bits
import Verif.Proof.Witness
/-
C16 and C17: transposition of bit matrices.
-/
namespace FP.Props
open FP.Spec

/-- C16.  Transposing a rectangular matrix of `r` rows (a positive multiple of eight) of `w` bytes
returns a rectangular matrix of `8 w` rows of `r / 8` bytes whose bit `(c, r)` is bit `(r, c)` of the
source, for every position. -/
theorem C16_transpose (m : BitMatrix) (w : Nat) (hm : m ≠ []) (hr : Rectangular m w) (h8 : 8 ∣ m.length) :
    ∃ t, m.transpose = .ok t ∧ t.length = 8 * w ∧ Rectangular t (m.length / 8) ∧
      ∀ c < 8 * w, ∀ r < m.length, rowsBit t c r = rowsBit m r c :=
  transpose_ok m w hm hr h8

example := C16_transpose (List.replicate 8 [1, 2, 3]) 3 (by decide) (by intro r hr; rw [List.eq_of_mem_replicate hr]; rfl)
    (by decide)

/-- C16.  Transposing twice gives back the matrix. -/
theorem C16_transpose_twice (m : BitMatrix) (w : Nat) (hm : m ≠ []) (hw : 0 < w) (hr : Rectangular m w)
    (h8 : 8 ∣ m.length) : ∃ t, m.transpose = .ok t ∧ BitMatrix.transpose t = .ok m := by
  obtain ⟨t, e, hl, hrt, hb⟩ := transpose_ok m w hm hr h8
  have hpos : 0 < m.length := List.length_pos_iff.mpr hm
  obtain ⟨m', e', hl', hrm, hb'⟩ := transpose_ok t (m.length / 8) (by rintro rfl; simp at hl; omega) hrt
    (by rw [hl]; exact Nat.dvd_mul_right 8 w)
  refine ⟨t, e, ?_⟩
  rw [e']
  congr 1
  rw [hl, Nat.mul_div_cancel_left _ (by decide)] at hrm
  refine rows_ext (w := w) (by omega) hrm hr ?_
  intro r h1 c h2
  rw [hb' r (by omega) c (by omega), hb c h2 r (by omega)]

example := C16_transpose_twice (List.replicate 8 [1, 2, 3]) 3 (by decide) (by decide)
    (by intro r hr; rw [List.eq_of_mem_replicate hr]; rfl) (by decide)

/-- C16.  For a rectangular matrix with at least one row and one column, transposition succeeds exactly
when the number of rows is a multiple of eight; otherwise it panics. -/
theorem C16_exact (m : BitMatrix) (w : Nat) (hm : m ≠ []) (hw : 0 < w) (hr : Rectangular m w) :
    (8 ∣ m.length → ∃ t, m.transpose = .ok t) ∧ (¬ 8 ∣ m.length → m.transpose = .error .panic) :=
  ⟨fun h => let ⟨t, e, _⟩ := transpose_ok m w hm hr h; ⟨t, e⟩, transpose_fails m w hw hr⟩

example := C16_exact [[1, 2], [3, 4], [5, 6]] 2 (by decide) (by decide) (by unfold Rectangular; decide)

/-- C16.  The empty matrix panics. -/
theorem C16_empty : BitMatrix.transpose [] = .error .panic := rfl

/-- C16.  The monochrome matrix of a list of choices: `size` rows, bit `c` of each of them being choice
`c`; trailing choices that do not fill a byte are dropped. -/
theorem C16_monochrome (choices : List Bool) (size : Nat) :
    ∃ m, monochrome choices size = .ok m ∧ m.length = size ∧ Rectangular m (choices.length / 8) ∧
      ∀ r < size, ∀ c < 8 * (choices.length / 8), some (rowsBit m r c) = choices[c]? := by
  obtain ⟨p, e, hl, hb⟩ := packChoices_ok choices
  refine ⟨List.replicate size p, ?_, by simp, ?_, ?_⟩
  · unfold monochrome; rw [e]; rfl
  · intro row h; rw [List.eq_of_mem_replicate h, hl]
  · intro r hr c hc
    have : c < choices.length := by omega
    have h2 := hb c hc
    simp only [rowsBit, List.getD_eq_getElem?_getD, List.getElem?_replicate, hr, if_true, Option.getD_some] at h2 ⊢
    rw [h2]
    simp [this]

/-- C17.  `transpose_matrix` from a source of `h` rows of `w` bytes into a zeroed target of `8 w` rows of
`W` bytes, where `h ≤ 8 W`: it stays in bounds, and bit `(c, r)` of the target is bit `(r, c)` of the source;
the target's columns beyond `h` stay zero. -/
theorem C17_transpose_matrix (source : Bytes) (h w W : Nat) (hs : source.length = h * w) (hh : h ≤ 8 * W) :
    ∃ t, transposeMatrix source (List.replicate (W * (8 * w)) 0) h w W = .ok t ∧ t.length = W * (8 * w) ∧
      (∀ c < 8 * w, ∀ r < h, flatBit t W c r = flatBit source w r c) ∧
      (∀ c < 8 * w, ∀ r, h ≤ r → r < 8 * W → flatBit t W c r = false) := by
  obtain ⟨t, e, hl, hb⟩ := transposeMatrix_ok source h w W hs hh
  refine ⟨t, e, hl, ?_, ?_⟩
  · intro c hc r hr
    rw [hb c hc r (by omega)]; simp [hr]
  · intro c hc r hr hr'
    rw [hb c hc r hr']; simp [hr]

example := C17_transpose_matrix [1, 2, 3, 4, 5, 6] 3 2 2 (by meets) (by meets)

/-- A matrix of eight rows and sixteen columns meets the hypotheses of C16, and its transpose is a
different matrix. -/
example : let m : BitMatrix := [[1, 0], [0, 0], [3, 0], [0, 0], [0, 0], [0, 9], [0, 0], [0, 255]]
    m ≠ [] ∧ Rectangular m 2 ∧ 8 ∣ m.length ∧
    m.transpose = .ok [[5], [4], [0], [0], [0], [0], [0], [0], [160], [128], [128], [160], [128], [128], [128], [128]] := by
  refine ⟨by decide, by unfold Rectangular; decide, by decide, by decide +kernel⟩

example : (transposeMatrix [1, 2, 0, 0, 3, 0, 0, 0, 0, 0, 0, 0, 0, 0, 0, 128] (List.replicate (1 * (8 * 2)) 0) 8 2 1) =
    .ok [5, 4, 0, 0, 0, 0, 0, 0, 0, 1, 0, 0, 0, 0, 0, 128] := by decide +kernel

end FP.Props
