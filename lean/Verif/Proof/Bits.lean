import Verif.Model.BitMatrix
import Verif.Spec.Bits
import Verif.Proof.Monad
import Verif.Proof.Util
import Mathlib.Tactic.Ring
/-
Bit-level lemmas: single-bit writes and the loops made of them.
-/
namespace FP
open Spec

/-! ### Folds -/

theorem foldlM_pre {σ ι : Type} (f : σ → ι → R σ) (l : List ι) (I : List ι → σ → Prop) (s0 : σ) (h0 : I [] s0)
    (hstep : ∀ pre i s, i ∈ l → I pre s → ∃ s', f s i = .ok s' ∧ I (pre ++ [i]) s') :
    ∃ s, l.foldlM f s0 = .ok s ∧ I l s := by
  suffices h : ∀ (l' pre : List ι) (s : σ), (∀ i ∈ l', i ∈ l) → I pre s →
      ∃ s', l'.foldlM f s = .ok s' ∧ I (pre ++ l') s' by
    simpa using h l [] s0 (fun _ h => h) h0
  intro l'
  induction l' with
  | nil => intro pre s _ h; exact ⟨s, rfl, by simpa using h⟩
  | cons i l' ih =>
    intro pre s hm h
    obtain ⟨s1, e1, h1⟩ := hstep pre i s (hm i (by simp)) h
    obtain ⟨s2, e2, h2⟩ := ih (pre ++ [i]) s1 (fun j hj => hm j (by simp [hj])) h1
    refine ⟨s2, ?_, by simpa using h2⟩
    rw [List.foldlM_cons, e1, okb, e2]

theorem foldlM_flat {σ ι κ : Type} (l : List ι) (g : ι → List κ) (f : σ → κ → R σ) (s : σ) :
    l.foldlM (fun s a => (g a).foldlM f s) s = (l.flatMap g).foldlM f s := by
  induction l generalizing s with
  | nil => rfl
  | cons a l ih =>
    rw [List.foldlM_cons, List.flatMap_cons, List.foldlM_append]
    congr 1
    funext s'
    exact ih s'

theorem foldlM_congr' {σ ι : Type} (f g : σ → ι → R σ) (l : List ι) (s : σ)
    (h : ∀ i ∈ l, ∀ s, f s i = g s i) : l.foldlM f s = l.foldlM g s := by
  induction l generalizing s with
  | nil => rfl
  | cons a l ih =>
    rw [List.foldlM_cons, List.foldlM_cons, h a (by simp) s]
    congr 1
    funext s'
    exact ih s' (fun i hi => h i (by simp [hi]))

theorem foldlM_map' {σ ι κ : Type} (l : List ι) (g : ι → κ) (f : σ → κ → R σ) (s : σ) :
    l.foldlM (fun s a => f s (g a)) s = (l.map g).foldlM f s := by
  induction l generalizing s with
  | nil => rfl
  | cons a l ih =>
    rw [List.foldlM_cons, List.map_cons, List.foldlM_cons]
    congr 1
    funext s'
    exact ih s'

/-! ### Bits of byte strings -/

theorem bitAt_ge {bs : Bytes} {k : Nat} (h : 8 * bs.length ≤ k) : bitAt bs k = false := by
  unfold bitAt
  rw [show bs.getD (k / 8) 0 = 0 by simp [List.getD, List.getElem?_eq_none (show bs.length ≤ k / 8 by omega)]]
  simp

theorem bitAt_replicate (n k : Nat) : bitAt (List.replicate n 0) k = false := by
  by_cases h : k / 8 < n
  · simp [bitAt, List.getD, h]
  · exact bitAt_ge (by simp; omega)

theorem bytes_ext {a b : Bytes} (hl : a.length = b.length) (h : ∀ k < 8 * a.length, bitAt a k = bitAt b k) :
    a = b := by
  apply List.ext_getElem hl
  intro k h1 h2
  apply BitVec.eq_of_getLsbD_eq
  intro j hj
  have := h (8 * k + j) (by omega)
  unfold bitAt at this
  rw [show (8 * k + j) / 8 = k by omega, show (8 * k + j) % 8 = j by omega] at this
  simpa [h1, h2] using this

theorem bitAt_xor (a b : Bytes) (hl : a.length = b.length) (k : Nat) :
    bitAt (List.zipWith (· ^^^ ·) a b) k = (bitAt a k ^^ bitAt b k) := by
  by_cases h : k / 8 < a.length
  · have h' : k / 8 < b.length := by omega
    simp [bitAt, h, h']
  · rw [bitAt_ge (by simp; omega), bitAt_ge (by omega), bitAt_ge (by omega)]; rfl

/-- A row of a flat matrix. -/
theorem bitAt_row (m : Bytes) (width r c : Nat) (hc : c < 8 * width) :
    bitAt ((m.drop (width * r)).take width) c = flatBit m width r c := by
  unfold flatBit bitAt
  have e1 : (8 * width * r + c) / 8 = width * r + c / 8 := by
    rw [Nat.mul_assoc, Nat.mul_add_div (by omega)]
  have e2 : (8 * width * r + c) % 8 = c % 8 := by
    rw [Nat.mul_assoc, Nat.mul_add_mod]
  rw [e1, e2]
  congr 1
  simp [List.getD, List.getElem?_take, show c / 8 < width by omega, List.getElem?_drop]

/-! ### Writing one bit -/

theorem bit_shift (x : Byte) (b s : Nat) (hs : s < 8) (j : Nat) :
    (((x >>> b) &&& 1) <<< s).getLsbD j = (decide (j = s) && x.getLsbD b) := by
  rw [BitVec.getLsbD_shiftLeft, BitVec.getLsbD_and, BitVec.getLsbD_ushiftRight]
  by_cases h : j = s
  · subst h; simp [hs]
  · simp only [h, decide_false, Bool.false_and]
    by_cases h1 : j < s
    · simp [h1]
    · simp [show ¬ j - s = 0 by omega]

theorem orAt_ok {v : Bytes} {i : Nat} (hi : i < v.length) (x : Byte) (s : Nat) (hs : s < 8) (bit : Bool)
    (hx : ∀ j, x.getLsbD j = (decide (j = s) && bit)) :
    ∃ w, orAt v i x = .ok w ∧ w.length = v.length ∧
      ∀ k, bitAt w k = (bitAt v k || (decide (k = 8 * i + s) && bit)) := by
  refine ⟨v.set i (v[i] ||| x), ?_, by simp, ?_⟩
  · unfold orAt
    rw [idxR_ok (a := v[i]) (by simp), okb]
    simp [setR, hi]
  · intro k
    unfold bitAt
    by_cases h : k / 8 = i
    · rw [h]
      simp only [List.getD_eq_getElem?_getD, List.getElem?_set_self hi, Option.getD_some, List.getElem?_eq_getElem hi,
        BitVec.getLsbD_or, hx]
      congr 2
      simp only [decide_eq_decide]
      omega
    · simp only [List.getD_eq_getElem?_getD, List.getElem?_set_ne (Ne.symm h)]
      rw [show decide (k = 8 * i + s) = false by simp; omega]
      simp

theorem idxR_getD {v : Bytes} {i : Nat} (h : i < v.length) : idxR v i = .ok (v.getD i 0) := by
  simp [idxR, List.getD, h]

theorem getLsbD_getD (v : Bytes) (i b : Nat) (hb : b < 8) : (v.getD i 0).getLsbD b = bitAt v (8 * i + b) := by
  unfold bitAt
  rw [show (8 * i + b) / 8 = i by omega, show (8 * i + b) % 8 = b by omega]

/-! ### The flat transposition -/

/-- The order in which the transpositions visit the source. -/
def tpos (h w : Nat) : List (Nat × Nat × Nat) :=
  (List.range h).flatMap fun r => (List.range w).flatMap fun c => (List.range 8).map fun b => (r, c, b)

theorem mem_tpos {h w r c b : Nat} : (r, c, b) ∈ tpos h w ↔ r < h ∧ c < w ∧ b < 8 := by
  simp [tpos]

theorem transposeMatrix_eq (source target : Bytes) (h w W : Nat) (hs : source.length = h * w) :
    transposeMatrix source target h w W =
      (tpos h w).foldlM (fun t p =>
        orAt t (index1d (p.2.1 * 8 + p.2.2) (p.1 / 8) W)
          ((((source.getD (index1d p.1 p.2.1 w) 0 : Byte) >>> p.2.2 : Byte) &&& 1 : Byte) <<< (p.1 % 8) : Byte)) target := by
  unfold transposeMatrix tpos
  rw [← foldlM_flat]
  apply foldlM_congr'
  intro r hr t
  rw [← foldlM_flat]
  apply foldlM_congr'
  intro c hc t
  rw [List.mem_range] at hr hc
  have hlt : index1d r c w < source.length := by
    rw [hs]; unfold index1d
    have : w * (r + 1) ≤ w * h := Nat.mul_le_mul_left _ hr
    rw [Nat.mul_add, Nat.mul_comm w h] at this
    omega
  rw [idxR_getD hlt, okb, ← foldlM_map']

theorem transposeMatrix_ok (source : Bytes) (h w W : Nat) (hs : source.length = h * w) (hh : h ≤ 8 * W) :
    ∃ t, transposeMatrix source (List.replicate (W * (8 * w)) 0) h w W = .ok t ∧ t.length = W * (8 * w) ∧
      ∀ c < 8 * w, ∀ r < 8 * W, flatBit t W c r = (decide (r < h) && flatBit source w r c) := by
  rw [transposeMatrix_eq source _ h w W hs]
  obtain ⟨t, e, hlen, hbits⟩ := foldlM_pre
    (fun (t : Bytes) (p : Nat × Nat × Nat) =>
        orAt t (index1d (p.2.1 * 8 + p.2.2) (p.1 / 8) W)
          ((((source.getD (index1d p.1 p.2.1 w) 0 : Byte) >>> p.2.2 : Byte) &&& 1 : Byte) <<< (p.1 % 8) : Byte))
    (tpos h w)
    (fun pre t => t.length = W * (8 * w) ∧ ∀ k, bitAt t k =
      pre.any fun p => decide (k = 8 * W * (p.2.1 * 8 + p.2.2) + p.1) && flatBit source w p.1 (8 * p.2.1 + p.2.2))
    (List.replicate (W * (8 * w)) 0)
    ⟨by simp, by intro k; rw [bitAt_replicate]; simp⟩
    (by
      rintro pre ⟨r, c, b⟩ t hm ⟨hl, hb⟩
      rw [mem_tpos] at hm
      obtain ⟨hr, hc, hb8⟩ := hm
      dsimp only
      have hidx : index1d (c * 8 + b) (r / 8) W < t.length := by
        rw [hl]; unfold index1d
        have : W * (c * 8 + b + 1) ≤ W * (8 * w) := Nat.mul_le_mul_left _ (by omega)
        rw [Nat.mul_add] at this
        omega
      obtain ⟨t', e, hl', hb'⟩ := orAt_ok hidx
        ((((source.getD (index1d r c w) 0 : Byte) >>> b : Byte) &&& 1 : Byte) <<< (r % 8) : Byte) (r % 8) (by omega)
        ((source.getD (index1d r c w) 0).getLsbD b) (fun j => bit_shift _ b _ (by omega) j)
      refine ⟨t', e, by omega, fun k => ?_⟩
      rw [hb' k, hb k, List.any_append]
      simp only [List.any_cons, List.any_nil, Bool.or_false]
      congr 1
      rw [getLsbD_getD _ _ _ hb8]
      congr 1
      · rw [decide_eq_decide]
        unfold index1d
        have : 8 * (W * (c * 8 + b) + r / 8) + r % 8 = 8 * W * (c * 8 + b) + r := by
          rw [Nat.mul_add, Nat.mul_assoc]; omega
        rw [this]
      · unfold flatBit index1d
        congr 1
        rw [Nat.mul_add, Nat.mul_assoc]; omega)
  refine ⟨t, e, hlen, fun c hc r hr => ?_⟩
  unfold flatBit
  rw [hbits]
  rw [Bool.eq_iff_iff, List.any_eq_true]
  constructor
  · rintro ⟨⟨r', c', b'⟩, hm, he⟩
    rw [mem_tpos] at hm
    obtain ⟨hr', hc', hb'⟩ := hm
    simp only [Bool.and_eq_true, decide_eq_true_eq] at he
    obtain ⟨h1, h2⟩ := he
    have hW : 0 < 8 * W := by omega
    have hcc : c = c' * 8 + b' := by
      have e1 : (8 * W * c + r) / (8 * W) = c := by
        rw [Nat.mul_add_div hW, Nat.div_eq_of_lt hr, Nat.add_zero]
      have e2 : (8 * W * (c' * 8 + b') + r') / (8 * W) = c' * 8 + b' := by
        rw [Nat.mul_add_div hW, Nat.div_eq_of_lt (by omega), Nat.add_zero]
      rw [← e1, h1, e2]
    have hrr : r = r' := by
      rw [hcc] at h1; omega
    simp only [Bool.and_eq_true, decide_eq_true_eq]
    refine ⟨by omega, ?_⟩
    rw [hrr, hcc, show c' * 8 + b' = 8 * c' + b' by omega]
    exact h2
  · intro he
    simp only [Bool.and_eq_true, decide_eq_true_eq] at he
    refine ⟨(r, c / 8, c % 8), mem_tpos.mpr ⟨he.1, by omega, by omega⟩, ?_⟩
    simp only [Bool.and_eq_true, decide_eq_true_eq]
    refine ⟨by rw [show c / 8 * 8 + c % 8 = c by omega], ?_⟩
    rw [show 8 * (c / 8) + c % 8 = c by omega]
    exact he.2


/-! ### The transposition of a list of rows -/

theorem orAt2_ok {raw : List Bytes} {i c : Nat} {row : Bytes} (hi : raw[i]? = some row) (hc : c < row.length)
    (x : Byte) (s : Nat) (hs : s < 8) (bit : Bool)
    (hx : ∀ j, x.getLsbD j = (decide (j = s) && bit)) :
    ∃ raw' row', orAt2 raw i c x = .ok raw' ∧ raw' = raw.set i row' ∧ row'.length = row.length ∧
      ∀ k, bitAt row' k = (bitAt row k || (decide (k = 8 * c + s) && bit)) := by
  obtain ⟨row', e, hl, hb⟩ := orAt_ok hc x s hs bit hx
  refine ⟨raw.set i row', row', ?_, rfl, hl, hb⟩
  unfold orAt2
  rw [idxR_ok hi, okb, e, okb]
  have : i < raw.length := (List.getElem?_eq_some_iff.mp hi).1
  simp [setR, this]

/-- One step of the transposition, with the source byte already read. -/
def tstep (m : BitMatrix) (raw : List Bytes) (p : Nat × Nat × Nat) : R (List Bytes) :=
  orAt2 raw (p.2.1 * 8 + p.2.2) (p.1 / 8)
    ((((((m.getD p.1 []).getD p.2.1 0 : Byte) >>> p.2.2 : Byte) &&& 1 : Byte) <<< (p.1 % 8)) : Byte)

theorem transpose_eq (m : BitMatrix) (w : Nat) (hm : m ≠ []) (hr : Rectangular m w) :
    m.transpose = (tpos m.length w).foldlM (tstep m)
      (List.replicate (8 * w) (List.replicate (m.length / 8) 0)) := by
  obtain ⟨r0, rs, rfl⟩ := List.exists_cons_of_ne_nil hm
  have h0 : r0.length = w := hr r0 (by simp)
  unfold BitMatrix.transpose BitMatrix.dims
  simp only [idxR, List.getElem?_cons_zero, okb, purek, h0, Nat.mul_comm w 8]
  unfold tpos
  rw [← foldlM_flat]
  apply foldlM_congr'
  intro r hrr t
  rw [← foldlM_flat, show 8 * w / 8 = w by omega]
  apply foldlM_congr'
  intro c hc t
  rw [List.mem_range] at hrr hc
  have e1 : (r0 :: rs)[r]? = some ((r0 :: rs)[r]) := List.getElem?_eq_getElem hrr
  have hl : ((r0 :: rs)[r]).length = w := hr _ (List.getElem_mem hrr)
  rw [e1]
  simp only [okb]
  have e2 : ((r0 :: rs)[r])[c]? = some (((r0 :: rs)[r])[c]'(by omega)) := List.getElem?_eq_getElem _
  rw [e2]
  simp only [okb]
  rw [← foldlM_map']
  apply foldlM_congr'
  intro b _ t
  have : ((r0 :: rs).getD r []).getD c 0 = ((r0 :: rs)[r])[c]'(by omega) := by
    simp only [List.getD_eq_getElem?_getD, e1, Option.getD_some, e2]
  unfold tstep
  dsimp only
  rw [this]

theorem transpose_ok (m : BitMatrix) (w : Nat) (hm : m ≠ []) (hr : Rectangular m w) (h8 : 8 ∣ m.length) :
    ∃ t, m.transpose = .ok t ∧ t.length = 8 * w ∧ Rectangular t (m.length / 8) ∧
      ∀ c < 8 * w, ∀ r < m.length, rowsBit t c r = rowsBit m r c := by
  rw [transpose_eq m w hm hr]
  obtain ⟨t, e, hlen, hrect, hbits⟩ := foldlM_pre (tstep m) (tpos m.length w)
    (fun pre t => t.length = 8 * w ∧ Rectangular t (m.length / 8) ∧ ∀ c k, rowsBit t c k =
      pre.any fun p => decide (c = 8 * p.2.1 + p.2.2) && decide (k = p.1) && rowsBit m p.1 (8 * p.2.1 + p.2.2))
    (List.replicate (8 * w) (List.replicate (m.length / 8) 0))
    ⟨by simp, by intro row h; rw [List.eq_of_mem_replicate h]; simp, by
      intro c k
      simp only [rowsBit, List.any_nil]
      by_cases h : c < 8 * w
      · simpa [List.getD, h] using bitAt_replicate _ k
      · simp [List.getD, h, bitAt]⟩
    (by
      rintro pre ⟨r, c, b⟩ t hmem ⟨hl, hrt, hb⟩
      rw [mem_tpos] at hmem
      obtain ⟨hrr, hc, hb8⟩ := hmem
      have hi : c * 8 + b < t.length := by omega
      have hrow : t[c * 8 + b]? = some (t[c * 8 + b]) := List.getElem?_eq_getElem hi
      have hrl : (t[c * 8 + b]).length = m.length / 8 := hrt _ (List.getElem_mem hi)
      obtain ⟨raw', row', e, hset, hl', hbit⟩ := orAt2_ok hrow (c := r / 8) (by omega)
        ((((((m.getD r []).getD c 0 : Byte) >>> b : Byte) &&& 1 : Byte) <<< (r % 8)) : Byte)
        (r % 8) (by omega) (((m.getD r []).getD c 0).getLsbD b) (fun j => bit_shift _ b _ (by omega) j)
      refine ⟨raw', e, by simp [hset, hl], ?_, fun c' k => ?_⟩
      · rw [hset]
        intro row hrow
        rcases List.mem_or_eq_of_mem_set hrow with h | h
        · exact hrt _ h
        · rw [h]; omega
      · rw [List.any_append, ← hb c' k]
        simp only [List.any_cons, List.any_nil, Bool.or_false]
        rw [getLsbD_getD _ _ _ hb8] at hbit
        unfold rowsBit
        rw [hset]
        by_cases h : c' = c * 8 + b
        · subst h
          simp only [List.getD_eq_getElem?_getD, List.getElem?_set_self hi, Option.getD_some, hrow]
          rw [hbit]
          rw [show 8 * (r / 8) + r % 8 = r by omega, show (decide (c * 8 + b = 8 * c + b)) = true by simp; omega]
          simp only [Bool.true_and, List.getD_eq_getElem?_getD]
        · rw [show (decide (c' = 8 * c + b)) = false by simp; omega]
          simp only [List.getD_eq_getElem?_getD, List.getElem?_set_ne (Ne.symm h), Bool.false_and, Bool.or_false])
  refine ⟨t, e, hlen, hrect, fun c hc r hrr => ?_⟩
  rw [hbits, Bool.eq_iff_iff, List.any_eq_true]
  constructor
  · rintro ⟨⟨r', c', b'⟩, _, he⟩
    simp only [Bool.and_eq_true, decide_eq_true_eq] at he
    rw [he.1.1, he.1.2]
    exact he.2
  · intro he
    refine ⟨(r, c / 8, c % 8), mem_tpos.mpr ⟨hrr, by omega, by omega⟩, ?_⟩
    simp only [Bool.and_eq_true, decide_eq_true_eq]
    refine ⟨⟨by omega, trivial⟩, ?_⟩
    rw [show 8 * (c / 8) + c % 8 = c by omega]
    exact he

theorem foldlM_fails {σ ι : Type} (f : σ → ι → R σ) (l : List ι) (J : σ → Prop) (e : Fault) (s0 : σ) (h0 : J s0)
    (hstep : ∀ i ∈ l, ∀ s, J s → f s i = .error e ∨ ∃ s', f s i = .ok s' ∧ J s')
    (i : ι) (hi : i ∈ l) (hbad : ∀ s, J s → f s i = .error e) : l.foldlM f s0 = .error e := by
  induction l generalizing s0 with
  | nil => simp at hi
  | cons a l ih =>
    rw [List.foldlM_cons]
    rcases hstep a (by simp) s0 h0 with h | ⟨s', h, hj⟩
    · rw [h]; rfl
    · rw [h, okb]
      rcases List.mem_cons.mp hi with rfl | hi'
      · rw [hbad s0 h0] at h; cases h
      · exact ih s' hj (fun i hi => hstep i (by simp [hi])) hi'

theorem orAt2_shape {raw : List Bytes} {i c n : Nat} (x : Byte) (hr : Rectangular raw n) (hi : i < raw.length) :
    (n ≤ c ∧ orAt2 raw i c x = .error .panic) ∨
      (c < n ∧ ∃ raw', orAt2 raw i c x = .ok raw' ∧ raw'.length = raw.length ∧ Rectangular raw' n) := by
  have hrow : raw[i]? = some (raw[i]) := List.getElem?_eq_getElem hi
  have hl : (raw[i]).length = n := hr _ (List.getElem_mem hi)
  unfold orAt2 orAt
  rw [idxR_ok hrow]
  simp only [okb]
  by_cases hc : c < n
  · right
    refine ⟨hc, raw.set i ((raw[i]).set c ((raw[i])[c] ||| x)), ?_, by simp, ?_⟩
    · rw [idxR_ok (a := (raw[i])[c]) (List.getElem?_eq_getElem (by omega))]
      simp [okb, setR, hl, hc, hi]
    · intro row h
      rcases List.mem_or_eq_of_mem_set h with h | h
      · exact hr _ h
      · rw [h]; simpa using hl
  · left
    refine ⟨by omega, ?_⟩
    simp only [idxR, List.getElem?_eq_none (show (raw[i]).length ≤ c by omega)]
    rfl

theorem transpose_fails (m : BitMatrix) (w : Nat) (hw : 0 < w) (hr : Rectangular m w) (h8 : ¬ 8 ∣ m.length) :
    m.transpose = .error .panic := by
  have hm : m ≠ [] := by rintro rfl; simp at h8
  rw [transpose_eq m w hm hr]
  apply foldlM_fails (tstep m) (tpos m.length w) (fun t => t.length = 8 * w ∧ Rectangular t (m.length / 8))
    .panic _ _ _ (8 * (m.length / 8), 0, 0)
  · rw [mem_tpos]; omega
  · rintro s ⟨h1, h2⟩
    unfold tstep
    dsimp only
    rcases orAt2_shape (i := 0 * 8 + 0) (c := 8 * (m.length / 8) / 8) (raw := s)
      ((((((m.getD (8 * (m.length / 8)) []).getD 0 0 : Byte) >>> 0 : Byte) &&& 1 : Byte) <<<
        (8 * (m.length / 8) % 8)) : Byte) h2 (by omega) with h | h
    · exact h.2
    · omega
  · exact ⟨by simp, by intro row h; rw [List.eq_of_mem_replicate h]; simp⟩
  · rintro ⟨r, c, b⟩ hmem s ⟨h1, h2⟩
    rw [mem_tpos] at hmem
    unfold tstep
    dsimp only
    rcases orAt2_shape (i := c * 8 + b) (c := r / 8) (raw := s)
      ((((((m.getD r []).getD c 0 : Byte) >>> b : Byte) &&& 1 : Byte) <<< (r % 8)) : Byte) h2 (by omega) with h | h
    · exact .inl h.2
    · obtain ⟨_, raw', e, hl, hr⟩ := h
      exact .inr ⟨raw', e, by omega, hr⟩

theorem rows_ext {a b : List Bytes} {w : Nat} (hl : a.length = b.length) (ha : Rectangular a w) (hb : Rectangular b w)
    (h : ∀ r < a.length, ∀ c < 8 * w, rowsBit a r c = rowsBit b r c) : a = b := by
  apply List.ext_getElem hl
  intro r h1 h2
  have la := ha _ (List.getElem_mem h1)
  have lb := hb _ (List.getElem_mem h2)
  apply bytes_ext (by omega)
  intro k hk
  have := h r h1 k (by omega)
  simpa [rowsBit, List.getD, h1, h2] using this

/-! ### Packing choices -/

theorem packChoices_ok (choices : List Bool) :
    ∃ p, packChoices choices = .ok p ∧ p.length = choices.length / 8 ∧
      ∀ k < 8 * (choices.length / 8), bitAt p k = choices.getD k false := by
  have heq : packChoices choices =
      (((List.range (choices.length / 8)).flatMap fun i => (List.range 8).map fun b => (i, b))).foldlM
        (fun packed p => orAt packed p.1 ((if choices.getD (p.1 * 8 + p.2) false then (1 : Byte) else 0) <<< p.2))
        (List.replicate (choices.length / 8) 0) := by
    unfold packChoices
    rw [← foldlM_flat]
    apply foldlM_congr'
    intro i hi t
    rw [← foldlM_map']
    apply foldlM_congr'
    intro b hb t
    rw [List.mem_range] at hi hb
    have hlt : i * 8 + b < choices.length := by omega
    rw [idxR_ok (a := choices[i * 8 + b]) (List.getElem?_eq_getElem hlt), okb]
    simp [List.getD, hlt]
  rw [heq]
  obtain ⟨t, e, hlen, hbits⟩ := foldlM_pre
    (fun (packed : Bytes) (p : Nat × Nat) =>
      orAt packed p.1 ((if choices.getD (p.1 * 8 + p.2) false then (1 : Byte) else 0) <<< p.2))
    ((List.range (choices.length / 8)).flatMap fun i => (List.range 8).map fun b => (i, b))
    (fun pre t => t.length = choices.length / 8 ∧ ∀ k, bitAt t k =
      pre.any fun p => decide (k = 8 * p.1 + p.2) && choices.getD (p.1 * 8 + p.2) false)
    (List.replicate (choices.length / 8) 0)
    ⟨by simp, by intro k; rw [bitAt_replicate]; simp⟩
    (by
      rintro pre ⟨i, b⟩ t hm ⟨hl, hb⟩
      have hm' : i < choices.length / 8 ∧ b < 8 := by simpa using hm
      obtain ⟨t', e, hl', hb'⟩ := orAt_ok (v := t) (i := i) (by omega)
        ((if choices.getD (i * 8 + b) false then (1 : Byte) else 0) <<< b) b hm'.2 (choices.getD (i * 8 + b) false)
        (by
          intro j
          rw [BitVec.getLsbD_shiftLeft]
          by_cases h : j = b
          · subst h; simp [hm'.2]; split <;> simp_all
          · simp only [h, decide_false, Bool.false_and]
            by_cases h1 : j < b
            · simp [h1]
            · split <;> simp [show ¬ j - b = 0 by omega])
      refine ⟨t', e, by omega, fun k => ?_⟩
      rw [hb' k, hb k, List.any_append]
      simp)
  refine ⟨t, e, hlen, fun k hk => ?_⟩
  rw [hbits, Bool.eq_iff_iff, List.any_eq_true]
  constructor
  · rintro ⟨⟨i, b⟩, _, he⟩
    simp only [Bool.and_eq_true, decide_eq_true_eq] at he
    rw [he.1, show 8 * i + b = i * 8 + b by omega]
    exact he.2
  · intro he
    refine ⟨(k / 8, k % 8), by simp; omega, ?_⟩
    simp only [Bool.and_eq_true, decide_eq_true_eq]
    exact ⟨by omega, by rw [show k / 8 * 8 + k % 8 = k by omega]; exact he⟩

end FP
