import Verif.Model.Bincode
import Verif.Spec.Text
import Verif.Proof.Fpake
/-
Bytes of texts, and bit distance byte by byte.
-/
namespace FP
open Spec

theorem stringBytes_ofList (cs : List Char) :
    stringBytes (String.ofList cs) = cs.flatMap fun c => (String.utf8EncodeChar c).map UInt8.toBitVec := by
  unfold stringBytes
  rw [String.toUTF8_eq_toByteArray, String.toByteArray_ofList, List.utf8Encode]
  simp [List.map_flatMap]

/-- Every string is the text of its characters. -/
theorem stringBytes_chars (s : String) :
    stringBytes s = s.toList.flatMap fun c => (String.utf8EncodeChar c).map UInt8.toBitVec := by
  rw [← stringBytes_ofList, String.ofList_toList]

theorem stringBytes_bitText (bits : List Bool) :
    stringBytes (bitText bits) = bits.map fun b => if b then (0x31 : Byte) else 0x30 := by
  unfold bitText
  rw [stringBytes_ofList]
  induction bits with
  | nil => rfl
  | cons b l ih =>
    rw [List.map_cons, List.flatMap_cons, ih, List.map_cons]
    cases b <;> rfl

/-- The lead and continuation bytes of UTF-8 stay below `0xf8`. -/
theorem utf8_lt (c : Char) : ∀ b ∈ String.utf8EncodeChar c, b.toNat < 0xf8 := by
  intro b hb
  unfold String.utf8EncodeChar at hb
  simp only at hb
  have : ∀ n : Nat, (UInt8.ofNat n).toNat = n % 256 := fun n => UInt8.toNat_ofNat'
  split at hb
  · rw [List.mem_singleton] at hb; subst hb; rw [this]; omega
  split at hb
  · simp only [List.mem_cons, List.not_mem_nil, or_false] at hb
    rcases hb with rfl | rfl <;> rw [this] <;> omega
  split at hb
  · simp only [List.mem_cons, List.not_mem_nil, or_false] at hb
    rcases hb with rfl | rfl | rfl <;> rw [this] <;> omega
  · simp only [List.mem_cons, List.not_mem_nil, or_false] at hb
    rcases hb with rfl | rfl | rfl | rfl <;> rw [this] <;> omega

theorem stringBytes_lt (s : String) : ∀ b ∈ stringBytes s, b.toNat < 0xf8 := by
  intro b hb
  rw [stringBytes_chars] at hb
  obtain ⟨c, -, hc⟩ := List.mem_flatMap.mp hb
  obtain ⟨x, hx, rfl⟩ := List.mem_map.mp hc
  exact utf8_lt c x hx

/-- Bytes below `0x80` are a text. -/
theorem ascii_text (p : Bytes) (h : ∀ b ∈ p, b.toNat < 0x80) : stringBytes (String.ofList (p.map fun b => Char.ofNat b.toNat)) = p := by
  rw [stringBytes_ofList]
  induction p with
  | nil => rfl
  | cons b p ih =>
    rw [List.map_cons, List.flatMap_cons, ih fun x hx => h x (List.mem_cons_of_mem _ hx)]
    have hb := h b List.mem_cons_self
    have : ∀ b : BitVec 8, b.toNat < 0x80 → (String.utf8EncodeChar (Char.ofNat b.toNat)).map UInt8.toBitVec = [b] := by
      decide +kernel
    rw [this b hb]
    rfl

/-- Number of bits in which two bytes differ. -/
def byteDistance (a b : Byte) : Nat := hamming ((List.range 8).map a.getLsbD) ((List.range 8).map b.getLsbD)

theorem hamming_append (a b c d : List Bool) (h : a.length = c.length) :
    hamming (a ++ b) (c ++ d) = hamming a c + hamming b d := by
  induction a generalizing c with
  | nil => cases c with
    | nil => simp [hamming]
    | cons y c => simp at h
  | cons x a ih => cases c with
    | nil => simp at h
    | cons y c =>
      rw [List.cons_append, List.cons_append, hamming, hamming, ih c (by simpa using h)]
      omega

theorem bitDistance_nil (q : Bytes) : bitDistance [] q = 0 := rfl

theorem bitDistance_cons (a b : Byte) (p q : Bytes) (h : q.length = p.length) :
    bitDistance (a :: p) (b :: q) = byteDistance a b + bitDistance p q := by
  rw [← bitDistance_eq _ _ (by simpa using h), ← bitDistance_eq _ _ h, unpack_cons, unpack_cons, hamming_append _ _ _ _ (by simp)]
  rfl

theorem byteDistance_digit : ∀ a b : Bool, byteDistance (if a then 0x31 else 0x30) (if b then 0x31 else 0x30) = if a = b then 0 else 1 := by
  decide +kernel

theorem byteDistance_self (a : Byte) : byteDistance a a = 0 := by
  revert a; decide +kernel

theorem byteDistance_mask : ∀ a : Byte, byteDistance a (a &&& 0x7f) = if 0x80 ≤ a.toNat then 1 else 0 := by
  decide +kernel

theorem hamming_pos (a b : List Bool) (hl : a.length = b.length) (h : a ≠ b) : 0 < hamming a b := by
  induction a generalizing b with
  | nil => cases b with
    | nil => exact absurd rfl h
    | cons y b => simp at hl
  | cons x a ih => cases b with
    | nil => simp at hl
    | cons y b =>
      rw [hamming]
      by_cases hx : x = y
      · subst hx
        have := ih b (by simpa using hl) fun e => h (by rw [e])
        omega
      · rw [if_neg hx]; omega

theorem byteDistance_pos (a b : Byte) (h : a ≠ b) : 0 < byteDistance a b := by
  refine hamming_pos _ _ (by simp) fun e => h ?_
  refine BitVec.eq_of_getLsbD_eq fun i hi => ?_
  have := congrArg (fun l => l[i]?) e
  simpa [List.getElem?_range hi] using this

/-- Every byte that no text contains costs at least one bit. -/
theorem bitDistance_ge (p q : Bytes) (hl : q.length = p.length) (hq : ∀ b ∈ q, b.toNat < 0xf8) :
    p.countP (fun b => decide (0xf8 ≤ b.toNat)) ≤ bitDistance p q := by
  induction p generalizing q with
  | nil => exact Nat.zero_le _
  | cons a p ih => cases q with
    | nil => simp at hl
    | cons b q =>
      have hl : q.length = p.length := by simpa using hl
      rw [bitDistance_cons a b p q hl, List.countP_cons]
      have := ih q hl fun x hx => hq x (List.mem_cons_of_mem _ hx)
      have hb := hq b List.mem_cons_self
      by_cases ha : 0xf8 ≤ a.toNat
      · have := byteDistance_pos a b (by rintro rfl; omega)
        simp only [ha, decide_true, if_true]
        omega
      · simp only [ha, decide_false, Bool.false_eq_true, if_false]
        omega

theorem bitDistance_mask (p : Bytes) :
    bitDistance p (p.map (· &&& 0x7f)) = p.countP (fun b => decide (0x80 ≤ b.toNat)) := by
  induction p with
  | nil => rfl
  | cons a p ih =>
    rw [List.map_cons, bitDistance_cons _ _ _ _ (by simp), ih, byteDistance_mask, List.countP_cons]
    simp only [decide_eq_true_eq]
    omega

theorem bitDistance_digits (a b : List Bool) (h : b.length = a.length) :
    bitDistance (a.map fun b => if b then (0x31 : Byte) else 0x30) (b.map fun b => if b then (0x31 : Byte) else 0x30) = hamming a b := by
  induction a generalizing b with
  | nil => cases b with
    | nil => rfl
    | cons y b => simp at h
  | cons x a ih => cases b with
    | nil => simp at h
    | cons y b =>
      rw [List.map_cons, List.map_cons, bitDistance_cons _ _ _ _ (by simpa using h), byteDistance_digit, ih b (by simpa using h), hamming]

end FP
