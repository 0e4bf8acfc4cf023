import Verif.Model.Util
import Verif.Proof.Monad
import Mathlib.Data.Nat.Log
/-
Helpers about src/util.rs.
-/
namespace FP

theorem unpack_bits (s : Byte) :
    ((List.range 8).map fun i => (s >>> i) &&& 1 == 1) = (List.range 8).map s.getLsbD := by
  apply List.map_congr_left
  intro i _
  rw [Bool.eq_iff_iff, beq_iff_eq]
  constructor
  · intro h
    have := congrArg (·.getLsbD 0) h
    simpa using this
  · intro h
    apply BitVec.eq_of_getLsbD_eq
    intro j _
    rw [BitVec.getLsbD_and, BitVec.getLsbD_ushiftRight]
    by_cases hj : j = 0
    · subst hj; simp [h]
    · simp [BitVec.getLsbD_one, hj]

theorem unpack_cons (b : Byte) (s : Bytes) :
    u8VecToBoolVec (b :: s) = (List.range 8).map b.getLsbD ++ u8VecToBoolVec s := by
  unfold u8VecToBoolVec
  rw [List.flatMap_cons, unpack_bits]

theorem unpack_length (s : Bytes) : (u8VecToBoolVec s).length = 8 * s.length := by
  induction s with
  | nil => rfl
  | cons b s ih => rw [unpack_cons]; simp [ih]; omega

theorem unpack_get (s : Bytes) (j i : Nat) (hi : i < 8) :
    (u8VecToBoolVec s)[8 * j + i]? = s[j]?.map (·.getLsbD i) := by
  induction s generalizing j with
  | nil => simp [u8VecToBoolVec]
  | cons b s ih =>
    rw [unpack_cons]
    cases j with
    | zero => rw [List.getElem?_append_left (by simpa using hi)]; simp [hi]
    | succ j =>
      rw [List.getElem?_append_right (by simp; omega)]
      have : 8 * (j + 1) + i - ((List.range 8).map b.getLsbD).length = 8 * j + i := by simp; omega
      rw [this, ih]; simp

/-- One byte of packing. -/
def packByte (a b c d e f g h : Bool) : Byte :=
  (List.zipIdx [a, b, c, d, e, f, g, h]).foldl
    (fun byte p => if p.1 then byte ||| (1 <<< (7 - p.2)) else byte) 0

theorem packByte_bit (a b c d e f g h : Bool) (i : Nat) (hi : i < 8) :
    [a, b, c, d, e, f, g, h][i]? = some ((packByte a b c d e f g h).getLsbD (7 - i)) := by
  revert a b c d e f g h i
  decide

theorem pack_step8 (acc : Bytes) (q : Nat) (a b c d e f g h : Bool) (l : List Bool) :
    ((a :: b :: c :: d :: e :: f :: g :: h :: l).zipIdx (8 * q)).foldl boolVecStep (acc, 0) =
    (l.zipIdx (8 * (q + 1))).foldl boolVecStep (acc ++ [packByte a b c d e f g h], 0) := by
  have h0 : 8 * q % 8 = 0 := by omega
  have h1 : (8 * q + 1) % 8 = 1 := by omega
  have h2 : (8 * q + 1 + 1) % 8 = 2 := by omega
  have h3 : (8 * q + 1 + 1 + 1) % 8 = 3 := by omega
  have h4 : (8 * q + 1 + 1 + 1 + 1) % 8 = 4 := by omega
  have h5 : (8 * q + 1 + 1 + 1 + 1 + 1) % 8 = 5 := by omega
  have h6 : (8 * q + 1 + 1 + 1 + 1 + 1 + 1) % 8 = 6 := by omega
  have h7 : (8 * q + 1 + 1 + 1 + 1 + 1 + 1 + 1) % 8 = 7 := by omega
  have h8 : 8 * q + 1 + 1 + 1 + 1 + 1 + 1 + 1 + 1 = 8 * (q + 1) := by omega
  simp only [List.zipIdx_cons, List.foldl_cons]
  rw [h8]
  congr 1
  simp only [boolVecStep, h0, h1, h2, h3, h4, h5, h6, h7]
  rfl

theorem pack_short (l : List Bool) (hl : l.length < 8) (acc : Bytes) (q k : Nat) (byte : Byte)
    (hk : k + l.length < 8) :
    ((l.zipIdx (8 * q + k)).foldl boolVecStep (acc, byte)).1 = acc := by
  induction l generalizing k byte with
  | nil => rfl
  | cons a l ih =>
    simp only [List.length_cons] at hl hk
    have hne : (8 * q + k) % 8 ≠ 7 := by omega
    rw [List.zipIdx_cons, List.foldl_cons]
    have : boolVecStep (acc, byte) (a, 8 * q + k) =
        (acc, if a then byte ||| (1 <<< (7 - (8 * q + k) % 8)) else byte) := by
      simp only [boolVecStep, if_neg hne]
    rw [this]
    exact ih (by omega) (k + 1) _ (by omega)

theorem pack_run (n : Nat) (l : List Bool) (hl : l.length / 8 = n) (acc : Bytes) (q : Nat) :
    ∃ bs, ((l.zipIdx (8 * q)).foldl boolVecStep (acc, 0)).1 = acc ++ bs ∧ bs.length = n ∧
      ∀ j i, i < 8 → j < n → l[8 * j + i]? = bs[j]?.map (·.getLsbD (7 - i)) := by
  induction n generalizing l acc q with
  | zero =>
    refine ⟨[], ?_, rfl, by omega⟩
    have := pack_short l (by omega) acc q 0 0 (by omega)
    simpa using this
  | succ n ih =>
    have hne : 8 ≤ l.length := by omega
    match l, hl, hne with
    | [], _, hne | [_], _, hne | [_, _], _, hne | [_, _, _], _, hne | [_, _, _, _], _, hne
    | [_, _, _, _, _], _, hne | [_, _, _, _, _, _], _, hne | [_, _, _, _, _, _, _], _, hne =>
      simp at hne
    | a :: b :: c :: d :: e :: f :: g :: h :: l, hl, _ =>
      simp only [List.length_cons] at hl
      obtain ⟨bs, h1, h2, h3⟩ := ih l (by omega) (acc ++ [packByte a b c d e f g h]) (q + 1)
      refine ⟨packByte a b c d e f g h :: bs, ?_, by simp [h2], ?_⟩
      · rw [pack_step8, h1]; simp
      · intro j i hi hj
        cases j with
        | zero =>
          have := packByte_bit a b c d e f g h i hi
          have e : (a :: b :: c :: d :: e :: f :: g :: h :: l)[8 * 0 + i]? =
              [a, b, c, d, e, f, g, h][i]? := by
            have : a :: b :: c :: d :: e :: f :: g :: h :: l = [a, b, c, d, e, f, g, h] ++ l := rfl
            rw [this, List.getElem?_append_left (by simp; omega)]; simp
          rw [e, this]; rfl
        | succ j =>
          have e : (a :: b :: c :: d :: e :: f :: g :: h :: l)[8 * (j + 1) + i]? = l[8 * j + i]? := by
            have : a :: b :: c :: d :: e :: f :: g :: h :: l = [a, b, c, d, e, f, g, h] ++ l := rfl
            rw [this, List.getElem?_append_right (by simp; omega)]
            congr 1
            simp; omega
          rw [e, h3 j i hi (by omega)]; simp

theorem pack_spec (l : List Bool) :
    (boolVecToU8Vec l).length = l.length / 8 ∧
    ∀ j i, i < 8 → j < l.length / 8 →
      l[8 * j + i]? = (boolVecToU8Vec l)[j]?.map (·.getLsbD (7 - i)) := by
  obtain ⟨bs, h1, h2, h3⟩ := pack_run _ l rfl [] 0
  have : boolVecToU8Vec l = bs := by
    unfold boolVecToU8Vec; simpa using h1
  rw [this]; exact ⟨h2, h3⟩

theorem debugAssertR_true {dbg b} (h : b = true) : debugAssertR dbg b = .ok () := by
  simp [debugAssertR, assertR, h]

/-- Specification of XOR of byte strings of equal length. -/
theorem xorBytes_ok (dbg : Bool) {a b : Bytes} (h : a.length = b.length) :
    xorBytes dbg a b = .ok (List.zipWith (· ^^^ ·) a b) := by
  unfold xorBytes
  rw [debugAssertR_true (by simpa using h), okb]
  rw [mapM_ok (g := fun i => a.getD i 0 ^^^ b.getD i 0)]
  · congr 1
    apply List.ext_getElem
    · simp [h]
    · intro i h1 h2
      have ha : i < a.length := by simpa using h1
      have hb : i < b.length := by omega
      simp [List.getD, ha, hb]
  · intro i hi
    have ha : i < a.length := List.mem_range.mp hi
    have hb : i < b.length := by omega
    rw [idxR_ok (List.getElem?_eq_getElem ha), okb, idxR_ok (List.getElem?_eq_getElem hb), okb]
    simp [List.getD, ha, hb, purek]

theorem xorFold_ok {a b : Bytes} (h : a.length ≤ b.length) :
    (List.range a.length).foldlM (fun l i => ((do setR l i ((← idxR l i) ^^^ (← idxR b i))) : R Bytes)) a
      = .ok (List.zipWith (· ^^^ ·) a b) := by
  obtain ⟨t, ht, hp⟩ := foldlM_inv (l := List.range a.length)
    (f := fun l i => do setR l i ((← idxR l i) ^^^ (← idxR b i))) (s := a)
    (fun (k : Nat) (t : Bytes) => t.length = a.length ∧ ∀ (i : Nat), t[i]? =
      if i < k then (List.zipWith (· ^^^ ·) a b)[i]? else a[i]?)
    ⟨rfl, by simp⟩ (by
      rintro k k' t hk ⟨hl, hg⟩
      obtain ⟨hk1, hk2⟩ := List.getElem?_eq_some_iff.mp hk
      simp only [List.length_range] at hk1
      simp only [List.getElem_range] at hk2
      subst hk2
      have hb : k < b.length := by omega
      have e1 : t[k]? = some a[k] := by rw [hg]; simp
      have e2 : b[k]? = some b[k] := List.getElem?_eq_getElem hb
      refine ⟨t.set k (a[k] ^^^ b[k]), ?_, by simp [hl], ?_⟩
      · rw [idxR_ok e1, okb, idxR_ok e2, okb, setR_ok _ (by omega)]
      · intro i
        rw [List.getElem?_set]
        by_cases hik : k = i
        · subst hik
          rw [if_pos (by omega), if_pos (by omega)]
          simp [List.getElem?_zipWith, hk1, hb, hl]
        · rw [if_neg hik, hg]
          by_cases h1 : i < k
          · rw [if_pos h1, if_pos (by omega)]
          · rw [if_neg h1, if_neg (by omega)])
  rw [ht]
  congr 1
  apply List.ext_getElem?
  intro i
  rw [hp.2]
  split
  · rfl
  · rename_i hi
    simp only [List.length_range, not_lt] at hi
    rw [List.getElem?_eq_none hi, List.getElem?_eq_none (by simp; omega)]

theorem xorBytesInplace_ok (dbg : Bool) {a b : Bytes} (h : a.length = b.length) :
    xorBytesInplace dbg a b = .ok (List.zipWith (· ^^^ ·) a b) := by
  unfold xorBytesInplace
  rw [debugAssertR_true (by simpa using h), okb]
  exact xorFold_ok (by omega)

/-- Without the debug assertion a longer right operand is cut. -/
theorem xorBytesInplace_release {a b : Bytes} (h : a.length ≤ b.length) :
    xorBytesInplace false a b = .ok (List.zipWith (· ^^^ ·) a b) :=
  xorFold_ok h

theorem foldlM_panics {α β} {f : β → α → R β} {l : List α} {s : β} (h : ∀ s, ∀ a ∈ l, ∀ e, f s a = .error e → e = .panic)
    (a : α) (ha : a ∈ l) (hf : ∀ s t, f s a ≠ .ok t) : l.foldlM f s = .error .panic := by
  induction l generalizing s with
  | nil => simp at ha
  | cons x l ih =>
    rw [List.foldlM_cons]
    cases hx : f s x with
    | error e => rw [h s x (by simp) e hx]; rfl
    | ok t =>
      rw [okb]
      refine ih (fun s a ha => h s a (by simp [ha])) ?_
      rcases List.mem_cons.mp ha with rfl | ha
      · exact absurd hx (hf s t)
      · exact ha

/-- A shorter right operand panics in every build. -/
theorem xorBytesInplace_short (dbg : Bool) {a b : Bytes} (h : b.length < a.length) :
    xorBytesInplace dbg a b = .error .panic := by
  unfold xorBytesInplace debugAssertR assertR
  have hfold : (List.range a.length).foldlM (fun l i => ((do setR l i ((← idxR l i) ^^^ (← idxR b i))) : R Bytes)) a
      = .error .panic := by
    refine foldlM_panics ?_ b.length (by simpa using h) ?_
    · intro s i hi e
      unfold idxR setR
      cases s[i]? with
      | none => intro h; cases h; rfl
      | some x =>
        cases b[i]? with
        | none => intro h; cases h; rfl
        | some y =>
          intro h
          by_cases hi : i < s.length
          · simp [hi, okb, purek] at h
          · simp [hi, okb, purek] at h
            cases h; rfl
    · intro s t
      unfold idxR
      rw [List.getElem?_eq_none (l := b) (by omega)]
      cases s[b.length]? with
      | none => intro h; cases h
      | some x => intro h; cases h
  cases dbg with
  | false => exact hfold
  | true =>
    rw [if_neg (by simp; omega)]
    rfl

theorem zipWith_xor_cancel {a b : Bytes} (h : a.length = b.length) :
    List.zipWith (· ^^^ ·) (List.zipWith (· ^^^ ·) a b) b = a := by
  apply List.ext_getElem
  · simp [h]
  · intro i h1 h2
    simp [BitVec.xor_assoc]

end FP
