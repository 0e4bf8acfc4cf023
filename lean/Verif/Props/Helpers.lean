import Verif.Model.Helpers
import Verif.Spec.Bits
import Verif.Proof.Malformed
import Verif.Proof.Sizes
import Verif.Proof.Classic
import Verif.Proof.Witness
/-
C60: the helpers on byte strings, bits and message pairs, for operands of all lengths.
-/
namespace FP.Props
open FP FP.Spec

/-! ### Loops that write one element after the other -/

private theorem fold_set (f : Nat → Byte → Byte) (a : Bytes) (n : Nat) (hn : n ≤ a.length) (g : Bytes → Nat → R Bytes)
    (hg : ∀ d : Bytes, ∀ i < n, d.length = a.length → g d i = .ok (d.set i (f i (d.getD i 0)))) :
    (List.range n).foldlM g a = .ok (a.mapIdx fun i x => if i < n then f i x else x) := by
  induction n with
  | zero =>
    show Except.ok a = _
    congr 1
    apply List.ext_getElem <;> simp
  | succ n ih =>
    rw [List.range_succ, List.foldlM_append, ih (by omega) (fun d i hi hd => hg d i (by omega) hd), okb,
      List.foldlM_cons, hg _ n (by omega) (by simp), okb, List.foldlM_nil]
    show Except.ok _ = _
    congr 1
    apply List.ext_getElem
    · simp
    · intro i h1 h2
      simp only [List.getElem_set, List.getElem_mapIdx, List.getD_eq_getElem?_getD]
      have hi : i < a.length := by simpa using h2
      by_cases h : n = i
      · subst h; simp [hi]
      · rw [if_neg h]
        by_cases h' : i < n
        · rw [if_pos h', if_pos (by omega)]
        · rw [if_neg h', if_neg (by omega)]

private theorem fold_panics (a : Bytes) (n k : Nat) (hk : k < n) (g : Bytes → Nat → R Bytes)
    (hok : ∀ d : Bytes, ∀ i, d.length = a.length → (∃ d', g d i = .ok d' ∧ d'.length = a.length) ∨ g d i = .error .panic)
    (hbad : ∀ d : Bytes, d.length = a.length → g d k = .error .panic) :
    (List.range n).foldlM g a = .error .panic := by
  refine foldlM_fails _ _ (fun d => d.length = a.length) .panic a rfl ?_ k (by simpa using hk) hbad
  intro i _ d hd
  rcases hok d i hd with ⟨d', e, h⟩ | h
  · exact .inr ⟨d', e, h⟩
  · exact .inl h

private theorem idx_panics {v : Bytes} {i : Nat} (h : v.length ≤ i) : idxR v i = .error .panic := by
  simp [idxR, List.getElem?_eq_none h, panicR]

private theorem set_panics {v : Bytes} {i : Nat} (x : Byte) (h : v.length ≤ i) : setR v i x = .error .panic := by
  unfold setR; rw [if_neg (by omega)]; rfl

private theorem assert_off {b : Bool} : debugAssertR false b = .ok () := rfl

private theorem assert_on {p : Prop} [Decidable p] (h : ¬ p) : debugAssertR true p = .error .panic := by
  unfold debugAssertR; rw [decide_eq_false h]; rfl

/-! ### The helpers -/

/-- C60 fails for `zero_inplace`: it leaves every byte string as it is, and so zeroes exactly those that are zero
already. -/
theorem C60_fails_zero_inplace (d : Bytes) :
    zeroInplace d = .ok d ∧ (zeroInplace d = .ok (List.replicate d.length 0) ↔ ∀ x ∈ d, x = 0) := by
  have h : zeroInplace d = .ok d := by
    unfold zeroInplace
    rw [fold_set (fun _ x => x) d d.length (Nat.le_refl _)]
    · congr 1
      apply List.ext_getElem <;> simp
    · intro v i hi hv
      rw [idxR_getD (by omega), okb, setR_ok _ (by omega)]
      simp
  refine ⟨h, ?_⟩
  rw [h]
  constructor
  · intro e x hx
    rw [Except.ok.injEq] at e
    rw [e] at hx
    exact (List.mem_replicate.mp hx).2
  · intro e
    exact congrArg _ (List.eq_replicate_iff.mpr ⟨rfl, e⟩)

/-- C60.  It makes no difference: the transfer, written with the buffer that is not zeroed between two rows,
computes the same as the transfer that starts every row with a zero buffer. -/
theorem C60_buffer (X : Crypto) (cores : Nat) (sched : Nat → List Nat) (delta qT : Bytes) (hd : delta.length = 16)
    (msg : List (Bytes × Bytes)) (msgSize : Nat) :
    apRandomizeBuffer X cores sched delta qT msg msgSize = apRandomize X cores sched delta qT msg msgSize := by
  have row : ∀ (r i : Nat) (chunk buf : Bytes), buf.length = 16 →
      (∃ e, apRandomizeRow X delta qT msg msgSize r i chunk = .error e ∧
        apRandomizeRowBuffer X delta qT msg msgSize r i (chunk, buf) = .error e) ∨
      ∃ c b, apRandomizeRow X delta qT msg msgSize r i chunk = .ok c ∧ b.length = 16 ∧
        apRandomizeRowBuffer X delta qT msg msgSize r i (chunk, buf) = .ok (c, b) := by
    intro r i chunk buf hb
    unfold apRandomizeRow apRandomizeRowBuffer
    dsimp only
    cases hq : vectorRow qT r 16 with
    | error e => exact .inl ⟨e, rfl, rfl⟩
    | ok q =>
      have hql : q.length = 16 := by
        unfold vectorRow at hq
        split at hq
        · next h => cases hq; simp; omega
        · cases hq
      simp only [okb]
      cases hm : idxR msg r with
      | error e => exact .inl ⟨e, rfl, rfl⟩
      | ok m =>
        simp only [okb]
        generalize updateSlice chunk _ _ _ = u
        cases u with
        | error e => exact .inl ⟨e, rfl, rfl⟩
        | ok chunk' =>
          simp only [okb]
          rw [(C60_fails_zero_inplace buf).1, okb, apXor_ok X.dbg (d := buf) (a := q) (b := delta) (by omega) (by omega), okb,
            apXor_ok X.dbg (d := List.replicate 16 0) (a := q) (b := delta) (by omega) (by simp [hql]), okb]
          generalize updateSlice chunk' _ _ _ = u
          cases u with
          | error e => exact .inl ⟨e, rfl, rfl⟩
          | ok chunk'' => exact .inr ⟨chunk'', _, rfl, by simp [hql, hd], rfl⟩
  have rows : ∀ (c n : Nat) (l : List Nat) (chunk buf : Bytes), buf.length = 16 →
      (l.foldlM (fun s i => apRandomizeRowBuffer X delta qT msg msgSize (c * n + i) i s) (chunk, buf) >>= fun s =>
        (.ok s.1 : R Bytes)) = l.foldlM (fun chunk i => apRandomizeRow X delta qT msg msgSize (c * n + i) i chunk) chunk := by
    intro c n l
    induction l with
    | nil => intro chunk buf _; rfl
    | cons i l ih =>
      intro chunk buf hb
      rw [List.foldlM_cons, List.foldlM_cons]
      rcases row (c * n + i) i chunk buf hb with ⟨e, h1, h2⟩ | ⟨c', b', h1, hb', h2⟩
      · rw [h1, h2]; rfl
      · rw [h1, h2, okb, okb, ih c' b' hb']
  unfold apRandomizeBuffer apRandomize
  dsimp only
  congr 1
  funext n
  congr 1
  funext chunks
  congr 1
  congr 1
  funext c chunk
  congr 1
  funext k
  exact rows c n (List.range k) chunk _ (by simp)

example := C60_buffer (Witness.crypto true) 4 List.range (List.replicate 16 5) [3, 4] (by meets) Witness.messages 2

/-- C60.  `xor` writes the exclusive or of its operands over the start of the destination.  In a debug build the three
lengths must be the same; a release build needs the left operand to be the shortest. -/
theorem C60_xor (dbg : Bool) (d a b : Bytes) :
    apXor dbg d a b =
      if dbg = true ∧ ¬ (a.length = b.length ∧ a.length = d.length) then .error .panic
      else if a.length ≤ b.length ∧ a.length ≤ d.length then
        .ok (List.zipWith (· ^^^ ·) a b ++ d.drop a.length)
      else .error .panic := by
  by_cases h : a.length = b.length ∧ a.length = d.length
  · rw [if_neg (fun c => c.2 h), if_pos (by omega), apXor_ok dbg h.1 h.2, List.drop_eq_nil_of_le (by omega), List.append_nil]
  · cases dbg with
    | true =>
      rw [if_pos ⟨rfl, h⟩]
      unfold apXor
      by_cases h1 : a.length = b.length
      · rw [debugAssertR_true (by simpa using h1), okb, assert_on (fun h2 => h ⟨h1, h2⟩)]; rfl
      · rw [assert_on h1]; rfl
    | false =>
      rw [if_neg (by simp)]
      unfold apXor
      rw [assert_off, okb, assert_off, okb]
      by_cases h' : a.length ≤ b.length ∧ a.length ≤ d.length
      · rw [if_pos h', fold_set (fun i _ => a.getD i 0 ^^^ b.getD i 0) d a.length h'.2]
        · congr 1
          apply List.ext_getElem
          · simp; omega
          · intro i h1 h2
            have hi : i < d.length := by simpa using h1
            rw [List.getElem_mapIdx, List.getElem_append]
            by_cases hia : i < a.length
            · have hib : i < b.length := by omega
              simp [hia, hib]
            · have : ¬ i < min a.length b.length := by omega
              have e : min a.length b.length = a.length := by omega
              simp only [List.length_zipWith, this, dif_neg, not_false_eq_true, if_neg hia, List.getElem_drop, e,
                show a.length + (i - a.length) = i by omega]
              rw [dif_neg hia]
        · intro v i hi hv
          rw [idxR_getD hi, okb, idxR_getD (by omega), okb, setR_ok _ (by omega)]
      · rw [if_neg h']
        refine fold_panics d a.length (min b.length d.length) (by omega) _ ?_ ?_
        · intro v i hv
          by_cases ha : i < a.length
          · by_cases hb : i < b.length
            · rw [idxR_getD ha, okb, idxR_getD hb, okb]
              by_cases hd : i < v.length
              · exact .inl ⟨_, setR_ok _ hd, by simp [hv]⟩
              · exact .inr (set_panics _ (by omega))
            · rw [idxR_getD ha, okb, idx_panics (v := b) (by omega)]; exact .inr rfl
          · rw [idx_panics (v := a) (by omega)]; exact .inr rfl
        · intro v hv
          rw [idxR_getD (by omega), okb]
          by_cases hb : b.length ≤ d.length
          · rw [idx_panics (v := b) (by omega)]; rfl
          · rw [idxR_getD (by omega), okb, set_panics _ (by omega)]

/-- C60.  `xor_inplace` combines the start of the destination with the right operand and leaves the rest.  In a debug
build the lengths must be the same, in a release build the right operand must not be longer. -/
theorem C60_xor_inplace (dbg : Bool) (d b : Bytes) :
    apXorInplace dbg d b =
      if b.length = d.length ∨ (dbg = false ∧ b.length < d.length) then
        .ok (List.zipWith (· ^^^ ·) d b ++ d.drop b.length)
      else .error .panic := by
  by_cases h : b.length = d.length
  · rw [if_pos (.inl h), apXorInplace_ok dbg h.symm, List.drop_eq_nil_of_le (by omega), List.append_nil]
  · by_cases hl : d.length < b.length
    · rw [if_neg (by omega), apXorInplace_long dbg hl]
    · cases dbg with
      | true =>
        rw [if_neg (by simp [h])]
        unfold apXorInplace
        rw [assert_on h]; rfl
      | false =>
        rw [if_pos (.inr ⟨rfl, by omega⟩)]
        unfold apXorInplace
        rw [assert_off, okb, fold_set (fun i x => x ^^^ b.getD i 0) d b.length (by omega)]
        · congr 1
          apply List.ext_getElem
          · simp; omega
          · intro i h1 h2
            have hi : i < d.length := by simpa using h1
            rw [List.getElem_mapIdx, List.getElem_append]
            by_cases hib : i < b.length
            · simp [hi, hib]
            · have : ¬ i < min d.length b.length := by omega
              have e : min d.length b.length = b.length := by omega
              simp only [List.length_zipWith, this, dif_neg, not_false_eq_true, if_neg hib, List.getElem_drop, e,
                show b.length + (i - b.length) = i by omega]
              rw [dif_neg hib]
        · intro v i hi hv
          rw [idxR_getD (by omega), okb, idxR_getD hi, okb, setR_ok _ (by omega)]

/-- C60.  `eq` decides equality of byte strings of the same length.  On different lengths a debug build panics; a
release build answers yes if the left string is the start of the right one, panics if the right one is the start of the
left one, and otherwise answers no. -/
theorem C60_eq (dbg : Bool) (a b : Bytes) :
    (a.length = b.length → apEq dbg a b = .ok (decide (a = b))) ∧
    (a.length ≠ b.length → apEq dbg a b =
      if dbg then .error .panic else if a <+: b then .ok true else if b <+: a then .error .panic else .ok false) := by
  refine ⟨apEq_ok dbg a b, fun h => ?_⟩
  unfold apEq
  cases dbg with
  | true => rw [assert_on h]; rfl
  | false => rw [assert_off, okb, apEqLoop_eq]; rfl

example := (C60_eq true [1, 2] [1, 3]).1 rfl

/-- C60.  `unpack_bits_to_vec` lists the bits of a byte string, eight per byte, least significant first, and is the
same function as `u8_vec_to_bool_vec`. -/
theorem C60_unpack (bytes : Bytes) :
    unpackBitsToVec bytes = .ok ((List.range (8 * bytes.length)).map (bitAt bytes)) ∧
    unpackBitsToVec bytes = .ok (u8VecToBoolVec bytes) := by
  have inner : ∀ (s : Byte) (l : List Nat) (bits : List Bool),
      l.foldlM (fun (bits : List Bool) i => (pure (bits ++ [(s >>> i) &&& 1 == 1]) : R (List Bool))) bits =
        .ok (bits ++ l.map fun i => (s >>> i) &&& 1 == 1) := by
    intro s l
    induction l with
    | nil => intro bits; simp [purek]
    | cons i l ih => intro bits; rw [List.foldlM_cons, purek, okb, ih]; simp
  have outer : ∀ n ≤ bytes.length, (List.range n).foldlM (fun (bits : List Bool) i => do
      let s ← idxR bytes i
      (List.range 8).foldlM (fun (bits : List Bool) i => return bits ++ [(s >>> i) &&& 1 == 1]) bits) [] =
        (.ok (u8VecToBoolVec (bytes.take n)) : R (List Bool)) := by
    intro n
    induction n with
    | zero => intro _; rfl
    | succ n ih =>
      intro hn
      rw [List.range_succ (n := n), List.foldlM_append, ih (by omega), okb, List.foldlM_cons, idxR_ok (List.getElem?_eq_getElem
        (show n < bytes.length by omega)), okb, inner, okb, List.foldlM_nil, purek, List.take_add_one,
        List.getElem?_eq_getElem (show n < bytes.length by omega)]
      simp only [u8VecToBoolVec, Option.toList_some, List.flatMap_append, List.flatMap_cons, List.flatMap_nil, List.append_nil]
  have h : unpackBitsToVec bytes = .ok (u8VecToBoolVec bytes) := by
    have := outer bytes.length (Nat.le_refl _)
    rwa [List.take_length] at this
  refine ⟨?_, h⟩
  rw [h]
  congr 1
  apply List.ext_getElem
  · simp [unpack_length]
  · intro k h1 h2
    have hk : k < 8 * bytes.length := by simpa using h2
    have := unpack_get bytes (k / 8) (k % 8) (Nat.mod_lt _ (by decide))
    rw [show 8 * (k / 8) + k % 8 = k by omega, List.getElem?_eq_getElem h1,
      List.getElem?_eq_getElem (show k / 8 < bytes.length by omega)] at this
    simp only [Option.map_some, Option.some.injEq] at this
    rw [this, List.getElem_map, List.getElem_range]
    unfold bitAt
    rw [List.getD_eq_getElem?_getD, List.getElem?_eq_getElem (show k / 8 < bytes.length by omega)]
    rfl

/-- C60.  `Message::from_zipped` keeps the pairs; `Message::from_unzipped` pairs two lists of the same length and
panics on others. -/
theorem C60_messages (msg : List (Bytes × Bytes)) (m0 m1 : List Bytes) :
    messageFromZipped msg = msg ∧
    (m0.length = m1.length → messageFromUnzipped m0 m1 = .ok (m0.zip m1)) ∧
    (m0.length ≠ m1.length → messageFromUnzipped m0 m1 = .error .panic) ∧
    messageLen msg = msg.length ∧ (messageIsEmpty msg = true ↔ msg = []) := by
  refine ⟨?_, fun h => ?_, fun h => ?_, rfl, by simp [messageIsEmpty]⟩
  · have : ∀ (l acc : List (Bytes × Bytes)), l.foldl (fun vec m => vec ++ [(m.1, m.2)]) acc = acc ++ l := by
      intro l
      induction l with
      | nil => simp
      | cons m l ih => intro acc; rw [List.foldl_cons, ih]; simp
    exact this msg []
  · unfold messageFromUnzipped
    have hA : assertR (m0.length = m1.length) = .ok () := by unfold assertR; simp [h]
    rw [hA, okb]
    have : ∀ n ≤ m0.length, (List.range n).foldlM (fun (m : List (Bytes × Bytes)) i =>
        return m ++ [(← idxR m0 i, ← idxR m1 i)]) [] = (.ok ((m0.zip m1).take n) : R _) := by
      intro n
      induction n with
      | zero => intro _; rfl
      | succ n ih =>
        intro hn
        have e0 := List.getElem?_eq_getElem (show n < m0.length by omega)
        have e1 := List.getElem?_eq_getElem (show n < m1.length by omega)
        rw [List.range_succ, List.foldlM_append, ih (by omega), okb, List.foldlM_cons, idxR_ok e0, okb, idxR_ok e1, okb,
          purek, okb, List.foldlM_nil, purek, List.take_add_one, List.getElem?_zip_eq_some (z := (m0[n], m1[n])).mpr ⟨e0, e1⟩]
        rfl
    rw [this _ (Nat.le_refl _), List.take_of_length_le (by simp)]
  · unfold messageFromUnzipped
    have hA : assertR (m0.length = m1.length) = .error .panic := by unfold assertR; simp [h, panicR]
    rw [hA]; rfl

example := (C60_messages Witness.messages [[1], [2]] [[3]]).2.2.1 (by decide)

/-- C60.  `wires_from_bytes` cuts a byte string into binary labels of 32 bytes each, ignores an incomplete last one,
and never fails. -/
theorem C60_wires_from_bytes (dbg : Bool) (bytes : Bytes) :
    ∃ ws, wiresFromBytes dbg bytes .binary = .ok ws ∧ ws.length = bytes.length / 32 ∧
      ∀ i (h : i < ws.length), ws[i].domain = .binary ∧ ws[i].bytes = (bytes.drop (32 * i)).take 32 := by
  have hc : ∀ i < bytes.length / 32, ((bytes.drop (i * 32)).take 32).length = 32 := by
    intro i hi; simp; omega
  obtain ⟨ws, e, hf⟩ := mapM_exists (l := chunks32 bytes)
    (f := fun chunk => do Wire.fromArray dbg (← toArray32 chunk) .binary)
    (P := fun chunk w => w.domain = .binary ∧ w.bytes = chunk) (by
      intro chunk hm
      obtain ⟨i, hi, rfl⟩ := List.mem_map.mp hm
      have hl := hc i (by simpa using hi)
      generalize (bytes.drop (i * 32)).take 32 = chunk at *
      unfold toArray32
      rw [dif_pos hl, okb]
      exact ⟨_, rfl, rfl, by simp [Wire.bytes, Vector.toList]⟩)
  have hl : ws.length = bytes.length / 32 := by rw [← hf.length_eq]; simp [chunks32]
  refine ⟨ws, e, hl, fun i h => ?_⟩
  have := hf.get (i := i) (by simp [chunks32]; omega) h
  simp only [List.get_eq_getElem] at this
  rw [this.2]
  exact ⟨this.1, by simp [chunks32, Nat.mul_comm]⟩

/-- The helpers on unequal lengths. -/
example : apXor false [9, 9, 9] [1, 2] [3, 4, 5] = .ok [2, 6, 9] ∧ apXor true [9, 9, 9] [1, 2] [3, 4, 5] = .error .panic ∧
    apXorInplace false [1, 2] [3] = .ok [2, 2] ∧ apEq false [1] [1, 2] = .ok true ∧ apEq false [1, 2] [1] = .error .panic ∧
    zeroInplace [7] = .ok [7] ∧ messageFromUnzipped [[1], [2]] [[3]] = .error .panic := by decide +kernel

end FP.Props
