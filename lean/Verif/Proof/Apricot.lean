import Verif.Proof.Workers
import Verif.Proof.Bits
import Verif.Proof.GF128
import Verif.Spec.Extension
/-
The pieces of the OT extension.
-/
namespace FP
open Spec

attribute [local irreducible] Spec.modulus

/-! ### Field -/

theorem gf_two : (2 : Spec.GF) = 0 := by
  have h1 : (2 : Spec.GF) = AdjoinRoot.mk Spec.modulus 2 := (map_ofNat (AdjoinRoot.mk Spec.modulus) 2).symm
  have h2 : (2 : Polynomial (ZMod 2)) = 0 := by
    have : (2 : Polynomial (ZMod 2)) = Polynomial.C 2 := (map_ofNat Polynomial.C 2).symm
    rw [this, show (2 : ZMod 2) = 0 by decide, Polynomial.C_0]
  rw [h1, h2, map_zero]

theorem gf_add_self (x : Spec.GF) : x + x = 0 := by
  linear_combination x * gf_two

theorem apricotMulAcc_elt (arm : Bool) (acc a b : Bytes) (hacc : acc.length = 16)
    (ha : a.length = 16) (hb : b.length = 16) :
    ∃ out, apricotMulAcc arm acc a b = .ok out ∧ out.length = 16 ∧
      Spec.elt out = Spec.elt acc + Spec.elt a * Spec.elt b := by
  have hcore : ∃ chk, apricotMulAcc arm acc a b = mulAccCore false chk acc a b := by
    cases arm
    · exact ⟨false, (mulAccApricotX86_eq acc a b).trans (mulAccX86_core false acc a b)⟩
    · exact ⟨true, mulAccArm64_core false acc a b⟩
  obtain ⟨chk, h⟩ := hcore
  obtain ⟨out, h1, h2, h3⟩ := mulAccCore_ok false chk acc a b hacc ha hb
  refine ⟨out, h.trans h1, h2, ?_⟩
  unfold Spec.elt
  rw [h3, ← map_mul, ← map_add]
  apply AdjoinRoot.mk_eq_mk.mpr
  refine Dvd.intro (-((Spec.poly acc + Spec.poly a * Spec.poly b) /ₘ Spec.modulus)) ?_
  have h := Polynomial.modByMonic_add_div (Spec.poly acc + Spec.poly a * Spec.poly b) Spec.modulus
  linear_combination -h

theorem elt_bits (bs : Bytes) (h : bs.length = 16) : elt bs = bitsElt (bitAt bs) := by
  unfold elt poly bitsElt
  rw [h, map_sum]
  apply Finset.sum_congr rfl
  intro i _
  unfold bitAt
  split
  · rw [map_pow, AdjoinRoot.mk_X]
  · rw [map_zero]

theorem bitsElt_congr {f g : Nat → Bool} (h : ∀ i < 128, f i = g i) : bitsElt f = bitsElt g := by
  unfold bitsElt
  apply Finset.sum_congr rfl
  intro i hi
  rw [h i (by simpa using hi)]

theorem bitsElt_xor (f g : Nat → Bool) : bitsElt (fun i => f i ^^ g i) = bitsElt f + bitsElt g := by
  unfold bitsElt
  rw [← Finset.sum_add_distrib]
  apply Finset.sum_congr rfl
  intro i _
  cases hf : f i <;> cases hg : g i <;> simp [hf, hg, gf_add_self]

theorem bitsElt_false : bitsElt (fun _ => false) = 0 := by simp [bitsElt]

theorem elt_eq_iff {a b : Bytes} (ha : a.length = 16) (hb : b.length = 16) : elt a = elt b ↔ a = b :=
  ⟨elt_inj ha hb, fun h => h ▸ rfl⟩

/-! ### Byte loops -/

theorem apXorInplace_ok (dbg : Bool) {a b : Bytes} (h : a.length = b.length) :
    apXorInplace dbg a b = .ok (List.zipWith (· ^^^ ·) a b) := by
  have := xorBytesInplace_ok dbg h
  unfold xorBytesInplace at this
  unfold apXorInplace
  rw [debugAssertR_true (by simpa using h.symm), okb, ← h]
  rwa [debugAssertR_true (by simpa using h), okb] at this

theorem apXor_ok (dbg : Bool) {d a b : Bytes} (h : a.length = b.length) (hd : a.length = d.length) :
    apXor dbg d a b = .ok (List.zipWith (· ^^^ ·) a b) := by
  unfold apXor
  rw [debugAssertR_true (by simpa using h), okb, debugAssertR_true (by simpa using hd), okb]
  obtain ⟨t, ht, hl, hp⟩ := foldlM_inv (l := List.range a.length)
    (f := fun d i => do setR d i ((← idxR a i) ^^^ (← idxR b i))) (s := d)
    (fun k t => t.length = a.length ∧ ∀ j < k, t[j]? = (List.zipWith (· ^^^ ·) a b)[j]?)
    ⟨hd.symm, by intro j hj; omega⟩
    (by
      rintro i x t hx ⟨hl, hp⟩
      obtain ⟨hi, rfl⟩ : i < a.length ∧ i = x := by
        rw [List.getElem?_eq_some_iff] at hx
        obtain ⟨h1, h2⟩ := hx
        simp at h1 h2; exact ⟨h1, h2⟩
      refine ⟨t.set i (a[i] ^^^ b[i]'(by omega)), ?_, by simpa using hl, ?_⟩
      · rw [idxR_ok (a := a[i]) (by simp), okb, idxR_ok (a := b[i]'(by omega)) (by simp), okb,
          setR_ok _ (by omega)]
      · intro j hj
        by_cases hji : j = i
        · subst hji
          rw [List.getElem?_set_self (by omega)]
          have : j < b.length := by omega
          simp [hi, this]
        · rw [List.getElem?_set_ne (Ne.symm hji)]
          exact hp j (by omega))
  rw [ht]
  refine congrArg Except.ok ?_
  apply List.ext_getElem?
  intro j
  by_cases hj : j < a.length
  · exact hp j (by simpa using hj)
  · rw [List.getElem?_eq_none (by omega), List.getElem?_eq_none (by simp; omega)]

theorem apEqLoop_ok (a b : Bytes) (h : a.length = b.length) : apEqLoop a b = .ok (decide (a = b)) := by
  induction a generalizing b with
  | nil =>
    cases b with
    | nil => rfl
    | cons => simp at h
  | cons x a ih =>
    cases b with
    | nil => simp at h
    | cons y b =>
      unfold apEqLoop
      by_cases hxy : x = y
      · rw [if_neg (by simpa using hxy), ih b (by simpa using h)]
        simp [hxy]
      · rw [if_pos hxy]; simp [hxy]

theorem apEq_ok (dbg : Bool) (a b : Bytes) (h : a.length = b.length) : apEq dbg a b = .ok (decide (a = b)) := by
  unfold apEq
  rw [debugAssertR_true (by simpa using h), okb, apEqLoop_ok a b h]

theorem arrayFromSlice_toList (w : WireBytes) : arrayFromSlice w.toList = .ok w := by
  unfold arrayFromSlice
  rw [dif_pos (by simp)]
  refine congrArg Except.ok ?_
  apply Vector.toList_inj.mp
  simp

theorem toArray32_toList (w : WireBytes) : toArray32 w.toList = .ok w := by
  unfold toArray32
  rw [dif_pos (by simp)]
  refine congrArg Except.ok ?_
  apply Vector.toList_inj.mp
  simp

/-! ### Rows -/

theorem row_flatMap {g : Nat → Bytes} {n w i : Nat} (hg : ∀ i < n, (g i).length = w) (hi : i < n) :
    row ((List.range n).flatMap g) w i = g i := flatMap_row hg hi

theorem vectorRow_ok {v : Bytes} {w i n : Nat} (hl : w * n ≤ v.length) (hi : i < n) :
    vectorRow v i w = .ok (row v w i) := by
  unfold vectorRow
  rw [if_pos]
  · rfl
  · have : w * (i + 1) ≤ w * n := Nat.mul_le_mul_left _ hi
    rw [Nat.mul_add] at this; omega

theorem row_length {v : Bytes} {w i n : Nat} (hl : w * n ≤ v.length) (hi : i < n) : (row v w i).length = w := by
  have : w * (i + 1) ≤ w * n := Nat.mul_le_mul_left _ hi
  rw [Nat.mul_add] at this
  simp [row]; omega

theorem flatMap_len {g : Nat → Bytes} {n w : Nat} (hg : ∀ i < n, (g i).length = w) :
    ((List.range n).flatMap g).length = w * n :=
  flatMap_const_length _ (fun i hi => hg i (by simpa using hi)) (by simp)

theorem apRows_ok (X : Crypto) (w : Nat) (seeds : List Bytes) (s : Nat → WireBytes)
    (h : ∀ i < 128, seeds[i]? = some (s i).toList) :
    apRows X w seeds = .ok ((List.range 128).flatMap fun i => X.fill (s i) w) := by
  unfold apRows
  refine updateRows_ok (n := 128) _ (fun i => X.fill (s i) w) ?_ (fun i _ => fill_length ..)
  intro i hi
  rw [idxR_ok (h i hi), okb, arrayFromSlice_toList, okb, List.length_replicate]
  rfl

theorem bit_and_one (x : Byte) (b : Nat) : ((x >>> b) &&& 1 = 1) ↔ x.getLsbD b = true := by
  constructor
  · intro h
    have := congrArg (·.getLsbD 0) h
    simpa [BitVec.getLsbD_ushiftRight] using this
  · intro h
    apply BitVec.eq_of_getLsbD_eq
    intro i _
    rw [BitVec.getLsbD_and, BitVec.getLsbD_ushiftRight]
    by_cases hi : i = 0
    · subst hi; simpa using h
    · simp [hi]

/-- The rows of `q`. -/
def qRow (delta u : Bytes) (w : Nat) (T : Nat → Bytes) (i : Nat) : Bytes :=
  if bitAt delta i then List.zipWith (· ^^^ ·) (row u w i) (T i) else T i

theorem qRow_length {delta u : Bytes} {w : Nat} {T : Nat → Bytes} (hu : w * 128 ≤ u.length)
    (hT : ∀ i < 128, (T i).length = w) : ∀ i < 128, (qRow delta u w T i).length = w := by
  intro i hi
  unfold qRow
  split
  · simp [row_length hu hi, hT i hi]
  · exact hT i hi

theorem zipWith_zero' {m : Bytes} {n : Nat} (h : m.length = n) :
    List.zipWith (· ^^^ ·) (List.replicate n (0 : Byte)) m = m := by
  subst h; exact zipWith_zero m

theorem apQ_ok (dbg : Bool) (w : Nat) (delta u : Bytes) (T : Nat → Bytes) (hd : delta.length = 16)
    (hT : ∀ i < 128, (T i).length = w) (hu : w * 128 ≤ u.length) :
    apQ dbg w delta ((List.range 128).flatMap T) u = .ok ((List.range 128).flatMap (qRow delta u w T)) := by
  unfold apQ
  refine updateRows_ok (n := 128) _ (qRow delta u w T) ?_ (qRow_length hu hT)
  intro i hi
  rw [idxR_getD (show i / 8 < delta.length by omega), okb]
  dsimp only
  have hb : ((delta.getD (i / 8) 0 >>> (i % 8)) &&& 1 = 1) ↔ bitAt delta i = true := bit_and_one _ _
  have ht : vectorRow ((List.range 128).flatMap T) i w = .ok (T i) := by
    rw [vectorRow_ok (n := 128) (by rw [flatMap_len hT]) hi, row_flatMap hT hi]
  unfold qRow
  by_cases h : bitAt delta i = true
  · rw [if_pos (hb.mpr h), if_pos h, vectorRow_ok hu hi, okb,
      apXorInplace_ok dbg (by rw [row_length hu hi]; simp), zipWith_zero' (row_length hu hi), okb, ht, okb,
      apXorInplace_ok dbg (by rw [row_length hu hi, hT i hi])]
  · rw [if_neg (fun h' => h (hb.mp h')), if_neg h]
    simp only [purek, okb]
    rw [ht, okb, apXorInplace_ok dbg (by simp [hT i hi]), zipWith_zero' (hT i hi)]

/-- The transpose of 128 rows of `w` bytes. -/
theorem transpose128_ok (w : Nat) (Q : Nat → Bytes) (hQ : ∀ i < 128, (Q i).length = w) :
    ∃ t, transposeMatrix ((List.range 128).flatMap Q) (List.replicate (16 * (8 * w)) 0) 128 w 16 = .ok t ∧
      t.length = 16 * (8 * w) ∧ ∀ j < 8 * w, ∀ i < 128, bitAt (row t 16 j) i = bitAt (Q i) j := by
  obtain ⟨t, e, hl, hb⟩ := transposeMatrix_ok ((List.range 128).flatMap Q) 128 w 16
    (by rw [flatMap_len hQ, Nat.mul_comm]) (by decide)
  refine ⟨t, e, hl, fun j hj i hi => ?_⟩
  have h1 : bitAt (row t 16 j) i = flatBit t 16 j i := bitAt_row t 16 j i (by omega)
  have h2 : bitAt (row ((List.range 128).flatMap Q) w i) j = flatBit ((List.range 128).flatMap Q) w i j :=
    bitAt_row _ w i j hj
  rw [h1, hb j hj i (by omega), ← h2, row_flatMap hQ hi]
  simp [hi]

/-! ### Sums -/

theorem apSum_ok (arm : Bool) (l : Nat) (rows chi : Bytes) (hr : 16 * l ≤ rows.length) (hc : 16 * l ≤ chi.length) :
    ∃ s, apSum arm l rows chi = .ok s ∧ s.length = 16 ∧
      elt s = ∑ j ∈ Finset.range l, elt (row rows 16 j) * elt (row chi 16 j) := by
  unfold apSum
  obtain ⟨s, h, hl, hp⟩ := foldlM_inv (l := List.range l)
    (f := fun acc j => do
      let row ← vectorRow rows j 16
      let chiRow ← vectorRow chi j 16
      apricotMulAcc arm acc row chiRow) (s := List.replicate 16 0)
    (fun k s => s.length = 16 ∧ elt s = ∑ j ∈ Finset.range k, elt (row rows 16 j) * elt (row chi 16 j))
    ⟨by simp, by rw [elt_zero]; simp⟩
    (by
      rintro i x s hx ⟨hl, hp⟩
      obtain ⟨hi, rfl⟩ : i < l ∧ i = x := by
        rw [List.getElem?_eq_some_iff] at hx
        obtain ⟨h1, h2⟩ := hx
        simp at h1 h2; exact ⟨h1, h2⟩
      obtain ⟨out, h1, h2, h3⟩ := apricotMulAcc_elt arm s (row rows 16 i) (row chi 16 i) hl (row_length hr hi)
        (row_length hc hi)
      refine ⟨out, ?_, h2, ?_⟩
      · rw [vectorRow_ok hr hi, okb, vectorRow_ok hc hi, okb, h1]
      · rw [h3, hp, Finset.sum_range_succ])
  exact ⟨s, h, hl, by simpa using hp⟩

theorem apReceiverSums_ok (dbg arm : Bool) (l : Nat) (padded : List Bool) (t chi : Bytes) (hp : padded.length = l)
    (hr : 16 * l ≤ t.length) (hc : 16 * l ≤ chi.length) :
    ∃ x s, apReceiverSums dbg arm l padded t chi = .ok (x, s) ∧ x.length = 16 ∧ s.length = 16 ∧
      elt x = (∑ j ∈ Finset.range l, if padded.getD j false then elt (row chi 16 j) else 0) ∧
      elt s = ∑ j ∈ Finset.range l, elt (row t 16 j) * elt (row chi 16 j) := by
  unfold apReceiverSums
  obtain ⟨s, h, hl1, hl2, hp1, hp2⟩ := foldlM_inv (l := List.range l)
    (f := fun (s : Bytes × Bytes) j => do
      let chiRow ← vectorRow chi j 16
      let xSum ← if (← idxR padded j) then apXorInplace dbg s.1 chiRow else pure s.1
      let tRow ← vectorRow t j 16
      let tSum ← apricotMulAcc arm s.2 tRow chiRow
      return (xSum, tSum)) (s := (List.replicate 16 0, List.replicate 16 0))
    (fun k s => s.1.length = 16 ∧ s.2.length = 16 ∧
      elt s.1 = (∑ j ∈ Finset.range k, if padded.getD j false then elt (row chi 16 j) else 0) ∧
      elt s.2 = ∑ j ∈ Finset.range k, elt (row t 16 j) * elt (row chi 16 j))
    ⟨by simp, by simp, by rw [elt_zero]; simp, by rw [elt_zero]; simp⟩
    (by
      rintro i x ⟨xs, ts⟩ hx ⟨hl1, hl2, hp1, hp2⟩
      obtain ⟨hi, rfl⟩ : i < l ∧ i = x := by
        rw [List.getElem?_eq_some_iff] at hx
        obtain ⟨h1, h2⟩ := hx
        simp at h1 h2; exact ⟨h1, h2⟩
      dsimp only at hl1 hl2 hp1 hp2
      obtain ⟨out, h1, h2, h3⟩ := apricotMulAcc_elt arm ts (row t 16 i) (row chi 16 i) hl2 (row_length hr hi)
        (row_length hc hi)
      have hpi : padded[i]? = some (padded[i]'(by omega)) := by simp
      have hpd : padded.getD i false = padded[i]'(by omega) := by simp [show i < padded.length by omega]
      refine ⟨(if padded.getD i false then List.zipWith (· ^^^ ·) xs (row chi 16 i) else xs, out), ?_, ?_, h2, ?_, ?_⟩
      · rw [vectorRow_ok hc hi, okb, idxR_ok hpi, okb, vectorRow_ok hr hi, hpd]
        cases padded[i]'(by omega) with
        | false =>
          rw [if_neg (by simp), if_neg (by simp)]
          simp only [purek, okb, h1]
        | true =>
          rw [if_pos rfl, if_pos rfl, apXorInplace_ok dbg (by rw [hl1, row_length hc hi])]
          simp only [purek, okb, h1]
      · dsimp only
        split
        · simp [hl1, row_length hc hi]
        · exact hl1
      · dsimp only
        rw [Finset.sum_range_succ, ← hp1]
        split
        · rw [elt_xor _ _ (by rw [hl1, row_length hc hi])]
        · rw [add_zero]
      · dsimp only
        rw [h3, hp2, Finset.sum_range_succ])
  exact ⟨s.1, s.2, h, hl1, hl2, by simpa using hp1, by simpa using hp2⟩

/-! ### Loops over rows -/

/-- A loop whose step `i` replaces row `i` of a buffer of equal rows. -/
theorem rowLoop_ok {α : Type} (z : α) {n len : Nat} (f : Nat → List α → R (List α)) (g : Nat → List α)
    (hg : ∀ i < n, (g i).length = len)
    (hf : ∀ i < n, ∀ pre post : List α, pre.length = len * i →
      f i (pre ++ List.replicate len z ++ post) = .ok (pre ++ g i ++ post)) :
    (List.range n).foldlM (fun y i => f i y) (List.replicate (n * len) z) = .ok ((List.range n).flatMap g) := by
  have flen : ∀ k ≤ n, ((List.range k).flatMap g).length = len * k := by
    intro k
    induction k with
    | zero => intro _; simp
    | succ k ih =>
      intro hk
      rw [List.range_succ, List.flatMap_append, List.length_append, ih (by omega)]
      simp [hg k (by omega), Nat.mul_add]
  have key : ∀ k, k ≤ n → (List.range k).foldlM (fun y i => f i y) (List.replicate (n * len) z) =
        .ok ((List.range k).flatMap g ++ List.replicate ((n - k) * len) z) := by
    intro k
    induction k with
    | zero => intro _; simp; rfl
    | succ k ih =>
      intro hk
      rw [List.range_succ, List.foldlM_append, ih (by omega), okb]
      have e : (n - k) * len = len + (n - (k + 1)) * len := by
        rw [show n - k = (n - (k + 1)) + 1 by omega, Nat.add_mul]; omega
      rw [e, ← List.replicate_append_replicate, ← List.append_assoc]
      show (f k _ >>= fun y => .ok y) = _
      rw [hf k (by omega) _ _ (flen k (by omega)), okb]
      simp
  have := key n (Nat.le_refl n)
  simpa using this

theorem updateSlice_at (pre mid post : Bytes) (off len : Nat) (hpre : pre.length = off)
    (hmid : mid.length = len) (f : Bytes → R Bytes) :
    updateSlice (pre ++ mid ++ post) off len f = (f mid >>= fun r => .ok (pre ++ r ++ post)) := by
  unfold updateSlice
  rw [if_pos (by simp [hpre, hmid])]
  have h1 : (pre ++ mid ++ post).take off = pre := by
    rw [List.append_assoc, ← hpre, List.take_left]
  have h2 : ((pre ++ mid ++ post).drop off).take len = mid := by
    rw [List.append_assoc, ← hpre, List.drop_left, ← hmid, List.take_left]
  have h3 : (pre ++ mid ++ post).drop (off + len) = post := by
    have : (pre ++ mid).length = off + len := by simp [hpre, hmid]
    rw [← this, List.drop_left]
  rw [h1, h2, h3]; rfl

/-- The two ciphertexts of pair `j`. -/
def apCipher (X : Crypto) (key : Bytes) (j : Nat) (m : Bytes) : Bytes :=
  List.zipWith (· ^^^ ·) (X.fill (X.sha256 (beBytes 8 j ++ key)) m.length) m

theorem apCipher_length (X : Crypto) (key : Bytes) (j : Nat) (m : Bytes) :
    (apCipher X key j m).length = m.length := by simp [apCipher, fill_length]

def apPair (X : Crypto) (delta qT : Bytes) (msg : List (Bytes × Bytes)) (j : Nat) : Bytes :=
  apCipher X (row qT 16 j) j (msg.getD j ([], [])).1 ++
    apCipher X (List.zipWith (· ^^^ ·) (row qT 16 j) delta) j (msg.getD j ([], [])).2

theorem apRandomizeRow_ok (X : Crypto) (delta qT : Bytes) (msg : List (Bytes × Bytes)) (ms j i : Nat)
    (hd : delta.length = 16) (hq : 16 * msg.length ≤ qT.length) (hj : j < msg.length)
    (hm : ∀ m ∈ msg, m.1.length = ms ∧ m.2.length = ms) (pre post : Bytes) (hpre : pre.length = (ms * 2) * i) :
    apRandomizeRow X delta qT msg ms j i (pre ++ List.replicate (ms * 2) 0 ++ post) =
      .ok (pre ++ apPair X delta qT msg j ++ post) := by
  rcases hmj : msg[j] with ⟨m0, m1⟩
  have hget : msg[j]? = some (m0, m1) := by rw [List.getElem?_eq_getElem hj, hmj]
  obtain ⟨hm0, hm1⟩ := hm (m0, m1) (hmj ▸ List.getElem_mem hj)
  dsimp only at hm0 hm1
  unfold apRandomizeRow
  rw [vectorRow_ok hq hj, okb, idxR_ok hget, okb]
  have hsplit : pre ++ List.replicate (ms * 2) (0 : Byte) ++ post =
      pre ++ List.replicate ms 0 ++ (List.replicate ms 0 ++ post) := by
    rw [Nat.mul_two, ← List.replicate_append_replicate]; simp only [List.append_assoc]
  rw [hsplit, updateSlice_at _ _ _ _ _ (by rw [hpre, Nat.mul_comm]) (by simp), List.length_replicate,
    apXorInplace_ok _ (by rw [fill_length, hm0]), okb, okb,
    apXor_ok _ (by rw [row_length hq hj, hd]) (by rw [row_length hq hj]; simp), okb]
  rw [← List.append_assoc, updateSlice_at _ _ _ _ _ (by simp [hpre, fill_length, hm0, Nat.mul_comm]) (by simp),
    List.length_replicate, apXorInplace_ok _ (by rw [fill_length, hm1]), okb]
  refine congrArg Except.ok ?_
  unfold apPair apCipher
  have hgd : msg.getD j ([], []) = (m0, m1) := by rw [List.getD, hget]; rfl
  rw [hgd]
  dsimp only
  rw [hm0, hm1]
  simp

theorem apPair_length (X : Crypto) (delta qT : Bytes) (msg : List (Bytes × Bytes)) (ms j : Nat)
    (hj : j < msg.length) (hm : ∀ m ∈ msg, m.1.length = ms ∧ m.2.length = ms) :
    (apPair X delta qT msg j).length = ms * 2 := by
  have hgd : msg.getD j ([], []) = msg[j] := by simp [hj]
  obtain ⟨h0, h1⟩ := hm _ (List.getElem_mem hj)
  unfold apPair
  rw [List.length_append, apCipher_length, apCipher_length, hgd, h0, h1]; omega

theorem apRandomize_ok (X : Crypto) (cores : Nat) (sched : Nat → List Nat) (delta qT : Bytes)
    (msg : List (Bytes × Bytes)) (ms : Nat) (hc : 0 < cores) (hs : ∀ n, IsOrder n (sched n))
    (hn : 0 < msg.length) (hms : 0 < ms) (hd : delta.length = 16) (hq : 16 * msg.length ≤ qT.length)
    (hm : ∀ m ∈ msg, m.1.length = ms ∧ m.2.length = ms) :
    apRandomize X cores sched delta qT msg ms = .ok ((List.range msg.length).flatMap (apPair X delta qT msg)) := by
  unfold apRandomize
  obtain ⟨hp1, hp2⟩ := pick_pos hc hn
  dsimp only
  rw [divR_ok hp1, okb]
  have hk : 0 < msg.length / pickThreads cores msg.length := Nat.div_pos hp2 hp1
  generalize msg.length / pickThreads cores msg.length = k at *
  refine rowJobs_ok (0 : Byte) hk (by omega) sched hs _ (apPair X delta qT msg) ?_
  intro c r hcr
  rw [divR_ok (by omega), okb, List.length_replicate, Nat.mul_div_cancel _ (by omega)]
  refine rowLoop_ok (0 : Byte) (fun i chunk => apRandomizeRow X delta qT msg ms (c * k + i) i chunk)
    (fun i => apPair X delta qT msg (c * k + i)) ?_ ?_
  · intro i hi; exact apPair_length X delta qT msg ms _ (by omega) hm
  · intro i hi pre post hpre
    exact apRandomizeRow_ok X delta qT msg ms _ i hd hq (by omega) hm pre post hpre

theorem apV_ok (X : Crypto) (cores : Nat) (sched : Nat → List Nat) (l : Nat) (t : Bytes) (hc : 0 < cores)
    (hs : ∀ n, IsOrder n (sched n)) (hl : 0 < l) (ht : 16 * l ≤ t.length) :
    apV X cores sched l t =
      .ok ((List.range l).flatMap fun j => (X.sha256 (beBytes 8 j ++ row t 16 j)).toList) := by
  unfold apV
  obtain ⟨hp1, hp2⟩ := pick_pos hc hl
  dsimp only
  rw [divR_ok hp1, okb]
  have hk : 0 < l / pickThreads cores l := Nat.div_pos hp2 hp1
  generalize l / pickThreads cores l = k at *
  refine rowJobs_ok (0 : Byte) hk (by omega) sched hs _
    (fun j => (X.sha256 (beBytes 8 j ++ row t 16 j)).toList) ?_
  intro c r hcr
  rw [List.length_replicate, Nat.mul_div_cancel _ (by omega)]
  refine updateRows_ok (n := r) (len := 32) _
    (fun i => (X.sha256 (beBytes 8 (c * k + i) ++ row t 16 (c * k + i))).toList) ?_ (by simp)
  intro i hi
  rw [vectorRow_ok ht (by omega), okb, apXorInplace_ok _ (by simp), zipWith_zero' (by simp)]

theorem apDerandomize_ok (X : Crypto) (cores : Nat) (sched : Nat → List Nat) (v d packed : Bytes) (n ms : Nat)
    (out : Nat → Bytes) (hc : 0 < cores) (hs : ∀ n, IsOrder n (sched n)) (hn : 0 < n)
    (hd : d.length = n * (ms * 2))
    (hrow : ∀ j < n, apDerandomizeRow X v d packed ms j (List.replicate ms 0) = .ok (out j)) :
    apDerandomize X cores sched v d packed n (List.replicate n (List.replicate ms 0)) =
      .ok ((List.range n).map out) := by
  unfold apDerandomize
  obtain ⟨hp1, hp2⟩ := pick_pos hc hn
  rw [divR_ok hn, okb, divR_ok hp1, okb]
  have hms : d.length / 2 / n = ms := by
    rw [hd, ← Nat.mul_assoc, Nat.mul_div_cancel _ (by decide), Nat.mul_div_cancel_left _ hn]
  rw [hms]
  have hk : 0 < n / pickThreads cores n := Nat.div_pos hp2 hp1
  generalize n / pickThreads cores n = k at *
  have := rowJobs_ok (List.replicate ms (0 : Byte)) (n := n) hk (len := 1) (by omega) sched hs
    (fun c chunk => (List.range chunk.length).foldlM (fun chunk i => do
      setR chunk i (← apDerandomizeRow X v d packed ms (c * k + i) (← idxR chunk i))) chunk)
    (fun j => [out j]) (by
      intro c r hcr
      rw [List.length_replicate, Nat.mul_one]
      have := rowLoop_ok (List.replicate ms (0 : Byte)) (n := r) (len := 1)
        (fun i chunk => do
          setR chunk i (← apDerandomizeRow X v d packed ms (c * k + i) (← idxR chunk i)))
        (fun i => [out (c * k + i)]) (by simp) (by
          intro i hi pre post hpre
          rw [Nat.one_mul] at hpre
          subst hpre
          rw [idxR_ok (a := List.replicate ms 0) (by simp), okb, hrow _ (by omega), okb, setR_ok _ (by simp)]
          simp)
      simpa using this)
  simp only [Nat.mul_one] at this
  rw [this]
  refine congrArg Except.ok ?_
  induction (List.range n) with
  | nil => rfl
  | cons a l ih => simp [ih]

/-! ### The receiver's matrix -/

theorem apPack_ok (padded : List Bool) :
    ∃ p, apPack padded = .ok p ∧ p.length = padded.length / 8 ∧
      ∀ k < 8 * (padded.length / 8), bitAt p k = padded.getD k false := by
  have heq : apPack padded =
      (((List.range (padded.length / 8)).flatMap fun i => (List.range 8).map fun b => (i, b))).foldlM
        (fun packed p => if padded.getD (p.1 * 8 + p.2) false then orAt packed p.1 ((1 : Byte) <<< p.2)
          else pure packed)
        (List.replicate (padded.length / 8) 0) := by
    unfold apPack
    rw [← foldlM_flat]
    apply foldlM_congr'
    intro i hi t
    rw [← foldlM_map']
    apply foldlM_congr'
    intro b hb t
    rw [List.mem_range] at hi hb
    have hlt : i * 8 + b < padded.length := by omega
    rw [idxR_ok (a := padded[i * 8 + b]) (List.getElem?_eq_getElem hlt), okb]
    simp [List.getD, hlt]
  rw [heq]
  obtain ⟨t, e, hlen, hbits⟩ := foldlM_pre
    (fun (packed : Bytes) (p : Nat × Nat) =>
      if padded.getD (p.1 * 8 + p.2) false then orAt packed p.1 ((1 : Byte) <<< p.2) else pure packed)
    ((List.range (padded.length / 8)).flatMap fun i => (List.range 8).map fun b => (i, b))
    (fun pre t => t.length = padded.length / 8 ∧ ∀ k, bitAt t k =
      pre.any fun p => decide (k = 8 * p.1 + p.2) && padded.getD (p.1 * 8 + p.2) false)
    (List.replicate (padded.length / 8) 0)
    ⟨by simp, by intro k; rw [bitAt_replicate]; simp⟩
    (by
      rintro pre ⟨i, b⟩ t hm ⟨hl, hb⟩
      have hm' : i < padded.length / 8 ∧ b < 8 := by simpa using hm
      dsimp only
      by_cases hpad : padded.getD (i * 8 + b) false = true
      · obtain ⟨t', e, hl', hb'⟩ := orAt_ok (v := t) (i := i) (by omega) ((1 : Byte) <<< b) b hm'.2 true
          (by
            intro j
            rw [BitVec.getLsbD_shiftLeft]
            by_cases h : j = b
            · subst h; simp [hm'.2]
            · simp only [h, decide_false, Bool.false_and]
              by_cases h1 : j < b
              · simp [h1]
              · simp [show ¬ j - b = 0 by omega])
        refine ⟨t', by rw [if_pos hpad]; exact e, by omega, fun k => ?_⟩
        rw [hb' k, hb k, List.any_append]
        simp only [List.any_cons, List.any_nil, Bool.or_false, hpad]
      · refine ⟨t, by rw [if_neg hpad]; rfl, hl, fun k => ?_⟩
        rw [hb k, List.any_append]
        simp only [List.any_cons, List.any_nil, Bool.or_false, Bool.not_eq_true] at hpad ⊢
        rw [hpad]; simp)
  refine ⟨t, e, hlen, fun k hk => ?_⟩
  rw [hbits, Bool.eq_iff_iff, List.any_eq_true]
  constructor
  · rintro ⟨⟨i, b⟩, _, he⟩
    simp only [Bool.and_eq_true, decide_eq_true_eq] at he
    rw [he.1, show 8 * i + b = i * 8 + b by omega]
    exact he.2
  · intro he
    refine ⟨(k / 8, k % 8), by simp; omega, ?_⟩
    simp only [Bool.and_eq_true, decide_eq_true_eq]
    exact ⟨by omega, by rw [show k / 8 * 8 + k % 8 = k by omega]; exact he⟩

/-- Row `i` of `u`. -/
def uRow (packed : Bytes) (T0 T1 : Nat → Bytes) (i : Nat) : Bytes :=
  List.zipWith (· ^^^ ·) (List.zipWith (· ^^^ ·) (T0 i) (T1 i)) packed

theorem apU_ok (dbg : Bool) (w : Nat) (packed : Bytes) (T0 T1 : Nat → Bytes) (hp : packed.length = w)
    (h0 : ∀ i < 128, (T0 i).length = w) (h1 : ∀ i < 128, (T1 i).length = w) :
    apU dbg w ((List.range 128).flatMap T0) ((List.range 128).flatMap T1) packed =
      .ok ((List.range 128).flatMap (uRow packed T0 T1)) := by
  unfold apU
  refine updateRows_ok (n := 128) _ (uRow packed T0 T1) ?_ (fun i hi => by simp [uRow, h0 i hi, h1 i hi, hp])
  intro i hi
  rw [vectorRow_ok (n := 128) (by rw [flatMap_len h0]) hi, row_flatMap h0 hi, okb,
    vectorRow_ok (n := 128) (by rw [flatMap_len h1]) hi, row_flatMap h1 hi, okb,
    apXor_ok dbg (by rw [h0 i hi, h1 i hi]) (by simp [h0 i hi]), okb,
    apXorInplace_ok dbg (by simp [h0 i hi, h1 i hi, hp])]
  rfl

/-- Bit `j` of row `i` of the sender's matrix when the receiver is honest. -/
theorem qRow_honest {w : Nat} {delta packed : Bytes} {T0 T1 T : Nat → Bytes} (hp : packed.length = w)
    (h0 : ∀ i < 128, (T0 i).length = w) (h1 : ∀ i < 128, (T1 i).length = w)
    (hT : ∀ i < 128, T i = if bitAt delta i then T1 i else T0 i) (i : Nat) (hi : i < 128) (j : Nat) :
    bitAt (qRow delta ((List.range 128).flatMap (uRow packed T0 T1)) w T i) j =
      (bitAt (T0 i) j ^^ (bitAt delta i && bitAt packed j)) := by
  have hu : ∀ i < 128, (uRow packed T0 T1 i).length = w := fun i hi => by simp [uRow, h0 i hi, h1 i hi, hp]
  unfold qRow
  rw [row_flatMap hu hi, hT i hi]
  cases bitAt delta i with
  | false => simp
  | true =>
    simp only [if_true]
    rw [bitAt_xor _ _ (by rw [hu i hi, h1 i hi])]
    unfold uRow
    rw [bitAt_xor _ _ (by simp [h0 i hi, h1 i hi, hp]), bitAt_xor _ _ (by rw [h0 i hi, h1 i hi])]
    cases bitAt (T0 i) j <;> cases bitAt (T1 i) j <;> cases bitAt packed j <;> rfl

end FP
