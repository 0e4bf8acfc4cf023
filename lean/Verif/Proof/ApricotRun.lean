import Verif.Proof.Apricot
import Verif.Props.GF128
import Mathlib.Data.Fintype.Pigeonhole
import Mathlib.Data.Fintype.BigOperators
/-
The OT extension as a two-party run.
-/
namespace FP
open Spec

attribute [local irreducible] Spec.modulus

/-- The end of the sender, from the check values on. -/
def apFinish (X : Crypto) (arm : Bool) (cores : Nat) (sched : Nat → List Nat) (delta qT qSum : Bytes)
    (msg : List (Bytes × Bytes)) (msgSize : Nat) (xSum tSum : Bytes) : Proc Unit := do
  debugAssertR X.dbg (16 = xSum.length)
  debugAssertR X.dbg (16 = tSum.length)
  let qSum ← apricotMulAcc arm qSum xSum delta
  let equal ← apEq X.dbg tSum qSum
  if equal then do
    let d ← apRandomize X cores sched delta qT msg msgSize
    sendP d
  else
    errR .polychromatic

theorem apFinish_accept (X : Crypto) (arm : Bool) (cores : Nat) (sched : Nat → List Nat) (delta qT qSum : Bytes)
    (msg : List (Bytes × Bytes)) (ms : Nat) (xSum tSum : Bytes) (hc : 0 < cores) (hs : ∀ n, IsOrder n (sched n))
    (hn : 0 < msg.length) (hms : 0 < ms) (hd : delta.length = 16) (hq : 16 * msg.length ≤ qT.length)
    (hm : ∀ m ∈ msg, m.1.length = ms ∧ m.2.length = ms) (hqs : qSum.length = 16)
    (hx : xSum.length = 16) (ht : tSum.length = 16) (he : elt tSum = elt qSum + elt xSum * elt delta) :
    apFinish X arm cores sched delta qT qSum msg ms xSum tSum =
      .send ((List.range msg.length).flatMap (apPair X delta qT msg)) (.ret ()) := by
  obtain ⟨out, h1, h2, h3⟩ := apricotMulAcc_elt arm qSum xSum delta hqs hx hd
  have : tSum = out := elt_inj ht h2 (by rw [he, h3])
  unfold apFinish
  rw [debugAssertR_true (by simp [hx]), liftM_ok, ret_bind, debugAssertR_true (by simp [ht]), liftM_ok, ret_bind,
    h1, liftM_ok, ret_bind, apEq_ok _ _ _ (by omega), liftM_ok, ret_bind, if_pos (by simpa using this),
    apRandomize_ok X cores sched delta qT msg ms hc hs hn hms hd hq hm, liftM_ok, ret_bind]
  rfl

theorem apFinish_reject (X : Crypto) (arm : Bool) (cores : Nat) (sched : Nat → List Nat) (delta qT qSum : Bytes)
    (msg : List (Bytes × Bytes)) (ms : Nat) (xSum tSum : Bytes) (hd : delta.length = 16) (hqs : qSum.length = 16)
    (hx : xSum.length = 16) (ht : tSum.length = 16) (he : elt tSum ≠ elt qSum + elt xSum * elt delta) :
    apFinish X arm cores sched delta qT qSum msg ms xSum tSum = .fail (.err .polychromatic) := by
  obtain ⟨out, h1, h2, h3⟩ := apricotMulAcc_elt arm qSum xSum delta hqs hx hd
  have : tSum ≠ out := fun h => he (by rw [h, h3])
  unfold apFinish
  rw [debugAssertR_true (by simp [hx]), liftM_ok, ret_bind, debugAssertR_true (by simp [ht]), liftM_ok, ret_bind,
    h1, liftM_ok, ret_bind, apEq_ok _ _ _ (by omega), liftM_ok, ret_bind, if_neg (by simpa using this)]
  rfl

/-- The sender up to the check, for any matrix `u` of the right size. -/
theorem senderExtend_eq (X : Crypto) (arm : Bool) (cores : Nat) (sched : Nat → List Nat) (delta : Bytes)
    (seed : WireBytes) (msg : List (Bytes × Bytes)) (ms : Nat) (payloads : List Bytes) (s : Nat → WireBytes)
    (w : Nat) (hw : msg.length + 256 = 8 * w) (hd : delta.length = 16)
    (hp : ∀ i < 128, payloads[i]? = some (s i).toList) :
    ∃ K, apricotSenderExtend X arm cores sched delta seed msg ms payloads = .recv K ∧
      ∀ u : Bytes, w * 128 ≤ u.length → ∃ qT qSum, qT.length = 16 * (8 * w) ∧ qSum.length = 16 ∧
        (∀ j < 8 * w, ∀ i < 128, bitAt (row qT 16 j) i = bitAt (qRow delta u w (fun i => X.fill (s i) w) i) j) ∧
        elt qSum = (∑ j ∈ Finset.range (8 * w), elt (row qT 16 j) * chi (X.fill seed (16 * (8 * w))) j) ∧
        K u = .recv fun x => .recv fun t => apFinish X arm cores sched delta qT qSum msg ms x t := by
  unfold apricotSenderExtend
  dsimp only
  rw [hw, Nat.mul_div_cancel_left w (by decide), apRows_ok X w payloads s hp, liftM_ok, ret_bind, recvP_bind]
  refine ⟨_, rfl, fun u hu => ?_⟩
  have hT : ∀ i < 128, ((fun i => X.fill (s i) w) i).length = w := fun i _ => fill_length ..
  obtain ⟨qT, e, hl, hb⟩ := transpose128_ok w (qRow delta u w fun i => X.fill (s i) w) (qRow_length hu hT)
  obtain ⟨qSum, e2, hl2, hs⟩ := apSum_ok arm (8 * w) qT (X.fill seed (16 * (8 * w))) (by omega)
    (by rw [fill_length])
  refine ⟨qT, qSum, hl, hl2, hb, hs, ?_⟩
  rw [apQ_ok X.dbg w delta u _ hd hT hu, liftM_ok, ret_bind, e, liftM_ok, ret_bind, e2, liftM_ok, ret_bind,
    recvP_bind]
  rfl

theorem row_xor_delta {qT t : Bytes} {delta : Bytes} {l j : Nat} (hq : 16 * l ≤ qT.length) (ht : 16 * l ≤ t.length)
    (hj : j < l) (hd : delta.length = 16) (x : Bool)
    (h : ∀ i < 128, bitAt (row qT 16 j) i = (bitAt (row t 16 j) i ^^ (bitAt delta i && x))) :
    row qT 16 j = if x then List.zipWith (· ^^^ ·) (row t 16 j) delta else row t 16 j := by
  have l1 := row_length hq hj
  have l2 := row_length ht hj
  apply bytes_ext
  · split
    · simp [l1, l2, hd]
    · omega
  · intro i hi
    rw [h i (by omega)]
    cases x with
    | false => simp
    | true =>
      rw [if_pos rfl, bitAt_xor _ _ (by omega)]
      simp

theorem vectorSlice_pair {ms n j : Nat} (A B : Nat → Bytes) (hA : ∀ j < n, (A j).length = ms)
    (hB : ∀ j < n, (B j).length = ms) (hj : j < n) (c : Bool) :
    vectorSlice ((List.range n).flatMap fun j => A j ++ B j) (j * ms * 2 + c.toNat * ms) ms =
      .ok (if c then B j else A j) := by
  have hg : ∀ i < n, (A i ++ B i).length = ms * 2 := fun i hi => by simp [hA i hi, hB i hi]; omega
  have hlen := flatMap_len hg
  have hr := flatMap_row (g := fun j => A j ++ B j) hg hj
  have hmul : ms * 2 * (j + 1) ≤ ms * 2 * n := Nat.mul_le_mul_left _ hj
  rw [Nat.mul_add] at hmul
  have e0 : j * ms * 2 = ms * 2 * j := by rw [Nat.mul_comm j ms, Nat.mul_assoc, Nat.mul_comm j 2, Nat.mul_assoc]
  unfold vectorSlice
  rw [if_pos (by
    rw [hlen, e0]
    cases c <;> simp <;> omega)]
  refine congrArg Except.ok ?_
  rw [e0, ← List.drop_drop]
  generalize ((List.range n).flatMap fun j => A j ++ B j).drop (ms * 2 * j) = rest at hr
  have hA' := hA j hj
  have hB' := hB j hj
  cases c with
  | false =>
    simp only [Bool.toNat_false, Nat.zero_mul, List.drop_zero]
    have := congrArg (List.take ms) hr
    rw [List.take_take, Nat.min_eq_left (by omega), ← hA', List.take_left] at this
    simpa [hA'] using this
  | true =>
    simp only [Bool.toNat_true, Nat.one_mul, if_true]
    have := congrArg (List.drop ms) hr
    rw [List.drop_take, show ms * 2 - ms = ms by omega] at this
    rw [this, ← hA', List.drop_left]

theorem apCipher_cancel (X : Crypto) (key : Bytes) (j : Nat) (m : Bytes) :
    List.zipWith (· ^^^ ·) (X.fill (X.sha256 (beBytes 8 j ++ key)) m.length) (apCipher X key j m) = m := by
  unfold apCipher
  rw [show (List.zipWith (· ^^^ ·) (X.fill (X.sha256 (beBytes 8 j ++ key)) m.length)
      (List.zipWith (· ^^^ ·) (X.fill (X.sha256 (beBytes 8 j ++ key)) m.length) m) : Bytes) =
    List.zipWith (· ^^^ ·) (List.zipWith (· ^^^ ·) m (X.fill (X.sha256 (beBytes 8 j ++ key)) m.length))
      (X.fill (X.sha256 (beBytes 8 j ++ key)) m.length) by
    rw [List.zipWith_comm]
    simp only [BitVec.xor_comm]
    congr 1
    rw [List.zipWith_comm]
    simp only [BitVec.xor_comm]]
  exact zipWith_xor_cancel (fill_length ..).symm

/-- The honest matrix and check values. -/
structure Honest (X : Crypto) (delta : Bytes) (w : Nat) (padded : List Bool) (s0 s1 : Nat → WireBytes)
    (packed t : Bytes) : Prop where
  packedLen : packed.length = w
  packedBits : ∀ k < 8 * w, bitAt packed k = padded.getD k false
  tLen : t.length = 16 * (8 * w)
  tBits : ∀ j < 8 * w, ∀ i < 128, bitAt (row t 16 j) i = bitAt (X.fill (s0 i) w) j

/-- The correlation between the sender's and the receiver's rows, when the receiver's matrix is honest. -/
theorem honest_rows {X : Crypto} {delta : Bytes} {w : Nat} {padded : List Bool} {s0 s1 s : Nat → WireBytes}
    {packed t qT : Bytes} (H : Honest X delta w padded s0 s1 packed t) (hd : delta.length = 16)
    (hs : ∀ i < 128, s i = if bitAt delta i then s1 i else s0 i) (hq : qT.length = 16 * (8 * w))
    (hb : ∀ j < 8 * w, ∀ i < 128, bitAt (row qT 16 j) i = bitAt (qRow delta
      ((List.range 128).flatMap (uRow packed (fun i => X.fill (s0 i) w) (fun i => X.fill (s1 i) w))) w
      (fun i => X.fill (s i) w) i) j) (j : Nat) (hj : j < 8 * w) :
    row qT 16 j = if padded.getD j false then List.zipWith (· ^^^ ·) (row t 16 j) delta else row t 16 j := by
  refine row_xor_delta (l := 8 * w) (by omega) (by rw [H.tLen]) hj hd _ ?_
  intro i hi
  rw [hb j hj i hi, qRow_honest H.packedLen (fun i _ => fill_length ..) (fun i _ => fill_length ..)
    (fun i hi => by rw [hs i hi]; split <;> rfl) i hi j, H.tBits j hj i hi, H.packedBits j hj]

theorem check_identity {l : Nat} (q t c : Nat → Spec.GF) (x : Nat → Bool) (d xs ts qs : Spec.GF)
    (hq : ∀ j < l, q j = if x j then t j + d else t j) (hxs : xs = ∑ j ∈ Finset.range l, if x j then c j else 0)
    (hts : ts = ∑ j ∈ Finset.range l, t j * c j) (hqs : qs = ∑ j ∈ Finset.range l, q j * c j) :
    ts = qs + xs * d := by
  rw [hqs, hxs, hts, Finset.sum_mul, ← Finset.sum_add_distrib]
  apply Finset.sum_congr rfl
  intro j hj
  rw [hq j (by simpa using hj)]
  split
  · linear_combination -(c j * d) * gf_two
  · ring

theorem elt_ite_xor (x : Bool) (a b : Bytes) (ha : a.length = b.length) :
    elt (if x then List.zipWith (· ^^^ ·) a b else a) = if x then elt a + elt b else elt a := by
  cases x
  · rfl
  · exact elt_xor a b ha

theorem qRow_bit {w : Nat} {delta u : Bytes} {T : Nat → Bytes} (hu : w * 128 ≤ u.length)
    (hT : ∀ i < 128, (T i).length = w) (i : Nat) (hi : i < 128) (j : Nat) (hj : j < 8 * w) :
    bitAt (qRow delta u w T i) j = (bitAt (T i) j ^^ (bitAt delta i && flatBit u w i j)) := by
  unfold qRow
  cases bitAt delta i with
  | false => simp
  | true =>
    simp only [if_true]
    rw [bitAt_xor _ _ (by rw [row_length hu hi, hT i hi])]
    unfold row
    rw [bitAt_row u w i j hj, Bool.xor_comm]
    simp

theorem bitMatrix_exists (n w : Nat) (f : Nat → Nat → Bool) :
    ∃ u : Bytes, u.length = n * w ∧ ∀ i < n, ∀ j < 8 * w, flatBit u w i j = f i j := by
  obtain ⟨u, -, h1, h2⟩ := apPack_ok ((List.range (8 * (n * w))).map fun k => f (k / (8 * w)) (k % (8 * w)))
  rw [List.length_map, List.length_range, Nat.mul_div_cancel_left _ (by decide)] at h1 h2
  refine ⟨u, h1, fun i hi j hj => ?_⟩
  have hlt : 8 * w * i + j < 8 * (n * w) := by
    have : 8 * w * (i + 1) ≤ 8 * w * n := Nat.mul_le_mul_left _ hi
    rw [Nat.mul_add] at this
    have e : 8 * w * n = 8 * (n * w) := by rw [Nat.mul_assoc, Nat.mul_comm w]
    omega
  unfold flatBit
  rw [h2 _ hlt]
  have hw : 0 < 8 * w := by omega
  simp only [List.getD, List.getElem?_map, List.getElem?_range hlt, Option.map_some, Option.getD_some]
  rw [Nat.mul_add_div hw, Nat.div_eq_of_lt hj, Nat.mul_add_mod, Nat.mod_eq_of_lt hj, Nat.add_zero]

theorem elt_surj (x : GF) : ∃ b : Bytes, b.length = 16 ∧ elt b = x := by
  obtain ⟨b, hb, e⟩ := Props.C14_representation.surjOn (Set.mem_univ x)
  exact ⟨b, hb, e⟩

/-- A column of `u` that is needed but missing is read out of bounds. -/
theorem apQ_ub (dbg : Bool) (w : Nat) (delta u : Bytes) (T : Nat → Bytes) (hd : delta.length = 16)
    (hT : ∀ i < 128, (T i).length = w) (hu : ∃ i < 128, bitAt delta i = true ∧ u.length < w * (i + 1)) :
    apQ dbg w delta ((List.range 128).flatMap T) u = .error .ub := by
  have hTl : w * 128 ≤ ((List.range 128).flatMap T).length := by rw [flatMap_len hT]
  have hrowlen : ∀ i < 128, ∀ s : Bytes, s.length = 128 * w → w * i + w ≤ s.length := by
    intro i hi s hs
    have : w * (i + 1) ≤ w * 128 := Nat.mul_le_mul_left _ hi
    rw [Nat.mul_add] at this
    omega
  have hbit : ∀ i < 128, idxR delta (i / 8) = .ok (delta.getD (i / 8) 0) := fun i hi => idxR_getD (by omega)
  have hdb : ∀ i, ((delta.getD (i / 8) 0) >>> (i % 8)) &&& 1 = 1 ↔ bitAt delta i = true := fun i => bit_and_one _ _
  obtain ⟨k, hk, hkd, hku⟩ := hu
  unfold apQ
  refine foldlM_fails _ _ (fun s => s.length = 128 * w) _ _ (by simp) ?_ k (by simpa using hk) ?_
  · intro i hi s hs
    have hi : i < 128 := by simpa using hi
    have hl : ((s.drop (w * i)).take w).length = w := by
      have := hrowlen i hi s hs
      simp; omega
    unfold updateRow
    rw [if_pos (hrowlen i hi s hs)]
    dsimp only
    rw [hbit i hi, okb]
    have hfin : ∀ r : Bytes, r.length = w → ∃ s', ((do
        let r ← (do apXorInplace dbg r (← vectorRow ((List.range 128).flatMap T) i w) : R Bytes)
        return s.take (w * i) ++ r ++ s.drop (w * i + w)) : R Bytes) = .ok s' ∧ s'.length = 128 * w := by
      intro r hr
      rw [vectorRow_ok hTl hi, okb, apXorInplace_ok _ (by rw [hr, row_length hTl hi]), okb]
      refine ⟨_, rfl, ?_⟩
      have := hrowlen i hi s hs
      simp [hr, row_length hTl hi, hs]; omega
    by_cases hb : bitAt delta i = true
    · rw [if_pos ((hdb i).mpr hb)]
      by_cases hv : w * i + w ≤ u.length
      · refine .inr ?_
        have e : vectorRow u i w = .ok (row u w i) := by unfold vectorRow; rw [if_pos hv]; rfl
        rw [e, okb]
        have hrl : (row u w i).length = w := by simp [row]; omega
        rw [apXorInplace_ok _ (by rw [hl, hrl]), okb]
        exact hfin _ (by rw [List.length_zipWith, hl, hrl, Nat.min_self])
      · refine .inl ?_
        have e : vectorRow u i w = .error .ub := by unfold vectorRow; rw [if_neg hv]; rfl
        rw [e]; rfl
    · rw [if_neg (fun h => hb ((hdb i).mp h))]
      exact .inr (hfin _ hl)
  · intro s hs
    unfold updateRow
    rw [if_pos (hrowlen k hk s hs)]
    dsimp only
    rw [hbit k hk, okb, if_pos ((hdb k).mpr hkd)]
    have e : vectorRow u k w = .error .ub := by
      unfold vectorRow
      rw [if_neg (by rw [Nat.mul_add] at hku; omega)]; rfl
    rw [e]; rfl

theorem gf_bits (x : GF) : ∃ f : Fin 128 → Bool, x = bitsElt (fun i => if h : i < 128 then f ⟨i, h⟩ else false) := by
  obtain ⟨b, hb, rfl⟩ := elt_surj x
  refine ⟨fun i => bitAt b i, ?_⟩
  rw [elt_bits b hb]
  exact bitsElt_congr fun i hi => by simp [hi]

/-- More than 128 field elements are linearly dependent over the two-element field. -/
theorem dependent_rows (c : Nat → GF) (l : Nat) (hl : 128 < l) :
    ∃ J : Finset Nat, J.Nonempty ∧ J ⊆ Finset.range l ∧ ∑ j ∈ J, c j = 0 := by
  choose f hf using gf_bits
  obtain ⟨A, B, hne, he⟩ := Fintype.exists_ne_map_eq_of_card_lt
    (fun A : Fin l → Bool => f (∑ j : Fin l, if A j then c j else 0)) (by
      simp only [Fintype.card_fun, Fintype.card_bool, Fintype.card_fin]
      exact Nat.pow_lt_pow_right (by decide) hl)
  have hsum : (∑ j : Fin l, if A j then c j else 0) = ∑ j : Fin l, if B j then c j else 0 := by
    rw [hf (∑ j : Fin l, if A j then c j else 0), hf (∑ j : Fin l, if B j then c j else 0)]
    rw [he]
  have hd : (∑ j : Fin l, if (A j ^^ B j) then c j else 0) = 0 := by
    have : (∑ j : Fin l, if (A j ^^ B j) then c j else 0) =
        (∑ j : Fin l, if A j then c j else 0) + ∑ j : Fin l, if B j then c j else 0 := by
      rw [← Finset.sum_add_distrib]
      apply Finset.sum_congr rfl
      intro j _
      cases A j <;> cases B j <;> simp [gf_add_self]
    rw [this, hsum, gf_add_self]
  refine ⟨(Finset.univ.filter fun j : Fin l => (A j ^^ B j) = true).map ⟨Fin.val, Fin.val_injective⟩, ?_, ?_, ?_⟩
  · rw [Finset.map_nonempty]
    obtain ⟨j, hj⟩ := Function.ne_iff.mp hne
    exact ⟨j, by simpa using hj⟩
  · intro j hj
    simp only [Finset.mem_map] at hj
    obtain ⟨k, -, rfl⟩ := hj
    simp
  · rw [Finset.sum_map, Finset.sum_filter]
    exact hd

/-- The matrix an honest receiver sends. -/
def honestU (X : Crypto) (w : Nat) (packed : Bytes) (s0 s1 : Nat → WireBytes) : Bytes :=
  (List.range 128).flatMap (uRow packed (fun i => X.fill (s0 i) w) (fun i => X.fill (s1 i) w))

theorem honestU_length (X : Crypto) (w : Nat) (packed : Bytes) (s0 s1 : Nat → WireBytes) (hp : packed.length = w) :
    (honestU X w packed s0 s1).length = w * 128 :=
  flatMap_len (fun i _ => by simp [uRow, fill_length, hp])

theorem receiverExtend_eq (X : Crypto) (arm : Bool) (cores : Nat) (sched1 sched2 : Nat → List Nat) (seed : WireBytes)
    (seeds0 seeds1 : List Bytes) (s0 s1 : Nat → WireBytes) (bonus choices : List Bool) (ms w : Nat) (delta : Bytes)
    (hw : choices.length + 256 = 8 * w) (hb : bonus.length = 256) (hc : 0 < cores)
    (hs : ∀ n, IsOrder n (sched1 n)) (h0 : ∀ i < 128, seeds0[i]? = some (s0 i).toList)
    (h1 : ∀ i < 128, seeds1[i]? = some (s1 i).toList) :
    ∃ packed t x ts, Honest X delta w (choices ++ bonus) s0 s1 packed t ∧ x.length = 16 ∧ ts.length = 16 ∧
      elt x = (∑ j ∈ Finset.range (8 * w),
        if (choices ++ bonus).getD j false then chi (X.fill seed (16 * (8 * w))) j else 0) ∧
      elt ts = (∑ j ∈ Finset.range (8 * w), elt (row t 16 j) * chi (X.fill seed (16 * (8 * w))) j) ∧
      apricotReceiverExtend X arm cores sched1 sched2 seed seeds0 seeds1 bonus choices ms =
        .send (honestU X w packed s0 s1) (.send x (.send ts (.recv fun d =>
          Proc.ofR (apDerandomize X cores sched2
            ((List.range (8 * w)).flatMap fun j => (X.sha256 (beBytes 8 j ++ row t 16 j)).toList) d packed
            choices.length (List.replicate choices.length (List.replicate ms 0)))))) := by
  have hlen : (choices ++ bonus).length = 8 * w := by rw [List.length_append, hb, hw]
  obtain ⟨packed, e1, hp1, hp2⟩ := apPack_ok (choices ++ bonus)
  rw [hlen, Nat.mul_div_cancel_left w (by decide)] at hp1 hp2
  obtain ⟨t, e2, ht1, ht2⟩ := transpose128_ok w (fun i => X.fill (s0 i) w) (fun i _ => fill_length ..)
  obtain ⟨x, ts, e3, hx, hts, hx2, hts2⟩ := apReceiverSums_ok X.dbg arm (8 * w) (choices ++ bonus) t
    (X.fill seed (16 * (8 * w))) hlen (by omega) (by rw [fill_length])
  refine ⟨packed, t, x, ts, ⟨hp1, hp2, ht1, ht2⟩, hx, hts, hx2, hts2, ?_⟩
  unfold apricotReceiverExtend
  dsimp only
  rw [hw, Nat.mul_div_cancel_left w (by decide), apRows_ok X w seeds0 s0 h0, liftM_ok, ret_bind,
    apRows_ok X w seeds1 s1 h1, liftM_ok, ret_bind, e1, liftM_ok, ret_bind,
    apU_ok X.dbg w packed _ _ hp1 (fun i _ => fill_length ..) (fun i _ => fill_length ..), liftM_ok, ret_bind,
    sendP_bind, e2, liftM_ok, ret_bind, e3, liftM_ok, ret_bind, sendP_bind, sendP_bind,
    apV_ok X cores sched1 (8 * w) t hc hs (by omega) (by omega), liftM_ok, ret_bind, recvP_bind]
  rfl

/-- What the receiver recovers from an honest `d`. -/
theorem derandomize_row (X : Crypto) (delta : Bytes) (w : Nat) (padded : List Bool) (s0 s1 : Nat → WireBytes)
    (packed t qT : Bytes) (H : Honest X delta w padded s0 s1 packed t)
    (msg : List (Bytes × Bytes)) (ms : Nat) (hm : ∀ m ∈ msg, m.1.length = ms ∧ m.2.length = ms)
    (hn : msg.length ≤ 8 * w) (hd : delta.length = 16)
    (hrow : ∀ j < 8 * w, row qT 16 j =
      if padded.getD j false then List.zipWith (· ^^^ ·) (row t 16 j) delta else row t 16 j)
    (j : Nat) (hj : j < msg.length) :
    apDerandomizeRow X ((List.range (8 * w)).flatMap fun j => (X.sha256 (beBytes 8 j ++ row t 16 j)).toList)
      ((List.range msg.length).flatMap (apPair X delta qT msg)) packed ms j (List.replicate ms 0) =
      .ok (if padded.getD j false then (msg.getD j ([], [])).2 else (msg.getD j ([], [])).1) := by
  have hgd : ∀ j < msg.length, (msg.getD j ([], [])).1.length = ms ∧ (msg.getD j ([], [])).2.length = ms := by
    intro j hj
    have : msg.getD j ([], []) = msg[j] := by simp [hj]
    rw [this]
    exact hm _ (List.getElem_mem hj)
  have hvl : ∀ j < 8 * w, ((X.sha256 (beBytes 8 j ++ row t 16 j)).toList).length = 32 := by simp
  have hj8 : j < 8 * w := by omega
  unfold apDerandomizeRow
  dsimp only
  rw [vectorRow_ok (n := 8 * w) (by rw [flatMap_len hvl]) hj8, okb,
    row_flatMap (g := fun j => (X.sha256 (beBytes 8 j ++ row t 16 j)).toList) hvl hj8, arrayFromSlice_toList, okb,
    idxR_getD (show (j - j % 8) / 8 < packed.length by rw [H.packedLen]; omega), okb]
  have hbit : (((packed.getD ((j - j % 8) / 8) 0) >>> (j % 8)) &&& 1 : Byte).toNat = (padded.getD j false).toNat := by
    have hb := H.packedBits j hj8
    rw [show (j - j % 8) / 8 = j / 8 by omega]
    unfold bitAt at hb
    rw [← hb]
    generalize packed.getD (j / 8) 0 = p
    cases h : p.getLsbD (j % 8) with
    | true => rw [(bit_and_one p _).mpr h]; rfl
    | false =>
      have : (p >>> (j % 8)) &&& 1 = 0 := by
        apply BitVec.eq_of_getLsbD_eq
        intro i _
        rw [BitVec.getLsbD_and, BitVec.getLsbD_ushiftRight]
        by_cases hi : i = 0
        · subst hi; simpa using h
        · simp [hi]
      rw [this]; rfl
  rw [hbit]
  have hsl := vectorSlice_pair (ms := ms) (n := msg.length) (j := j)
    (fun j => apCipher X (row qT 16 j) j (msg.getD j ([], [])).1)
    (fun j => apCipher X (List.zipWith (· ^^^ ·) (row qT 16 j) delta) j (msg.getD j ([], [])).2)
    (fun j hj => by rw [apCipher_length, (hgd j hj).1]) (fun j hj => by rw [apCipher_length, (hgd j hj).2]) hj
    (padded.getD j false)
  have hsl' : vectorSlice ((List.range msg.length).flatMap (apPair X delta qT msg))
      (j * ms * 2 + (padded.getD j false).toNat * ms) ms = _ := hsl
  rw [hsl', okb, List.length_replicate]
  have hq := hrow j hj8
  have hrl : (row t 16 j).length = delta.length := by
    rw [row_length (n := 8 * w) (by rw [H.tLen]) hj8, hd]
  cases hpd : padded.getD j false with
  | false =>
    rw [hpd] at hq
    simp only [Bool.false_eq_true, if_false] at hq ⊢
    rw [apXorInplace_ok _ (by rw [fill_length, apCipher_length, (hgd j hj).1]), hq]
    refine congrArg Except.ok ?_
    have := apCipher_cancel X (row t 16 j) j (msg.getD j ([], [])).1
    rwa [(hgd j hj).1] at this
  | true =>
    rw [hpd] at hq
    simp only [if_true] at hq ⊢
    rw [apXorInplace_ok _ (by rw [fill_length, apCipher_length, (hgd j hj).2]), hq, zipWith_xor_cancel hrl]
    refine congrArg Except.ok ?_
    have := apCipher_cancel X (row t 16 j) j (msg.getD j ([], [])).2
    rwa [(hgd j hj).2] at this

theorem extend_ends (X : Crypto) (armS armR : Bool) (coresS coresR : Nat) (schedS sched1 sched2 : Nat → List Nat)
    (delta : Bytes) (seed : WireBytes) (msg : List (Bytes × Bytes)) (ms : Nat) (payloads seeds0 seeds1 : List Bytes)
    (s0 s1 : Nat → WireBytes) (bonus choices : List Bool)
    (hn : 0 < msg.length) (h8 : 8 ∣ msg.length) (hlen : msg.length = choices.length) (hms : 0 < ms)
    (hm : ∀ m ∈ msg, m.1.length = ms ∧ m.2.length = ms) (hd : delta.length = 16) (hb : bonus.length = 256)
    (hcS : 0 < coresS) (hcR : 0 < coresR) (hsS : ∀ n, IsOrder n (schedS n)) (hs1 : ∀ n, IsOrder n (sched1 n))
    (hs2 : ∀ n, IsOrder n (sched2 n))
    (h0 : ∀ i < 128, seeds0[i]? = some (s0 i).toList) (h1 : ∀ i < 128, seeds1[i]? = some (s1 i).toList)
    (hp : ∀ i < 128, payloads[i]? = some (if bitAt delta i then s1 i else s0 i).toList) :
    Ends (apricotSenderExtend X armS coresS schedS delta seed msg ms payloads)
      (apricotReceiverExtend X armR coresR sched1 sched2 seed seeds0 seeds1 bonus choices ms) ()
      (chosen msg choices) := by
  obtain ⟨w, hw⟩ : ∃ w, msg.length + 256 = 8 * w := by
    obtain ⟨k, hk⟩ := h8
    exact ⟨k + 32, by omega⟩
  obtain ⟨K, eK, hK⟩ := senderExtend_eq X armS coresS schedS delta seed msg ms payloads
    (fun i => if bitAt delta i then s1 i else s0 i) w hw hd hp
  obtain ⟨packed, t, x, ts, H, hx, hts, hx2, hts2, eR⟩ := receiverExtend_eq X armR coresR sched1 sched2 seed
    seeds0 seeds1 s0 s1 bonus choices ms w delta (by omega) hb hcR hs1 h0 h1
  obtain ⟨qT, qSum, hq1, hq2, hq3, hq4, hKu⟩ := hK (honestU X w packed s0 s1)
    (by rw [honestU_length X w packed s0 s1 H.packedLen])
  have hrow := honest_rows H hd (fun i _ => rfl) hq1 hq3
  rw [eK, eR]
  refine .recvSend ?_
  rw [hKu]
  refine .recvSend (.recvSend ?_)
  have hrl : ∀ j < 8 * w, (row t 16 j).length = delta.length := fun j hj => by
    rw [row_length (n := 8 * w) (by rw [H.tLen]) hj, hd]
  have hcheck : elt ts = elt qSum + elt x * elt delta := by
    refine check_identity (l := 8 * w) (fun j => elt (row qT 16 j)) (fun j => elt (row t 16 j))
      (chi (X.fill seed (16 * (8 * w)))) (fun j => (choices ++ bonus).getD j false) _ _ _ _ ?_ hx2 hts2 hq4
    intro j hj
    rw [hrow j hj, elt_ite_xor _ _ _ (hrl j hj)]
  rw [apFinish_accept X armS coresS schedS delta qT qSum msg ms x ts hcS hsS hn hms hd (by omega) hm hq2 hx hts hcheck]
  refine .sendRecv ?_
  rw [apDerandomize_ok X coresR sched2 _ _ packed choices.length ms
    (fun j => if (choices ++ bonus).getD j false then (msg.getD j ([], [])).2 else (msg.getD j ([], [])).1) hcR hs2
    (by omega) (by
      rw [flatMap_len (w := ms * 2) (fun j hj => apPair_length X delta qT msg ms j hj hm), ← hlen, Nat.mul_comm])
    (fun j hj => derandomize_row X delta w (choices ++ bonus) s0 s1 packed t qT H msg ms hm (by omega) hd hrow j
      (by omega)), ofR_ok]
  have : (List.range choices.length).map (fun j => if (choices ++ bonus).getD j false then
      (msg.getD j ([], [])).2 else (msg.getD j ([], [])).1) = chosen msg choices := by
    apply List.ext_getElem
    · simp [chosen, hlen]
    · intro j h1 h2
      have hj : j < choices.length := by simpa using h1
      have hj' : j < msg.length := by omega
      have e1 : (choices ++ bonus).getD j false = choices[j] := by
        simp [List.getD, List.getElem?_append_left hj, hj]
      have e2 : msg.getD j ([], []) = msg[j] := by simp [hj']
      simp only [List.getElem_map, List.getElem_range, chosen, List.getElem_zipWith, e1, e2]
  rw [this]
  exact .ret _ _

theorem apricot_name : "Apricot".utf8ByteSize < 2 ^ 64 := by decide +kernel

theorem sizeBytes_ok {ms : Nat} (h : ms < 2 ^ 16) :
    ∃ hi lo, (beBytes 2 (ms % 2 ^ 16))[0]? = some hi ∧ (beBytes 2 (ms % 2 ^ 16))[1]? = some lo ∧
      ((hi : Byte).toNat <<< 8) ||| (lo : Byte).toNat = ms := by
  refine ⟨BitVec.ofNat 8 (ms >>> 8), BitVec.ofNat 8 ms, ?_, ?_, ?_⟩
  · rw [Nat.mod_eq_of_lt h]; simp [beBytes]
  · rw [Nat.mod_eq_of_lt h]; simp [beBytes]
  · rw [BitVec.toNat_ofNat, BitVec.toNat_ofNat, Nat.mod_eq_of_lt (by rw [Nat.shiftRight_eq_div_pow]; omega),
      ← Nat.shiftLeft_add_eq_or_of_lt (by omega), Nat.shiftLeft_eq, Nat.shiftRight_eq_div_pow]
    omega

theorem chosen_seeds (delta : Bytes) (hd : delta.length = 16) (seed0 seed1 : Vector WireBytes 128) (i : Nat)
    (hi : i < 128) :
    (chosen (List.zipWith (fun a b => (a.toList, b.toList)) seed0.toList seed1.toList) (u8VecToBoolVec delta))[i]? =
      some (if bitAt delta i then seed1[i] else seed0[i]).toList := by
  have hu : (u8VecToBoolVec delta)[i]? = some (bitAt delta i) := by
    have := unpack_get delta (i / 8) (i % 8) (by omega)
    rw [show 8 * (i / 8) + i % 8 = i by omega] at this
    have hlt : i / 8 < delta.length := by omega
    rw [this, List.getElem?_eq_getElem hlt]
    simp [bitAt, hlt]
  unfold chosen
  rw [List.getElem?_zipWith, hu]
  simp [hi]
  split <;> rfl

theorem apricot_ends (X : Crypto) (armS armR : Bool) (coresS coresR : Nat) (schedS sched1 sched2 : Nat → List Nat)
    (coinS coinR : WireBytes) (delta : Vector Byte 16) (bonus : Vector Bool 256) (seed0 seed1 : Vector WireBytes 128)
    (innerS : List (Bytes × Bytes) → Proc Unit) (innerR : List Bool → Proc (List Bytes))
    (hinner : CorrectOT 32 128 innerS innerR) (msg : List (Bytes × Bytes)) (choices : List Bool) (ms : Nat)
    (hn : 0 < msg.length) (h8 : 8 ∣ msg.length) (hlen : msg.length = choices.length) (hms : 0 < ms)
    (hms2 : ms < 2 ^ 16) (hfit : msg.length < 2 ^ 64)
    (hm : ∀ m ∈ msg, m.1.length = ms ∧ m.2.length = ms)
    (hcS : 0 < coresS) (hcR : 0 < coresR) (hsS : ∀ n, IsOrder n (schedS n)) (hs1 : ∀ n, IsOrder n (sched1 n))
    (hs2 : ∀ n, IsOrder n (sched2 n)) :
    Ends (apricotSender X armS coresS schedS coinS delta innerR msg)
      (apricotReceiver X armR coresR sched1 sched2 coinR bonus seed0 seed1 innerS choices) ()
      (chosen msg choices) := by
  unfold apricotSender apricotReceiver
  have hmod : msg.length % 8 = 0 := Nat.mod_eq_zero_of_dvd h8
  rw [debugAssertR_true (by simpa using hmod), liftM_ok, ret_bind,
    debugAssertR_true (by simpa [← hlen] using hmod), liftM_ok, ret_bind, hlen]
  refine .bind (validate_ends ⟨by simpa [← hlen] using hfit, apricot_name⟩) ?_
  refine .bind (coinflip_ends X.toEnv coinR.toList coinS.toList (by simp)).swap ?_
  obtain ⟨seed, hseed⟩ : ∃ seed : WireBytes, toArray32 (List.zipWith (· ^^^ ·) coinR.toList coinS.toList) = .ok seed := by
    unfold toArray32
    rw [dif_pos (by simp)]
    exact ⟨_, rfl⟩
  rw [hseed, liftM_ok, ret_bind, ret_bind, idxR_ok (a := msg[0]) (by simp), liftM_ok, ret_bind, sendP_bind, recvP_bind]
  obtain ⟨hm0, -⟩ := hm msg[0] (List.getElem_mem hn)
  dsimp only
  rw [hm0]
  refine .sendRecv ?_
  obtain ⟨hi, lo, e1, e2, e3⟩ := sizeBytes_ok hms2
  rw [idxR_ok e1, liftM_ok, ret_bind, idxR_ok e2, liftM_ok, ret_bind, e3]
  refine .bind (hinner _ (u8VecToBoolVec delta.toList) (by simp) (by rw [unpack_length]; simp) ?_).ends.swap ?_
  · intro m hmem
    obtain ⟨i, hi, rfl⟩ := List.getElem_of_mem hmem
    simp
  · exact extend_ends X armS armR coresS coresR schedS sched1 sched2 delta.toList seed msg ms _ _ _
      (fun i => if h : i < 128 then seed0[i] else 0) (fun i => if h : i < 128 then seed1[i] else 0)
      bonus.toList choices hn h8 hlen hms hm (by simp) (by simp) hcS hcR hsS hs1 hs2
      (fun i hi => by simp [hi]) (fun i hi => by simp [hi])
      (fun i hi => by
        rw [chosen_seeds delta.toList (by simp) seed0 seed1 i hi]
        simp [hi])

end FP
