import Verif.Proof.ApricotRun
import Verif.Proof.ClassicSafe
/-
The OT extensions against messages of any length.
-/
namespace FP
open Spec

attribute [local irreducible] Spec.modulus

/-! ### The matrix -/

/-- Padding the matrix changes nothing if all columns that are used are there. -/
theorem apQ_pad (dbg : Bool) (w : Nat) (delta t u z : Bytes) (hd : delta.length = 16)
    (hu : ∀ i < 128, bitAt delta i = true → w * (i + 1) ≤ u.length) :
    apQ dbg w delta t u = apQ dbg w delta t (u ++ z) := by
  unfold apQ
  apply foldlM_congr'
  intro i hi q
  have hi : i < 128 := by simpa using hi
  have hb : ((delta.getD (i / 8) 0 >>> (i % 8)) &&& 1 = 1) ↔ bitAt delta i = true := bit_and_one _ _
  congr 1
  funext row
  rw [idxR_getD (show i / 8 < delta.length by omega), okb, okb]
  dsimp only
  by_cases h : bitAt delta i = true
  · have hl := hu i hi h
    rw [Nat.mul_add, Nat.mul_one] at hl
    have e : vectorRow (u ++ z) i w = vectorRow u i w := by
      unfold vectorRow
      rw [if_pos (by rw [List.length_append]; omega), if_pos hl, List.drop_append_of_le_length (by omega),
        List.take_append_of_le_length (by simp; omega)]
    rw [e]
  · rw [if_neg (fun h' => h (hb.mp h')), if_neg (fun h' => h (hb.mp h'))]

theorem flatBit_pad {u z : Bytes} {w i j : Nat} (h : w * (i + 1) ≤ u.length) (hj : j < 8 * w) :
    flatBit (u ++ z) w i j = flatBit u w i j := by
  unfold flatBit bitAt
  have : (8 * w * i + j) / 8 < u.length := by
    have e : 8 * w * i + j < 8 * (w * (i + 1)) := by rw [Nat.mul_add, Nat.mul_add, Nat.mul_one, ← Nat.mul_assoc]; omega
    omega
  rw [List.getD_eq_getElem?_getD, List.getD_eq_getElem?_getD, List.getElem?_append_left this]

/-- The sender up to the check, for any matrix with the columns it uses, and any seeds of at least 32 bytes. -/
theorem senderExtend_usable (X : Crypto) (arm : Bool) (cores : Nat) (sched : Nat → List Nat) (delta : Bytes)
    (seed : WireBytes) (msg : List (Bytes × Bytes)) (ms : Nat) (payloads : List Bytes) (s : Nat → WireBytes)
    (w : Nat) (hw : msg.length + 256 = 8 * w) (hd : delta.length = 16)
    (hp : ∀ i < 128, ∃ p, payloads[i]? = some p ∧ 32 ≤ p.length ∧ p.take 32 = (s i).toList) :
    ∃ K, apricotSenderExtend X arm cores sched delta seed msg ms payloads = .recv K ∧
      (∀ u : Bytes, (∃ i < 128, bitAt delta i = true ∧ u.length < w * (i + 1)) → K u = .fail .ub) ∧
      ∀ u : Bytes, (∀ i < 128, bitAt delta i = true → w * (i + 1) ≤ u.length) →
        ∃ qT qSum, qT.length = 16 * (8 * w) ∧ qSum.length = 16 ∧
          elt qSum = (∑ j ∈ Finset.range (8 * w), senderRow (fun i => X.fill (s i) w) delta u w j *
            chi (X.fill seed (16 * (8 * w))) j) ∧
          K u = .recv fun x => .recv fun t => apFinish X arm cores sched delta qT qSum msg ms x t := by
  have e1 : apRows X w payloads = .ok ((List.range 128).flatMap fun i => X.fill (s i) w) := by
    rw [← apRows_ok X w ((List.range 128).map fun i => (s i).toList) s (fun i hi => by simp [hi])]
    unfold apRows
    apply foldlM_congr'
    intro i hi q
    have hi : i < 128 := by simpa using hi
    obtain ⟨p, h1, h2, h3⟩ := hp i hi
    congr 1
    funext row
    rw [idxR_ok h1, okb, idxR_ok (a := (s i).toList) (by simp [hi]), okb, arrayFromSlice_toList, okb]
    unfold arrayFromSlice
    rw [dif_pos h2, okb]
    have e : (⟨(p.take 32).toArray, by simp; omega⟩ : WireBytes) = s i := by
      apply Vector.toList_inj.mp
      rw [← h3]
      simp
    rw [e]
  obtain ⟨K, eK, hK⟩ := senderExtend_eq X arm cores sched delta seed msg ms
    ((List.range 128).map fun i => (s i).toList) s w hw hd (fun i hi => by simp [hi])
  have e0 := apRows_ok X w ((List.range 128).map fun i => (s i).toList) s (fun i hi => by simp [hi])
  have esame : apricotSenderExtend X arm cores sched delta seed msg ms payloads =
      apricotSenderExtend X arm cores sched delta seed msg ms ((List.range 128).map fun i => (s i).toList) := by
    unfold apricotSenderExtend
    dsimp only
    rw [hw, Nat.mul_div_cancel_left w (by decide), e1, e0]
  have hKq : ∀ u u', apQ X.dbg w delta ((List.range 128).flatMap fun i => X.fill (s i) w) u =
      apQ X.dbg w delta ((List.range 128).flatMap fun i => X.fill (s i) w) u' → K u = K u' := by
    intro u u' h
    have := eK
    unfold apricotSenderExtend at this
    dsimp only at this
    rw [hw, Nat.mul_div_cancel_left w (by decide), e0, liftM_ok, ret_bind, recvP_bind] at this
    injection this with this
    rw [← this]
    dsimp only
    rw [h]
  refine ⟨K, esame.trans eK, ?_, ?_⟩
  · intro u hu
    have := eK
    unfold apricotSenderExtend at this
    dsimp only at this
    rw [hw, Nat.mul_div_cancel_left w (by decide), e0, liftM_ok, ret_bind, recvP_bind] at this
    injection this with this
    rw [← this]
    dsimp only
    rw [apQ_ub X.dbg w delta u _ hd (fun i _ => fill_length ..) hu]
    rfl
  · intro u hu
    obtain ⟨qT, qSum, hq1, hq2, hq3, hq4, hKu⟩ := hK (u ++ List.replicate (w * 128) 0) (by simp)
    refine ⟨qT, qSum, hq1, hq2, ?_, ?_⟩
    · rw [hq4]
      apply Finset.sum_congr rfl
      intro j hj
      have hj : j < 8 * w := by simpa using hj
      rw [elt_bits _ (row_length (n := 8 * w) (by omega) hj)]
      have : bitsElt (bitAt (row qT 16 j)) = senderRow (fun i => X.fill (s i) w) delta u w j :=
        bitsElt_congr fun i hi => by
          rw [hq3 j hj i hi, qRow_bit (by simp) (fun i _ => fill_length ..) i hi j hj]
          cases hb : bitAt delta i with
          | false => simp
          | true => rw [flatBit_pad (hu i hi hb) hj]
      rw [this]
    · rw [hKq u _ (apQ_pad X.dbg w delta _ u _ hd hu)]
      exact hKu

/-! ### The check values -/

theorem apEqLoop_eq : ∀ t r : Bytes, apEqLoop t r =
    if t <+: r then .ok true else if r <+: t then panicR else .ok false
  | [], r => by simp [apEqLoop]
  | a :: t, [] => by simp [apEqLoop]
  | a :: t, b :: r => by
    unfold apEqLoop
    rw [apEqLoop_eq t r]
    by_cases h : a = b
    · subst h
      simp [List.cons_prefix_cons]
    · simp [List.cons_prefix_cons, h, Ne.symm h]

theorem apricotMulAcc_short (arm : Bool) (acc a b : Bytes) (ha : a.length < 16) :
    apricotMulAcc arm acc a b = .error .ub := by
  have hl : loadU128 a = .error .ub := by
    unfold loadU128
    rw [if_neg (by omega)]
    rfl
  cases arm
  · unfold apricotMulAcc mulAccApricotX86
    rw [if_neg (by decide), hl]
    rfl
  · unfold apricotMulAcc mulAccApricotArm64 mulAccArm64
    rw [if_pos rfl, hl]
    rfl

theorem apricotMulAcc_take (arm : Bool) (acc a b : Bytes) (ha : 16 ≤ a.length) :
    apricotMulAcc arm acc a b = apricotMulAcc arm acc (a.take 16) b := by
  have hl : loadU128 a = loadU128 (a.take 16) := by
    unfold loadU128
    rw [if_pos ha, if_pos (by simp; omega), List.take_take, Nat.min_self]
  cases arm
  · unfold apricotMulAcc mulAccApricotX86
    rw [hl]
    rfl
  · unfold apricotMulAcc mulAccApricotArm64 mulAccArm64
    rw [hl]
    rfl

theorem apFinish_eq (X : Crypto) (arm : Bool) (cores : Nat) (sched : Nat → List Nat) (delta qT qSum : Bytes)
    (msg : List (Bytes × Bytes)) (ms : Nat) (hc : 0 < cores) (hs : ∀ n, IsOrder n (sched n))
    (hn : 0 < msg.length) (hms : 0 < ms) (hd : delta.length = 16) (hq : 16 * msg.length ≤ qT.length)
    (hm : ∀ m ∈ msg, m.1.length = ms ∧ m.2.length = ms) (hqs : qSum.length = 16) (x t : Bytes) :
    ∃ r : Bytes, r.length = 16 ∧ elt r = elt qSum + elt (x.take 16) * elt delta ∧
      apFinish X arm cores sched delta qT qSum msg ms x t =
        if X.dbg = true ∧ (x.length ≠ 16 ∨ t.length ≠ 16) then .fail .panic
        else if x.length < 16 then .fail .ub
        else if t <+: r then .send ((List.range msg.length).flatMap (apPair X delta qT msg)) (.ret ())
        else if r <+: t then .fail .panic
        else .fail (.err .polychromatic) := by
  by_cases hx : x.length < 16
  · obtain ⟨r, hr, he⟩ := elt_surj (elt qSum + elt (x.take 16) * elt delta)
    refine ⟨r, hr, he, ?_⟩
    rw [if_pos hx]
    cases hdbg : X.dbg with
    | true =>
      rw [if_pos ⟨rfl, .inl (by omega)⟩]
      unfold apFinish
      rw [hdbg]
      have : debugAssertR true (16 = x.length) = .error .panic := by
        unfold debugAssertR assertR
        rw [if_neg (by simp; omega)]
        rfl
      rw [this]
      rfl
    | false =>
      rw [if_neg (by simp)]
      unfold apFinish
      rw [hdbg, apricotMulAcc_short arm _ _ _ hx]
      rfl
  · obtain ⟨r, h1, h2, h3⟩ := apricotMulAcc_elt arm qSum (x.take 16) delta hqs (by simp; omega) hd
    refine ⟨r, h2, h3, ?_⟩
    rw [← apricotMulAcc_take arm _ _ _ (by omega)] at h1
    rw [if_neg hx]
    unfold apFinish
    by_cases hbad : X.dbg = true ∧ (x.length ≠ 16 ∨ t.length ≠ 16)
    · rw [if_pos hbad, hbad.1]
      by_cases hx' : x.length = 16
      · have ht := hbad.2.resolve_left (by simpa using hx')
        have e1 : debugAssertR true (16 = x.length) = .ok () := debugAssertR_true (by simp [hx'])
        have e2 : debugAssertR true (16 = t.length) = .error .panic := by
          unfold debugAssertR assertR
          rw [if_neg (by simp; omega)]
          rfl
        rw [e1, liftM_ok, ret_bind, e2]
        rfl
      · have e1 : debugAssertR true (16 = x.length) = .error .panic := by
          unfold debugAssertR assertR
          rw [if_neg (by simp; omega)]
          rfl
        rw [e1]
        rfl
    · have e1 : debugAssertR X.dbg (16 = x.length) = .ok () := by
        cases hdbg : X.dbg with
        | false => rfl
        | true =>
          refine debugAssertR_true ?_
          rw [decide_eq_true_eq]
          by_contra hne
          exact hbad ⟨hdbg, .inl fun h => hne h.symm⟩
      have e2 : debugAssertR X.dbg (16 = t.length) = .ok () := by
        cases hdbg : X.dbg with
        | false => rfl
        | true =>
          refine debugAssertR_true ?_
          rw [decide_eq_true_eq]
          by_contra hne
          exact hbad ⟨hdbg, .inr fun h => hne h.symm⟩
      have e3 : apEq X.dbg t r = apEqLoop t r := by
        unfold apEq
        rw [← h2] at e2
        have : debugAssertR X.dbg (t.length = r.length) = .ok () := by
          rw [← e2]; congr 1; simp [eq_comm]
        rw [this]
        rfl
      rw [if_neg hbad, e1, liftM_ok, ret_bind, e2, liftM_ok, ret_bind, h1, liftM_ok, ret_bind, e3, apEqLoop_eq]
      by_cases c1 : t <+: r
      · rw [if_pos c1, if_pos c1, liftM_ok, ret_bind, if_pos rfl,
          apRandomize_ok X cores sched delta qT msg ms hc hs hn hms hd hq hm, liftM_ok, ret_bind]
        rfl
      · rw [if_neg c1, if_neg c1]
        by_cases c2 : r <+: t
        · rw [if_pos c2, if_pos c2]
          rfl
        · rw [if_neg c2, if_neg c2]
          rfl

/-! ### The seeds -/

/-- The first bad seed decides. -/
theorem apRows_bad (X : Crypto) (w : Nat) (payloads : List Bytes) (k : Nat) (hk : k < 128) (e : Fault)
    (hpre : ∀ i < k, ∃ p, payloads[i]? = some p ∧ 32 ≤ p.length)
    (he : (do arrayFromSlice (← idxR payloads k)) = (.error e : R WireBytes)) :
    apRows X w payloads = .error e := by
  unfold apRows
  have hsplit : List.range 128 = List.range k ++ k :: List.range' (k + 1) (128 - (k + 1)) := by
    rw [List.range_eq_range', List.range_eq_range', show k :: List.range' (k + 1) (128 - (k + 1)) = List.range' (0 + 1 * k) (128 - k) by
      rw [show 128 - k = (128 - (k + 1)) + 1 by omega, List.range'_succ]; simp]
    rw [List.range'_append, Nat.add_sub_cancel' (Nat.le_of_lt hk)]
  rw [hsplit, List.foldlM_append, Nat.mul_comm 128 w]
  obtain ⟨t', e', hl⟩ := foldlM_inv (f := fun t i => updateRow t i w fun row => do
      let seed ← arrayFromSlice (← idxR payloads i)
      return X.fill seed row.length) (l := List.range k) (s := List.replicate (w * 128) 0)
      (fun _ t => t.length = w * 128) (by simp) (by
    intro i a t ha ht
    have hi : a < k := by simpa using List.mem_of_getElem? ha
    obtain ⟨p, h1, h2⟩ := hpre a hi
    have hl : w * a + w ≤ t.length := by
      have : w * (a + 1) ≤ w * 128 := Nat.mul_le_mul_left _ (by omega)
      rw [Nat.mul_add] at this
      omega
    unfold updateRow
    rw [if_pos hl, idxR_ok h1]
    dsimp only
    rw [okb]
    unfold arrayFromSlice
    rw [dif_pos h2]
    refine ⟨_, rfl, ?_⟩
    simp [fill_length]
    omega)
  rw [e', okb, List.foldlM_cons]
  have : w * k + w ≤ t'.length := by
    have : w * (k + 1) ≤ w * 128 := Nat.mul_le_mul_left _ (by omega)
    rw [Nat.mul_add] at this
    omega
  unfold updateRow
  rw [if_pos this]
  dsimp only
  cases hx : idxR payloads k with
  | error e'' =>
    rw [hx] at he
    have : e'' = e := by cases he; rfl
    rw [this]
    rfl
  | ok p =>
    rw [hx, okb] at he
    rw [okb, he]
    rfl

end FP
