import Verif.Proof.ApricotRun
import Verif.Proof.Sabotage
import Verif.Spec.Outcome
/-
The OT extension for any number of messages and any message size.
-/
namespace FP
open Spec

attribute [local irreducible] Spec.modulus

variable {α β γ δ : Type}

/-! ### Runs that stop -/

theorem Outcome.of_steps {p : Proc α} {q : Proc β} {a : End α} {b : End β} {d : Conf α β} (h : Steps (start p q) d)
    (hs : Stuck d) (ha : At a d.left) (hb : At b d.right) : Outcome p q a b := by
  obtain ⟨n, h⟩ := h
  refine ⟨n, fun m c hc => ?_⟩
  obtain ⟨k, hk, hr⟩ := stuck_unique h hs hc
  refine ⟨by omega, fun hst => ?_⟩
  cases hr with
  | refl => exact ⟨ha, hb⟩
  | step h _ => exact absurd h (hst _)

/-- The run can get to `p'` and `q'` with nothing in flight. -/
def Gets (p : Proc α) (q : Proc β) (p' : Proc α) (q' : Proc β) : Prop := Steps (start p q) (start p' q')

theorem Gets.refl (p : Proc α) (q : Proc β) : Gets p q p q := Steps.refl _

theorem Gets.after {p : Proc α} {q : Proc β} {a : α} {b : β} {k : α → Proc γ} {l : β → Proc δ} {p' : Proc γ} {q' : Proc δ}
    (h1 : Ends p q a b) (h2 : Gets (k a) (l b) p' q') : Gets (p >>= k) (q >>= l) p' q' :=
  (h1.andThen k l).trans h2

theorem Gets.after_waits {p : Proc α} {q : Proc β} {a : α} {b : β} {k : α → Proc γ} {l : β → Proc δ} {p' : Proc γ}
    (h1 : Ends p q a b) (h2 : ∃ r, Gets (k a) (l b) p' (.recv r)) : ∃ r, Gets (p >>= k) (q >>= l) p' (.recv r) := by
  obtain ⟨r, h2⟩ := h2
  exact ⟨r, .after h1 h2⟩

theorem Gets.sendRecv {m : Bytes} {p p' : Proc α} {k : Bytes → Proc β} {q' : Proc β}
    (h : Gets p (k m) p' q') : Gets (.send m p) (.recv k) p' q' :=
  .head (.sendL m p _ [] []) (.head (.recvR m p k [] []) h)

theorem Gets.recvSend {m : Bytes} {q q' : Proc β} {k : Bytes → Proc α} {p' : Proc α}
    (h : Gets (k m) q p' q') : Gets (.recv k) (.send m q) p' q' :=
  .head (.sendR m _ q [] []) (.head (.recvL m k q [] []) h)

theorem stuck_fail_fail (e e' : Fault) : Stuck (start (.fail e : Proc α) (.fail e' : Proc β)) := fun _ h => nomatch h

theorem stuck_fail_recv (e : Fault) (k : Bytes → Proc β) : Stuck (start (.fail e : Proc α) (.recv k)) :=
  fun _ h => nomatch h

theorem stuck_ret_fail (a : α) (e : Fault) : Stuck (start (.ret a) (.fail e : Proc β)) := fun _ h => nomatch h

theorem stuck_ret_ret (a : α) (b : β) : Stuck (start (.ret a) (.ret b)) := fun _ h => nomatch h

/-! ### A transpose into a longer buffer -/

theorem orAt_append {v v' z : Bytes} {i : Nat} {x : Byte} (h : orAt v i x = .ok v') : orAt (v ++ z) i x = .ok (v' ++ z) := by
  unfold orAt at h ⊢
  by_cases hi : i < v.length
  · rw [idxR_getD hi, okb, setR_ok _ hi] at h
    rw [idxR_ok (a := v.getD i 0) (by rw [List.getElem?_append_left hi]; simp [hi]), okb, setR_ok _ (by simp; omega)]
    cases h
    rw [List.set_append_left _ _ hi]
  · exfalso
    unfold idxR at h
    rw [List.getElem?_eq_none (by omega)] at h
    cases h

theorem foldlM_append {ι : Type} (f : Bytes → ι → R Bytes) (z : Bytes)
    (hf : ∀ v v' i, f v i = .ok v' → f (v ++ z) i = .ok (v' ++ z)) (l : List ι) (v v' : Bytes)
    (h : l.foldlM f v = .ok v') : l.foldlM f (v ++ z) = .ok (v' ++ z) := by
  induction l generalizing v with
  | nil => cases h; rfl
  | cons a l ih =>
    rw [List.foldlM_cons] at h ⊢
    cases ha : f v a with
    | error e => rw [ha] at h; cases h
    | ok v1 =>
      rw [ha, okb] at h
      rw [hf _ _ _ ha, okb]
      exact ih _ h

theorem transpose128_long (w l : Nat) (hl : 8 * w ≤ l) (Q : Nat → Bytes) (hQ : ∀ i < 128, (Q i).length = w) :
    ∃ t, transposeMatrix ((List.range 128).flatMap Q) (List.replicate (16 * l) 0) 128 w 16 = .ok t ∧
      t.length = 16 * l ∧ (∀ j < 8 * w, ∀ i < 128, bitAt (row t 16 j) i = bitAt (Q i) j) ∧
      ∀ j < l, 8 * w ≤ j → row t 16 j = List.replicate 16 0 := by
  obtain ⟨t, e, h1, h2⟩ := transpose128_ok w Q hQ
  have hs : ((List.range 128).flatMap Q).length = 128 * w := by rw [flatMap_len hQ, Nat.mul_comm]
  rw [transposeMatrix_eq _ _ _ _ _ hs] at e
  refine ⟨t ++ List.replicate (16 * (l - 8 * w)) 0, ?_, by simp [h1]; omega, ?_, ?_⟩
  · rw [transposeMatrix_eq _ _ _ _ _ hs, show 16 * l = 16 * (8 * w) + 16 * (l - 8 * w) by omega, ← List.replicate_append_replicate]
    exact foldlM_append _ _ (fun v v' i h => orAt_append h) _ _ _ e
  · intro j hj i hi
    rw [← h2 j hj i hi]
    refine congrArg (fun r => bitAt r i) ?_
    unfold row
    rw [List.drop_append_of_le_length (by omega), List.take_append_of_le_length (by simp; omega)]
  · intro j hj hw
    unfold row
    rw [List.drop_append, List.drop_eq_nil_of_le (by omega), List.nil_append, List.drop_replicate, List.take_replicate]
    congr 1
    omega

/-! ### The extension for any number of messages -/

theorem sum_rows {l w : Nat} (hl : 8 * w ≤ l) {t : Bytes} (hz : ∀ j < l, 8 * w ≤ j → row t 16 j = List.replicate 16 0)
    (c : Nat → GF) :
    (∑ j ∈ Finset.range l, elt (row t 16 j) * c j) = ∑ j ∈ Finset.range (8 * w), elt (row t 16 j) * c j := by
  symm
  apply Finset.sum_subset (fun j hj => by simp at hj ⊢; omega)
  intro j hj hj'
  simp at hj hj'
  rw [hz j hj hj', elt_zero, zero_mul]

theorem senderExtend_any (X : Crypto) (arm : Bool) (cores : Nat) (sched : Nat → List Nat) (delta : Bytes)
    (seed : WireBytes) (msg : List (Bytes × Bytes)) (ms : Nat) (payloads : List Bytes) (s : Nat → WireBytes)
    (l w : Nat) (hl : msg.length + 256 = l) (hw : l / 8 = w) (hd : delta.length = 16)
    (hp : ∀ i < 128, payloads[i]? = some (s i).toList) :
    ∃ K, apricotSenderExtend X arm cores sched delta seed msg ms payloads = .recv K ∧
      ∀ u : Bytes, w * 128 ≤ u.length → ∃ qT qSum, qT.length = 16 * l ∧ qSum.length = 16 ∧
        (∀ j < 8 * w, ∀ i < 128, bitAt (row qT 16 j) i = bitAt (qRow delta u w (fun i => X.fill (s i) w) i) j) ∧
        elt qSum = (∑ j ∈ Finset.range (8 * w), elt (row qT 16 j) * chi (X.fill seed (16 * l)) j) ∧
        K u = .recv fun x => .recv fun t => apFinish X arm cores sched delta qT qSum msg ms x t := by
  unfold apricotSenderExtend
  dsimp only
  rw [hl, hw, apRows_ok X w payloads s hp, liftM_ok, ret_bind, recvP_bind]
  refine ⟨_, rfl, fun u hu => ?_⟩
  have hT : ∀ i < 128, ((fun i => X.fill (s i) w) i).length = w := fun i _ => fill_length ..
  obtain ⟨qT, e, hl', hb, hz⟩ := transpose128_long w l (by omega) (qRow delta u w fun i => X.fill (s i) w) (qRow_length hu hT)
  obtain ⟨qSum, e2, hl2, hs⟩ := apSum_ok arm l qT (X.fill seed (16 * l)) (by omega) (by rw [fill_length])
  refine ⟨qT, qSum, hl', hl2, hb, ?_, ?_⟩
  · rw [hs]
    exact sum_rows (by omega) hz _
  · rw [apQ_ok X.dbg w delta u _ hd hT hu, liftM_ok, ret_bind, e, liftM_ok, ret_bind, e2, liftM_ok, ret_bind,
      recvP_bind]
    rfl

theorem receiverExtend_any (X : Crypto) (arm : Bool) (cores : Nat) (sched1 sched2 : Nat → List Nat) (seed : WireBytes)
    (seeds0 seeds1 : List Bytes) (s0 s1 : Nat → WireBytes) (bonus choices : List Bool) (ms l w : Nat)
    (hl : choices.length + 256 = l) (hw : l / 8 = w) (hb : bonus.length = 256) (hc : 0 < cores)
    (hs : ∀ n, IsOrder n (sched1 n)) (h0 : ∀ i < 128, seeds0[i]? = some (s0 i).toList)
    (h1 : ∀ i < 128, seeds1[i]? = some (s1 i).toList) :
    ∃ packed t x ts, packed.length = w ∧ (∀ k < 8 * w, bitAt packed k = (choices ++ bonus).getD k false) ∧
      t.length = 16 * l ∧ (∀ j < 8 * w, ∀ i < 128, bitAt (row t 16 j) i = bitAt (X.fill (s0 i) w) j) ∧
      x.length = 16 ∧ ts.length = 16 ∧
      elt x = (∑ j ∈ Finset.range l,
        if (choices ++ bonus).getD j false then chi (X.fill seed (16 * l)) j else 0) ∧
      elt ts = (∑ j ∈ Finset.range (8 * w), elt (row t 16 j) * chi (X.fill seed (16 * l)) j) ∧
      apricotReceiverExtend X arm cores sched1 sched2 seed seeds0 seeds1 bonus choices ms =
        .send (honestU X w packed s0 s1) (.send x (.send ts (.recv fun d =>
          Proc.ofR (apDerandomize X cores sched2
            ((List.range l).flatMap fun j => (X.sha256 (beBytes 8 j ++ row t 16 j)).toList) d packed
            choices.length (List.replicate choices.length (List.replicate ms 0)))))) := by
  have hlen : (choices ++ bonus).length = l := by rw [List.length_append, hb, hl]
  obtain ⟨packed, e1, hp1, hp2⟩ := apPack_ok (choices ++ bonus)
  rw [hlen, hw] at hp1 hp2
  obtain ⟨t, e2, ht1, ht2, hz⟩ := transpose128_long w l (by omega) (fun i => X.fill (s0 i) w) (fun i _ => fill_length ..)
  obtain ⟨x, ts, e3, hx, hts, hx2, hts2⟩ := apReceiverSums_ok X.dbg arm l (choices ++ bonus) t
    (X.fill seed (16 * l)) hlen (by omega) (by rw [fill_length])
  refine ⟨packed, t, x, ts, hp1, hp2, ht1, ht2, hx, hts, hx2, ?_, ?_⟩
  · rw [hts2]
    exact sum_rows (by omega) hz _
  · unfold apricotReceiverExtend
    dsimp only
    rw [hl, hw, apRows_ok X w seeds0 s0 h0, liftM_ok, ret_bind,
      apRows_ok X w seeds1 s1 h1, liftM_ok, ret_bind, e1, liftM_ok, ret_bind,
      apU_ok X.dbg w packed _ _ hp1 (fun i _ => fill_length ..) (fun i _ => fill_length ..), liftM_ok, ret_bind,
      sendP_bind, e2, liftM_ok, ret_bind, e3, liftM_ok, ret_bind, sendP_bind, sendP_bind,
      apV_ok X cores sched1 l t hc hs (by omega) (by omega), liftM_ok, ret_bind, recvP_bind]
    rfl

/-- The part of the sum of check coefficients that the sender's matrix does not have. -/
theorem check_left {l W : Nat} (hl : W ≤ l) (q t c : Nat → Spec.GF) (x : Nat → Bool) (d xs ts qs : Spec.GF)
    (hq : ∀ j < W, q j = if x j then t j + d else t j) (hxs : xs = ∑ j ∈ Finset.range l, if x j then c j else 0)
    (hts : ts = ∑ j ∈ Finset.range W, t j * c j) (hqs : qs = ∑ j ∈ Finset.range W, q j * c j) :
    ts = qs + xs * d ↔ (∑ k ∈ Finset.range (l - W), if x (W + k) then c (W + k) else 0) * d = 0 := by
  have h := check_identity q t c x d _ ts qs hq rfl hts hqs
  have e : xs = (∑ j ∈ Finset.range W, if x j then c j else 0) +
      ∑ k ∈ Finset.range (l - W), if x (W + k) then c (W + k) else 0 := by
    rw [hxs, ← Finset.sum_range_add]
    congr 2
    omega
  rw [e]
  constructor
  · intro h'
    linear_combination h - h'
  · intro h'
    linear_combination h - h'

theorem extend_gets (X : Crypto) (armS armR : Bool) (coresS coresR : Nat) (schedS sched1 sched2 : Nat → List Nat)
    (delta : Bytes) (seed : WireBytes) (msg : List (Bytes × Bytes)) (ms ms' : Nat) (payloads seeds0 seeds1 : List Bytes)
    (s0 s1 : Nat → WireBytes) (bonus choices : List Bool) (l w : Nat) (hl : msg.length + 256 = l) (hw : l / 8 = w)
    (hlen : msg.length = choices.length) (hd : delta.length = 16) (hb : bonus.length = 256)
    (hcR : 0 < coresR) (hs1 : ∀ n, IsOrder n (sched1 n))
    (h0 : ∀ i < 128, seeds0[i]? = some (s0 i).toList) (h1 : ∀ i < 128, seeds1[i]? = some (s1 i).toList)
    (hp : ∀ i < 128, payloads[i]? = some (if bitAt delta i then s1 i else s0 i).toList) :
    ∃ qT qSum packed t x ts, qT.length = 16 * l ∧ qSum.length = 16 ∧ x.length = 16 ∧ ts.length = 16 ∧
      packed.length = w ∧ (∀ k < 8 * w, bitAt packed k = (choices ++ bonus).getD k false) ∧ t.length = 16 * l ∧
      (∀ j < 8 * w, row qT 16 j =
        if (choices ++ bonus).getD j false then List.zipWith (· ^^^ ·) (row t 16 j) delta else row t 16 j) ∧
      (elt ts = elt qSum + elt x * elt delta ↔
        leftOver (X.fill seed (16 * l)) choices.length (fun k => bonus.getD k false) * elt delta = 0) ∧
      Gets (apricotSenderExtend X armS coresS schedS delta seed msg ms payloads)
        (apricotReceiverExtend X armR coresR sched1 sched2 seed seeds0 seeds1 bonus choices ms')
        (apFinish X armS coresS schedS delta qT qSum msg ms x ts)
        (.recv fun d => Proc.ofR (apDerandomize X coresR sched2
            ((List.range l).flatMap fun j => (X.sha256 (beBytes 8 j ++ row t 16 j)).toList) d packed
            choices.length (List.replicate choices.length (List.replicate ms' 0)))) := by
  obtain ⟨K, eK, hK⟩ := senderExtend_any X armS coresS schedS delta seed msg ms payloads
    (fun i => if bitAt delta i then s1 i else s0 i) l w hl hw hd hp
  obtain ⟨packed, t, x, ts, hp1, hp2, ht1, ht2, hx, hts, hx2, hts2, eR⟩ := receiverExtend_any X armR coresR sched1 sched2 seed
    seeds0 seeds1 s0 s1 bonus choices ms' l w (by omega) hw hb hcR hs1 h0 h1
  obtain ⟨qT, qSum, hq1, hq2, hq3, hq4, hKu⟩ := hK (honestU X w packed s0 s1)
    (by rw [honestU_length X w packed s0 s1 hp1])
  have hrow : ∀ j < 8 * w, row qT 16 j =
      if (choices ++ bonus).getD j false then List.zipWith (· ^^^ ·) (row t 16 j) delta else row t 16 j := by
    intro j hj
    refine row_xor_delta (l := l) (by omega) (by omega) (by omega) hd _ ?_
    intro i hi
    rw [hq3 j hj i hi]
    unfold honestU
    rw [qRow_honest hp1 (fun i _ => fill_length ..) (fun i _ => fill_length ..)
      (fun i hi => by split <;> rfl) i hi j, ht2 j hj i hi, hp2 j hj]
  refine ⟨qT, qSum, packed, t, x, ts, hq1, hq2, hx, hts, hp1, hp2, ht1, hrow, ?_, ?_⟩
  · have hrl : ∀ j < 8 * w, (row t 16 j).length = delta.length := fun j hj => by
      rw [row_length (n := l) (by omega) (by omega), hd]
    rw [check_left (l := l) (W := 8 * w) (by omega) (fun j => elt (row qT 16 j)) (fun j => elt (row t 16 j))
      (chi (X.fill seed (16 * l))) (fun j => (choices ++ bonus).getD j false) _ _ _ _ (fun j hj => by
        rw [hrow j hj, elt_ite_xor _ _ _ (hrl j hj)]) hx2 hts2 hq4]
    unfold leftOver
    rw [show l - 8 * w = choices.length % 8 by omega]
    have : ∀ k ∈ Finset.range (choices.length % 8),
        (if (choices ++ bonus).getD (8 * w + k) false = true then chi (X.fill seed (16 * l)) (8 * w + k) else 0) =
        if bonus.getD (256 - choices.length % 8 + k) false = true then
          chi (X.fill seed (16 * l)) (choices.length + 256 - choices.length % 8 + k) else 0 := by
      intro k _
      rw [show choices.length + 256 - choices.length % 8 + k = 8 * w + k by omega]
      have e : (choices ++ bonus).getD (8 * w + k) false = bonus.getD (256 - choices.length % 8 + k) false := by
        unfold List.getD
        rw [List.getElem?_append_right (by omega), show 8 * w + k - choices.length = 256 - choices.length % 8 + k by omega]
      rw [e]
    rw [Finset.sum_congr rfl this]
  · rw [eK, eR]
    refine .recvSend ?_
    rw [hKu]
    exact .recvSend (.recvSend (.refl _ _))

/-- The chosen ciphertext of row `j`, as the receiver finds it, and what it is combined with. -/
theorem derandomize_any (X : Crypto) (delta : Bytes) (l w : Nat) (hl : 8 * w ≤ l) (padded : List Bool)
    (packed t qT : Bytes) (hp1 : packed.length = w) (hp2 : ∀ k < 8 * w, bitAt packed k = padded.getD k false)
    (ht : t.length = 16 * l)
    (msg : List (Bytes × Bytes)) (ms : Nat) (hm : ∀ m ∈ msg, m.1.length = ms ∧ m.2.length = ms)
    (hn : msg.length ≤ 8 * w) (hd : delta.length = 16)
    (hrow : ∀ j < 8 * w, row qT 16 j =
      if padded.getD j false then List.zipWith (· ^^^ ·) (row t 16 j) delta else row t 16 j)
    (j : Nat) (hj : j < msg.length) (y : Bytes) :
    apDerandomizeRow X ((List.range l).flatMap fun j => (X.sha256 (beBytes 8 j ++ row t 16 j)).toList)
      ((List.range msg.length).flatMap (apPair X delta qT msg)) packed ms j y =
      apXorInplace X.dbg (X.fill (X.sha256 (beBytes 8 j ++ row t 16 j)) y.length)
        (apCipher X (row t 16 j) j (if padded.getD j false then (msg.getD j ([], [])).2 else (msg.getD j ([], [])).1)) := by
  have hgd : ∀ j < msg.length, (msg.getD j ([], [])).1.length = ms ∧ (msg.getD j ([], [])).2.length = ms := by
    intro j hj
    have : msg.getD j ([], []) = msg[j] := by simp [hj]
    rw [this]
    exact hm _ (List.getElem_mem hj)
  have hvl : ∀ j < l, ((X.sha256 (beBytes 8 j ++ row t 16 j)).toList).length = 32 := by simp
  have hj8 : j < 8 * w := by omega
  unfold apDerandomizeRow
  dsimp only
  rw [vectorRow_ok (n := l) (by rw [flatMap_len hvl]) (by omega), okb,
    row_flatMap (g := fun j => (X.sha256 (beBytes 8 j ++ row t 16 j)).toList) hvl (by omega), arrayFromSlice_toList, okb,
    idxR_getD (show (j - j % 8) / 8 < packed.length by omega), okb]
  have hbit : (((packed.getD ((j - j % 8) / 8) 0) >>> (j % 8)) &&& 1 : Byte).toNat = (padded.getD j false).toNat := by
    have hb := hp2 j hj8
    rw [show (j - j % 8) / 8 = j / 8 by omega]
    unfold bitAt at hb
    rw [← hb]
    generalize packed.getD (j / 8) 0 = p
    cases h : p.getLsbD (j % 8) with
    | true => rw [(bit_and_one p _).mpr h]; rfl
    | false =>
      have : (p >>> (j % 8)) &&& 1 = 0 := by
        apply BitVec.eq_of_getLsbD_eq
        intro i _
        rw [BitVec.getLsbD_and, BitVec.getLsbD_ushiftRight]
        by_cases hi : i = 0
        · subst hi; simpa using h
        · simp [hi]
      rw [this]; rfl
  rw [hbit]
  have hsl := vectorSlice_pair (ms := ms) (n := msg.length) (j := j)
    (fun j => apCipher X (row qT 16 j) j (msg.getD j ([], [])).1)
    (fun j => apCipher X (List.zipWith (· ^^^ ·) (row qT 16 j) delta) j (msg.getD j ([], [])).2)
    (fun j hj => by rw [apCipher_length, (hgd j hj).1]) (fun j hj => by rw [apCipher_length, (hgd j hj).2]) hj
    (padded.getD j false)
  have hsl' : vectorSlice ((List.range msg.length).flatMap (apPair X delta qT msg))
      (j * ms * 2 + (padded.getD j false).toNat * ms) ms = _ := hsl
  rw [hsl', okb]
  have hq := hrow j hj8
  have hrl : (row t 16 j).length = delta.length := by
    rw [row_length (n := l) (by omega) (by omega), hd]
  cases hpd : padded.getD j false with
  | false =>
    rw [hpd] at hq
    simp only [Bool.false_eq_true, if_false] at hq ⊢
    rw [hq]
  | true =>
    rw [hpd] at hq
    simp only [if_true] at hq ⊢
    rw [hq, zipWith_xor_cancel hrl]

/-- `xor_inplace` with a longer right operand. -/
theorem apXorInplace_long (dbg : Bool) {a b : Bytes} (h : a.length < b.length) : apXorInplace dbg a b = .error .panic := by
  unfold apXorInplace
  cases dbg with
  | true =>
    have : debugAssertR true (b.length = a.length) = .error .panic := by
      have h' : decide (b.length = a.length) = false := by simp; omega
      unfold debugAssertR
      rw [h']
      rfl
    rw [this]; rfl
  | false =>
    have : debugAssertR false (b.length = a.length) = .ok () := rfl
    rw [this, okb]
    refine foldlM_fails _ _ (fun s => s.length = a.length) _ _ rfl ?_ a.length (by simpa using h) ?_
    · intro i hi s hs
      have hi : i < b.length := by simpa using hi
      by_cases hia : i < a.length
      · right
        rw [idxR_getD (by omega), okb, idxR_getD hi, okb, setR_ok _ (by omega)]
        exact ⟨_, rfl, by simp [hs]⟩
      · left
        unfold idxR
        rw [List.getElem?_eq_none (by omega)]
        rfl
    · intro s hs
      unfold idxR
      rw [List.getElem?_eq_none (by omega)]
      rfl

/-- If every row of "De-randomize" panics, so does the receiver. -/
theorem apDerandomize_panics (X : Crypto) (cores : Nat) (sched : Nat → List Nat) (v d packed : Bytes) (n ms : Nat) (z : Bytes)
    (hc : 0 < cores) (hs : ∀ n, IsOrder n (sched n)) (hn : 0 < n) (hd : d.length = n * (ms * 2))
    (hrow : ∀ j < n, apDerandomizeRow X v d packed ms j z = .error .panic) :
    apDerandomize X cores sched v d packed n (List.replicate n z) = .error .panic := by
  unfold apDerandomize
  obtain ⟨hp1, hp2⟩ := pick_pos hc hn
  rw [divR_ok hn, okb, divR_ok hp1, okb]
  have hms : d.length / 2 / n = ms := by
    rw [hd, ← Nat.mul_assoc, Nat.mul_div_cancel _ (by decide), Nat.mul_div_cancel_left _ hn]
  rw [hms]
  have hk : 0 < n / pickThreads cores n := Nat.div_pos hp2 hp1
  generalize n / pickThreads cores n = k at *
  unfold chunksR
  rw [if_neg (by omega), okb]
  generalize hT : ((List.replicate n z).length + k - 1) / k = T
  have hTpos : 0 < T := by
    rw [← hT, List.length_replicate]
    exact Nat.div_pos (by omega) hk
  have hTn : ∀ c < T, c * k < n := by
    intro c hcT
    rw [← hT, List.length_replicate] at hcT
    have := Nat.div_mul_le_self (n + k - 1) k
    have h2 : (c + 1) * k ≤ (n + k - 1) / k * k := Nat.mul_le_mul_right _ hcT
    rw [Nat.add_mul] at h2
    omega
  have : runJobs (sched ((List.range T).map fun i => ((List.replicate n z).drop (i * k)).take k).length) (fun c chunk =>
      (List.range chunk.length).foldlM (fun chunk i => do
        setR chunk i (← apDerandomizeRow X v d packed ms (c * k + i) (← idxR chunk i))) chunk)
      ((List.range T).map fun i => ((List.replicate n z).drop (i * k)).take k) = .error .panic := by
    rw [List.length_map, List.length_range]
    have hperm := hs T
    cases hso : sched T with
    | nil =>
      rw [hso] at hperm
      have := hperm.length_eq
      simp at this
      omega
    | cons c rest =>
      have hcT : c < T := by
        have : c ∈ sched T := by rw [hso]; simp
        simpa using (hperm.mem_iff).mp this
      unfold runJobs
      rw [List.foldlM_cons, idxR_ok (a := ((List.replicate n z).drop (c * k)).take k) (by simp [hcT]), okb]
      have hlt := hTn c hcT
      have hne : 0 < min k (n - c * k) := by omega
      rw [List.drop_replicate, List.take_replicate]
      dsimp only
      rw [List.length_replicate]
      obtain ⟨r, hr⟩ : ∃ r, min k (n - c * k) = r + 1 := ⟨min k (n - c * k) - 1, by omega⟩
      rw [hr, List.range_succ_eq_map, List.foldlM_cons, idxR_ok (a := z) (by simp), okb, Nat.add_zero, hrow _ hlt]
      rfl
  rw [this]
  rfl

/-- The end of the sender for messages of no bytes. -/
theorem apFinish_empty (X : Crypto) (arm : Bool) (cores : Nat) (sched : Nat → List Nat) (delta qT qSum : Bytes)
    (msg : List (Bytes × Bytes)) (xSum tSum : Bytes) (hc : 0 < cores) (hn : 0 < msg.length) (hd : delta.length = 16)
    (hqs : qSum.length = 16) (hx : xSum.length = 16) (ht : tSum.length = 16) (he : elt tSum = elt qSum + elt xSum * elt delta) :
    apFinish X arm cores sched delta qT qSum msg 0 xSum tSum = .fail .panic := by
  obtain ⟨out, h1, h2, h3⟩ := apricotMulAcc_elt arm qSum xSum delta hqs hx hd
  have : tSum = out := elt_inj ht h2 (by rw [he, h3])
  have hr : apRandomize X cores sched delta qT msg 0 = .error .panic := by
    unfold apRandomize
    obtain ⟨hp1, hp2⟩ := pick_pos hc hn
    dsimp only
    rw [divR_ok hp1, okb]
    unfold chunksR
    rw [if_pos (by simp)]
    rfl
  unfold apFinish
  rw [debugAssertR_true (by simp [hx]), liftM_ok, ret_bind, debugAssertR_true (by simp [ht]), liftM_ok, ret_bind,
    h1, liftM_ok, ret_bind, apEq_ok _ _ _ (by omega), liftM_ok, ret_bind, if_pos (by simpa using this), hr, liftM_error, fail_bind]

theorem sizeBytes_mod (ms : Nat) :
    ∃ hi lo, (beBytes 2 (ms % 2 ^ 16))[0]? = some hi ∧ (beBytes 2 (ms % 2 ^ 16))[1]? = some lo ∧
      ((hi : Byte).toNat <<< 8) ||| (lo : Byte).toNat = ms % 2 ^ 16 := by
  have := sizeBytes_ok (ms := ms % 2 ^ 16) (Nat.mod_lt _ (by decide))
  rwa [Nat.mod_mod] at this

/-- An honest run up to the check of the sender, for messages of any sizes. -/
theorem apricot_reaches (X : Crypto) (armS armR : Bool) (coresS coresR : Nat) (schedS sched1 sched2 : Nat → List Nat)
    (coinS coinR seed : WireBytes) (delta : Vector Byte 16) (bonus : Vector Bool 256) (seed0 seed1 : Vector WireBytes 128)
    (innerS : List (Bytes × Bytes) → Proc Unit) (innerR : List Bool → Proc (List Bytes))
    (hinner : CorrectOT 32 128 innerS innerR) (msg : List (Bytes × Bytes)) (choices : List Bool) (ms : Nat)
    (hlen : msg.length = choices.length) (hfit : msg.length < 2 ^ 64) (hn : 0 < msg.length) (hm0 : msg[0].1.length = ms)
    (hcR : 0 < coresR) (hs1 : ∀ n, IsOrder n (sched1 n)) (h8 : X.dbg = false ∨ msg.length % 8 = 0)
    (hseed' : seed.toList = List.zipWith (· ^^^ ·) coinR.toList coinS.toList) :
    ∃ qT qSum packed t x ts : Bytes, qT.length = 16 * (msg.length + 256) ∧ qSum.length = 16 ∧ x.length = 16 ∧ ts.length = 16 ∧
      packed.length = (msg.length + 256) / 8 ∧
      (∀ k < 8 * ((msg.length + 256) / 8), bitAt packed k = (choices ++ bonus.toList).getD k false) ∧ t.length = 16 * (msg.length + 256) ∧
      (∀ j < 8 * ((msg.length + 256) / 8), row qT 16 j =
        if (choices ++ bonus.toList).getD j false then List.zipWith (· ^^^ ·) (row t 16 j) delta.toList else row t 16 j) ∧
      (elt ts = elt qSum + elt x * elt delta.toList ↔ leftOver (X.fill seed (16 * (msg.length + 256))) msg.length
        (fun k => bonus.toList.getD k false) * elt delta.toList = 0) ∧
      ∀ p' q', Gets (apFinish X armS coresS schedS delta.toList qT qSum msg ms x ts)
        (.recv fun d => Proc.ofR (apDerandomize X coresR sched2
            ((List.range (msg.length + 256)).flatMap fun j => (X.sha256 (beBytes 8 j ++ row t 16 j)).toList) d packed
            choices.length (List.replicate choices.length (List.replicate (ms % 2 ^ 16) 0)))) p' q' →
        Gets (apricotSender X armS coresS schedS coinS delta innerR msg)
          (apricotReceiver X armR coresR sched1 sched2 coinR bonus seed0 seed1 innerS choices) p' q' := by
  have hdb : debugAssertR X.dbg (msg.length % 8 = 0) = .ok () := by
    rcases h8 with h | h
    · rw [h]; rfl
    · exact debugAssertR_true (by simpa using h)
  have hdb' : debugAssertR X.dbg (choices.length % 8 = 0) = .ok () := by rw [← hlen]; exact hdb
  have hseed : toArray32 (List.zipWith (· ^^^ ·) coinR.toList coinS.toList) = .ok seed := by
    unfold toArray32
    rw [dif_pos (by simp)]
    refine congrArg Except.ok (Vector.toList_inj.mp ?_)
    rw [hseed']
    simp
  have hv : Ends (validateProperties ⟨msg.length, "Apricot"⟩) (validateProperties ⟨choices.length, "Apricot"⟩) () () := by
    rw [← hlen]
    exact validate_ends ⟨hfit, apricot_name⟩
  obtain ⟨qT, qSum, packed, t, x, ts, hq1, hq2, hx, hts, hp1, hp2, ht1, hrow, hcheck, hG⟩ :=
    extend_gets X armS armR coresS coresR schedS sched1 sched2 delta.toList seed msg ms (ms % 2 ^ 16)
      (chosen (List.zipWith (fun a b => (a.toList, b.toList)) seed0.toList seed1.toList) (u8VecToBoolVec delta.toList))
      (seed0.toList.map (·.toList)) (seed1.toList.map (·.toList))
      (fun i => if h : i < 128 then seed0[i] else 0) (fun i => if h : i < 128 then seed1[i] else 0)
      bonus.toList choices _ _ rfl rfl hlen (by simp) (by simp) hcR hs1
      (fun i hi => by simp [hi]) (fun i hi => by simp [hi])
      (fun i hi => by
        rw [chosen_seeds delta.toList (by simp) seed0 seed1 i hi]
        simp [hi])
  have hd : delta.toList.length = 16 := by simp
  have run : ∀ p' q', Gets (apFinish X armS coresS schedS delta.toList qT qSum msg ms x ts)
      (.recv fun d => Proc.ofR (apDerandomize X coresR sched2
          ((List.range (msg.length + 256)).flatMap fun j => (X.sha256 (beBytes 8 j ++ row t 16 j)).toList) d packed
          choices.length (List.replicate choices.length (List.replicate (ms % 2 ^ 16) 0)))) p' q' →
      Gets (apricotSender X armS coresS schedS coinS delta innerR msg)
        (apricotReceiver X armR coresR sched1 sched2 coinR bonus seed0 seed1 innerS choices) p' q' := by
      intro p' q' h
      unfold apricotSender apricotReceiver
      rw [hdb, liftM_ok, ret_bind, hdb', liftM_ok, ret_bind]
      refine Gets.after hv (Gets.after (coinflip_ends X.toEnv coinR.toList coinS.toList (by simp)).swap ?_)
      rw [hseed, liftM_ok, ret_bind, ret_bind, idxR_ok (a := msg[0]) (by simp), liftM_ok, ret_bind, sendP_bind, recvP_bind]
      dsimp only
      rw [hm0]
      refine .sendRecv ?_
      obtain ⟨hi, lo, e1, e2, e3⟩ := sizeBytes_mod ms
      rw [idxR_ok e1, liftM_ok, ret_bind, idxR_ok e2, liftM_ok, ret_bind, e3]
      refine .after (hinner _ (u8VecToBoolVec delta.toList) (by simp) (by rw [unpack_length]; simp) ?_).ends.swap ?_
      · intro m hmem
        obtain ⟨i, hi, rfl⟩ := List.getElem_of_mem hmem
        simp
      · exact hG.trans h
  rw [← hlen] at hcheck
  exact ⟨qT, qSum, packed, t, x, ts, hq1, hq2, hx, hts, hp1, hp2, ht1, hrow, hcheck, run⟩

theorem apricot_gets (X : Crypto) (armS armR : Bool) (coresS coresR : Nat) (schedS sched1 sched2 : Nat → List Nat)
    (coinS coinR : WireBytes) (delta : Vector Byte 16) (bonus : Vector Bool 256) (seed0 seed1 : Vector WireBytes 128)
    (innerS : List (Bytes × Bytes) → Proc Unit) (innerR : List Bool → Proc (List Bytes))
    (hinner : CorrectOT 32 128 innerS innerR) (msg : List (Bytes × Bytes)) (choices : List Bool) (ms : Nat)
    (hlen : msg.length = choices.length) (hfit : msg.length < 2 ^ 64)
    (hm : ∀ m ∈ msg, m.1.length = ms ∧ m.2.length = ms)
    (hcS : 0 < coresS) (hcR : 0 < coresR) (hsS : ∀ n, IsOrder n (schedS n)) (hs1 : ∀ n, IsOrder n (sched1 n))
    (hs2 : ∀ n, IsOrder n (sched2 n)) (h8 : X.dbg = false ∨ msg.length % 8 = 0) :
    (msg.length = 0 → ∃ k, Gets (apricotSender X armS coresS schedS coinS delta innerR msg)
      (apricotReceiver X armR coresR sched1 sched2 coinR bonus seed0 seed1 innerS choices) (.fail .panic) (.recv k)) ∧
    (0 < msg.length → ∀ seed : WireBytes, seed.toList = List.zipWith (· ^^^ ·) coinR.toList coinS.toList →
      ∃ p' q', Gets (apricotSender X armS coresS schedS coinS delta innerR msg)
        (apricotReceiver X armR coresR sched1 sched2 coinR bonus seed0 seed1 innerS choices) p' q' ∧
      ((leftOver (X.fill seed (16 * (msg.length + 256))) msg.length (fun k => bonus.toList.getD k false) * elt delta.toList ≠ 0 ∧
        p' = .fail (.err .polychromatic) ∧ ∃ k, q' = .recv k) ∨
      (leftOver (X.fill seed (16 * (msg.length + 256))) msg.length (fun k => bonus.toList.getD k false) * elt delta.toList = 0 ∧
        (ms = 0 ∧ p' = .fail .panic ∧ (∃ k, q' = .recv k) ∨
         (0 < ms ∧ ms < 2 ^ 16 ∧ p' = .ret () ∧ q' = .ret (chosen msg choices)) ∨
         (2 ^ 16 ≤ ms ∧ p' = .ret () ∧ q' = .fail .panic))))) := by
  have hdb : debugAssertR X.dbg (msg.length % 8 = 0) = .ok () := by
    rcases h8 with h | h
    · rw [h]; rfl
    · exact debugAssertR_true (by simpa using h)
  have hdb' : debugAssertR X.dbg (choices.length % 8 = 0) = .ok () := by rw [← hlen]; exact hdb
  obtain ⟨seed, hseed⟩ : ∃ seed : WireBytes, toArray32 (List.zipWith (· ^^^ ·) coinR.toList coinS.toList) = .ok seed := by
    unfold toArray32
    rw [dif_pos (by simp)]
    exact ⟨_, rfl⟩
  have hseed' : seed.toList = List.zipWith (· ^^^ ·) coinR.toList coinS.toList := by
    unfold toArray32 at hseed
    rw [dif_pos (by simp)] at hseed
    cases hseed
    simp
  have hv : Ends (validateProperties ⟨msg.length, "Apricot"⟩) (validateProperties ⟨choices.length, "Apricot"⟩) () () := by
    rw [← hlen]
    exact validate_ends ⟨hfit, apricot_name⟩
  constructor
  · intro h0
    unfold apricotSender apricotReceiver
    rw [hdb, liftM_ok, ret_bind, hdb', liftM_ok, ret_bind]
    refine Gets.after_waits hv (Gets.after_waits (coinflip_ends X.toEnv coinR.toList coinS.toList (by simp)).swap ?_)
    have hz : idxR msg 0 = .error .panic := by
      unfold idxR
      rw [List.getElem?_eq_none (by omega)]
      rfl
    rw [hseed, liftM_ok, ret_bind, ret_bind, hz, liftM_error, fail_bind, recvP_bind]
    exact ⟨_, .refl _ _⟩
  · intro hn seed2 hseed2
    have : seed2 = seed := Vector.toList_inj.mp (hseed2.trans hseed'.symm)
    subst this
    obtain ⟨hm0, -⟩ := hm msg[0] (List.getElem_mem hn)
    obtain ⟨qT, qSum, packed, t, x, ts, hq1, hq2, hx, hts, hp1, hp2, ht1, hrow, hcheck, run⟩ :=
      apricot_reaches X armS armR coresS coresR schedS sched1 sched2 coinS coinR seed2 delta bonus seed0 seed1 innerS innerR
        hinner msg choices ms hlen hfit hn hm0 hcR hs1 h8 hseed'
    have hd : delta.toList.length = 16 := by simp
    by_cases hz : leftOver (X.fill seed2 (16 * (msg.length + 256))) msg.length (fun k => bonus.toList.getD k false) *
        elt delta.toList = 0
    · have hok := hcheck.mpr hz
      rcases Nat.eq_zero_or_pos ms with h0 | hpos
      · subst h0
        refine ⟨_, _, run _ _ (.refl _ _), .inr ⟨hz, .inl ⟨rfl, ?_, _, rfl⟩⟩⟩
        exact apFinish_empty X armS coresS schedS delta.toList qT qSum msg x ts hcS hn hd hq2 hx hts hok
      · have hacc := apFinish_accept X armS coresS schedS delta.toList qT qSum msg ms x ts hcS hsS hn hpos hd (by omega) hm
          hq2 hx hts hok
        rw [hacc] at run
        have hgd : ∀ j < msg.length, (if (choices ++ bonus.toList).getD j false then (msg.getD j ([], [])).2
            else (msg.getD j ([], [])).1).length = ms := by
          intro j hj
          have : msg.getD j ([], []) = msg[j] := by simp [hj]
          rw [this]
          have := hm _ (List.getElem_mem hj)
          split <;> simp [this]
        have hrows := derandomize_any X delta.toList (msg.length + 256) ((msg.length + 256) / 8) (by omega)
          (choices ++ bonus.toList) packed t qT hp1 hp2 ht1 msg ms hm (by omega) hd hrow
        have hdl : ((List.range msg.length).flatMap (apPair X delta.toList qT msg)).length = choices.length * (ms * 2) := by
          rw [flatMap_len (w := ms * 2) (fun j hj => apPair_length X delta.toList qT msg ms j hj hm), ← hlen, Nat.mul_comm]
        rcases Nat.lt_or_ge ms (2 ^ 16) with hlt | hge
        · refine ⟨_, _, run _ _ (.sendRecv (.refl _ _)), .inr ⟨hz, .inr (.inl ⟨hpos, hlt, rfl, ?_⟩)⟩⟩
          rw [Nat.mod_eq_of_lt hlt, apDerandomize_ok X coresR sched2 _ _ packed choices.length ms
            (fun j => if (choices ++ bonus.toList).getD j false then (msg.getD j ([], [])).2 else (msg.getD j ([], [])).1)
            hcR hs2 (by omega) hdl (fun j hj => by
              have hj' : j < msg.length := by omega
              rw [hrows j hj', List.length_replicate]
              have := apCipher_cancel X (row t 16 j) j (if (choices ++ bonus.toList).getD j false then (msg.getD j ([], [])).2
                else (msg.getD j ([], [])).1)
              rw [hgd j hj'] at this
              rw [apXorInplace_ok _ (by rw [fill_length, apCipher_length, hgd j hj']), this]), ofR_ok]
          refine congrArg Proc.ret ?_
          apply List.ext_getElem
          · simp [chosen, hlen]
          · intro j h1 h2
            have hj : j < choices.length := by simpa using h1
            have hj' : j < msg.length := by omega
            have e1 : (choices ++ bonus.toList).getD j false = choices[j] := by
              simp [List.getD, List.getElem?_append_left hj, hj]
            have e2 : msg.getD j ([], []) = msg[j] := by simp [hj']
            simp only [List.getElem_map, List.getElem_range, chosen, List.getElem_zipWith, e1, e2]
        · refine ⟨_, _, run _ _ (.sendRecv (.refl _ _)), .inr ⟨hz, .inr (.inr ⟨hge, rfl, ?_⟩)⟩⟩
          rw [apDerandomize_panics X coresR sched2 _ _ packed choices.length ms _ hcR hs2 (by omega) hdl (fun j hj => by
            have hj' : j < msg.length := by omega
            rw [hrows j hj']
            refine apXorInplace_long _ ?_
            rw [fill_length, apCipher_length, hgd j hj', List.length_replicate]
            have := Nat.mod_lt ms (show 0 < 2 ^ 16 by decide)
            omega)]
          rfl
    · refine ⟨_, _, run _ _ (.refl _ _), .inl ⟨hz, ?_, _, rfl⟩⟩
      exact apFinish_reject X armS coresS schedS delta.toList qT qSum msg ms x ts hd hq2 hx hts (fun h => hz (hcheck.mp h))

end FP
