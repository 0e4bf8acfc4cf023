import Verif.Proof.Thief
/-
C25: what a cheating receiver of src/ot/apricot.rs gains.
-/
namespace FP.Props
open Spec

attribute [local irreducible] Spec.modulus

/-- C25 fails in the worst way for src/ot/apricot.rs.  The coefficients are agreed before the receiver sends its
matrix.  If those of the bonus rows generate the field, a receiver with bootstrap seeds `s0`, `s1` (and `t`, the
rows of the matrix made from the first ones) computes from them messages `u`, `x`, `y` which every sender accepts,
whatever its secret `delta` and its messages; and from the sender's answer and the first messages of 128
pairs, if it knows these, it computes both messages of all pairs. -/
theorem C25_fails_thief (X : Crypto) (seed : WireBytes) (s0 s1 : Nat → WireBytes) (t : Nat → Bytes) (n ms : Nat)
    (h8 : n % 8 = 0) (hn : 128 ≤ n) (hms : 0 < ms) (ht : RowsOf t (fun i => X.fill (s0 i) ((n + 256) / 8)) n)
    (hsp : Spanning (chi (X.fill seed (16 * (n + 256)))) n (n + 256))
    (hdiff : ∀ j < 128, X.fill (padSeed X.sha256 j (t j)) ms ≠ X.fill (padSeed X.sha256 j (bytesXor (t j) (unitRow j))) ms) :
    ∃ (u x y : Bytes) (steal : Bytes → List Bytes → List (Bytes × Bytes)),
      ∀ (arm : Bool) (cores : Nat) (sched : Nat → List Nat) (delta : Bytes) (msg : List (Bytes × Bytes)),
        delta.length = 16 → msg.length = n → (∀ m ∈ msg, m.1.length = ms ∧ m.2.length = ms) → 0 < cores →
        (∀ m, IsOrder m (sched m)) →
        ∃ d, (apricotSenderExtend X arm cores sched delta seed msg ms
            ((List.range 128).map fun i => (if bitAt delta i then s1 i else s0 i).toList)).against [u, x, y] =
              ([d], some (.ok ())) ∧
          steal d ((msg.take 128).map Prod.fst) = msg := by
  obtain ⟨w, hw⟩ : ∃ w, n + 256 = 8 * w := ⟨n / 8 + 32, by omega⟩
  rw [hw, Nat.mul_div_cancel_left w (by decide)] at ht
  rw [hw] at hsp
  choose e he using fun i => hsp (chi (X.fill seed (16 * (8 * w))) i)
  let E : Nat → Nat → Bool := fun i j => if j < n then decide (i = j) else e i j
  have hsum : ∀ i < 128, (∑ j ∈ Finset.range (8 * w), if E i j then chi (X.fill seed (16 * (8 * w))) j else 0) = 0 := by
    intro i hi
    rw [Finset.range_eq_Ico, ← Finset.sum_Ico_consecutive _ (Nat.zero_le n) (by omega), ← Finset.range_eq_Ico]
    have h1 : (∑ j ∈ Finset.range n, if E i j then chi (X.fill seed (16 * (8 * w))) j else 0) =
        chi (X.fill seed (16 * (8 * w))) i := by
      rw [Finset.sum_eq_single i]
      · simp [E, show i < n by omega]
      · intro j hj hji
        have hj : j < n := by simpa using hj
        simp [E, hj, Ne.symm hji]
      · intro h; simp at h; omega
    have h2 : (∑ j ∈ Finset.Ico n (8 * w), if E i j then chi (X.fill seed (16 * (8 * w))) j else 0) =
        chi (X.fill seed (16 * (8 * w))) i := by
      rw [he i]
      unfold selected
      refine Finset.sum_congr rfl fun j hj => ?_
      have : ¬ j < n := by have := (Finset.mem_Ico.mp hj).1; omega
      simp [E, this]
    rw [h1, h2, gf_add_self]
  obtain ⟨u, hu, hub⟩ := bitMatrix_exists 128 w (fun i j =>
    (bitAt (X.fill (s0 i) w) j ^^ bitAt (X.fill (s1 i) w) j ^^ E i j))
  obtain ⟨x, hx, hxs⟩ := elt_surj 0
  obtain ⟨y, hy, hys⟩ := elt_surj (∑ j ∈ Finset.range (8 * w), bitsElt (fun i => bitAt (X.fill (s0 i) w) j) *
          chi (X.fill seed (16 * (8 * w))) j)
  refine ⟨u, x, y, stolen X t n ms, ?_⟩
  intro arm cores sched delta msg hd hl hm hc hs
  subst hl
  have hacc := (C24_apricot_error_partial X arm cores sched delta seed msg ms s0 s1 w hw (by omega) hms hm hd hc hs
    (fun _ => false) E u x y [] hu hx hy (fun i hi j hj => by rw [hub i hi j hj]; simp) (by simp [hxs]) hys).mpr (by
      have : ∀ j, bitsElt (fun i => E i j && bitAt delta i) * chi (X.fill seed (16 * (8 * w))) j =
          ∑ i ∈ Finset.range 128, (if bitAt delta i then AdjoinRoot.root modulus ^ i else 0) *
            (if E i j then chi (X.fill seed (16 * (8 * w))) j else 0) := by
        intro j
        unfold bitsElt
        rw [Finset.sum_mul]
        refine Finset.sum_congr rfl fun i _ => ?_
        by_cases h1 : E i j = true <;> by_cases h2 : bitAt delta i = true <;> simp [h1, h2]
      simp only [this]
      rw [Finset.sum_comm]
      refine Finset.sum_eq_zero fun i hi => ?_
      rw [← Finset.mul_sum, hsum i (by simpa using hi), mul_zero])
  obtain ⟨K, eK, hK⟩ := senderExtend_eq X arm cores sched delta seed msg ms
    ((List.range 128).map fun i => (if bitAt delta i then s1 i else s0 i).toList) (fun i => if bitAt delta i then s1 i else s0 i)
    w hw hd (fun i hi => by simp [hi])
  obtain ⟨qT, qSum, hq1, hq2, hqb, hqs, hKu⟩ := hK u (by omega)
  rw [eK] at hacc ⊢
  simp only [Proc.against, hKu] at hacc ⊢
  by_cases hchk : elt y = elt qSum + elt x * elt delta
  · rw [apFinish_accept X arm cores sched delta qT qSum msg ms x y hc hs (by omega) hms hd (by omega) hm hq2 hx hy hchk]
    refine ⟨_, rfl, ?_⟩
    have hrows := sender_rows hd (by omega) (fun i hi => fill_length ..) (by omega)
      (stolen_keys (delta := delta) (by omega) ht hub fun i hi j hj => by simp [E, hj]) hq1 hqb
    exact stolen_ok hd hn hm (fun j hj => by rw [hrows j hj]; simp) hdiff
  · rw [apFinish_reject X arm cores sched delta qT qSum msg ms x y hd hq2 hx hy hchk] at hacc
    simp [Proc.against] at hacc

/-- C25 in release builds: the same without any condition on the coefficients, because an empty second check
value is accepted. -/
theorem C25_fails_thief_release (X : Crypto) (seed : WireBytes) (s0 s1 : Nat → WireBytes) (t : Nat → Bytes) (n ms : Nat)
    (h8 : n % 8 = 0) (hn : 128 ≤ n) (hms : 0 < ms) (ht : RowsOf t (fun i => X.fill (s0 i) ((n + 256) / 8)) n)
    (hrel : X.dbg = false)
    (hdiff : ∀ j < 128, X.fill (padSeed X.sha256 j (t j)) ms ≠ X.fill (padSeed X.sha256 j (bytesXor (t j) (unitRow j))) ms) :
    ∃ (u : Bytes) (steal : Bytes → List Bytes → List (Bytes × Bytes)),
      ∀ (arm : Bool) (cores : Nat) (sched : Nat → List Nat) (delta : Bytes) (msg : List (Bytes × Bytes)),
        delta.length = 16 → msg.length = n → (∀ m ∈ msg, m.1.length = ms ∧ m.2.length = ms) → 0 < cores →
        (∀ m, IsOrder m (sched m)) →
        ∃ d, (apricotSenderExtend X arm cores sched delta seed msg ms
            ((List.range 128).map fun i => (if bitAt delta i then s1 i else s0 i).toList)).against
              [u, List.replicate 16 0, []] = ([d], some (.ok ())) ∧
          steal d ((msg.take 128).map Prod.fst) = msg := by
  obtain ⟨w, hw⟩ : ∃ w, n + 256 = 8 * w := ⟨n / 8 + 32, by omega⟩
  rw [hw, Nat.mul_div_cancel_left w (by decide)] at ht
  obtain ⟨u, hu, hub⟩ := bitMatrix_exists 128 w (fun i j =>
    (bitAt (X.fill (s0 i) w) j ^^ bitAt (X.fill (s1 i) w) j ^^ decide (i = j)))
  refine ⟨u, stolen X t n ms, ?_⟩
  intro arm cores sched delta msg hd hl hm hc hs
  subst hl
  obtain ⟨K, eK, hK⟩ := senderExtend_eq X arm cores sched delta seed msg ms
    ((List.range 128).map fun i => (if bitAt delta i then s1 i else s0 i).toList) (fun i => if bitAt delta i then s1 i else s0 i)
    w hw hd (fun i hi => by simp [hi])
  obtain ⟨qT, qSum, hq1, hq2, hqb, hqs, hKu⟩ := hK u (by omega)
  have hrows := sender_rows hd (by omega) (fun i hi => fill_length ..) (by omega)
    (stolen_keys (delta := delta) (E := fun i j => decide (i = j)) (by omega) ht hub fun i hi j hj => rfl) hq1 hqb
  refine ⟨(List.range msg.length).flatMap (apPair X delta qT msg), ?_,
    stolen_ok hd hn hm (fun j hj => by rw [hrows j hj]; simp) hdiff⟩
  rw [eK]
  simp only [Proc.against, hKu]
  obtain ⟨out, h1, h2, h3⟩ := apricotMulAcc_elt arm qSum (List.replicate 16 0) delta hq2 (by simp) hd
  have e : apEq X.dbg [] out = .ok true := by
    unfold apEq; rw [hrel]; rfl
  unfold apFinish
  rw [debugAssertR_true (by simp), liftM_ok, ret_bind, show debugAssertR X.dbg (16 = ([] : Bytes).length) = .ok () by
      rw [hrel]; rfl, liftM_ok, ret_bind, h1, liftM_ok, ret_bind, e, liftM_ok, ret_bind, if_pos rfl,
    apRandomize_ok X cores sched delta qT msg ms hc hs (by omega) hms hd (by omega) hm, liftM_ok, ret_bind]
  rfl

/-! ### The hypotheses can be met -/

/-- A hash that keeps the first thirty-two bytes and a generator that repeats its seed. -/
private def toyX : Crypto where
  dbg := false
  sha256 b := Vector.ofFn fun i => b.getD i 0
  chacha20 s k := s.toList.getD (k % 32) 0
  chacha8 s k := s.toList.getD (k % 32) 0

/-- Seeds and a number of pairs for which the rows exist and all 128 masks differ. -/
example (s0 : Nat → WireBytes) : ∃ t : Nat → Bytes, RowsOf t (fun i => toyX.fill (s0 i) ((128 + 256) / 8)) 128 ∧
    ∀ j < 128, toyX.fill (padSeed toyX.sha256 j (t j)) 32 ≠
      toyX.fill (padSeed toyX.sha256 j (bytesXor (t j) (unitRow j))) 32 := by
  choose t ht1 ht2 using fun j => packed_exists 16 fun i => bitAt (toyX.fill (s0 i) ((128 + 256) / 8)) j
  refine ⟨t, fun j hj => ⟨ht1 j, fun i hi => ht2 j i hi⟩, fun j hj h => ?_⟩
  have hx : (bytesXor (t j) (unitRow j)).length = 16 := by simp [bytesXor, ht1, unitRow_length]
  have hfill : ∀ key : Bytes, key.length = 16 → ∀ k < 16,
      (toyX.fill (padSeed toyX.sha256 j key) 32).getD (8 + k) 0 = key.getD k 0 := by
    intro key hk k hk'
    have h8 : (rowBytes j).length = 8 := by simp [rowBytes]
    have h1 : (8 + k) % 32 = 8 + k := by omega
    have h2 : 8 + k < 32 := by omega
    simp [Crypto.fill, toyX, padSeed, h1, h2, List.getElem?_append_right, h8]
  have heq : t j = bytesXor (t j) (unitRow j) := by
    apply List.ext_getElem (by rw [ht1, hx])
    intro k h1 h2
    have hk : k < 16 := by rw [ht1] at h1; exact h1
    have e1 := hfill _ (ht1 j) k hk
    have e2 := hfill _ hx k hk
    rw [h, e2] at e1
    simpa [List.getD_eq_getElem?_getD, h1, h2] using e1.symm
  have hb : bitAt (t j) j = (bitAt (t j) j ^^ true) := by
    conv_lhs => rw [heq]
    rw [bytesXor, bitAt_xor _ _ (by rw [ht1, unitRow_length]), unitRow_bit hj]
    simp
  cases h : bitAt (t j) j <;> rw [h] at hb <;> cases hb

end FP.Props
