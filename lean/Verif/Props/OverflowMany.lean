import Verif.Props.Overflow
import Verif.Proof.Witness
/-
C32, C33, C34: the password lengths for which the one-of-many key exchanges do what they are supposed to.
-/
namespace FP.Props
open Spec

theorem bits_of {p : Bytes} {len : Nat} (h : p.length = len) : (u8VecToBoolVec p).length = len * 8 := by
  rw [unpack_length, h, Nat.mul_comm]

theorem xorBits_comm (a b : List Bool) : xorBits a b = xorBits b a := by
  unfold xorBits
  apply List.ext_getElem
  · simp; omega
  · intro i h1 h2
    simp [Bool.xor_comm]

theorem unmask_bits {mask p : Bytes} (h : mask.length = p.length) :
    u8VecToBoolVec p = xorBits (u8VecToBoolVec (xorB mask p)) (u8VecToBoolVec mask) := by
  rw [unpack_xor mask p h]
  have l : (u8VecToBoolVec mask).length = (u8VecToBoolVec p).length := by rw [unpack_length, unpack_length, h]
  unfold xorBits
  apply List.ext_getElem
  · simp [l]
  · intro i h1 h2
    simp only [List.getElem_zipWith]
    generalize (u8VecToBoolVec mask)[i] = x
    generalize (u8VecToBoolVec p)[i] = y
    cases x <;> cases y <;> rfl

theorem xorB_cancel {mask p : Bytes} (h : mask.length = p.length) : xorB (xorB mask p) p = mask := by
  unfold xorB
  apply List.ext_getElem
  · simp [h]
  · intro i h1 h2
    simp only [List.getElem_zipWith]
    rw [BitVec.xor_assoc, BitVec.xor_self, BitVec.xor_zero]

/-- A garbler with other draws for its labels. -/
def _root_.FP.GarblerDraws.withLabels (g : GarblerDraws) (rnd : GarbleRand) : GarblerDraws := { g with rnd := rnd }

theorem withLabels_valid {g : GarblerDraws} (h : g.Valid) (rnd : GarbleRand) : (GarblerDraws.withLabels g rnd).Valid :=
  ⟨h.ord, h.ot⟩

/-! ### C32 -/

/-- C32 is false of the code for passwords of 16 to 31 bytes, of 4096 to 8191 bytes, and of longer
lengths whose bit count modulo 65536 falls into the same ranges: even with the very password stored at
the index the two keys can differ. -/
theorem C32_fails_bad_length (C : Curve) (X : Crypto) (s : ManyDraws) (c : SingleDraws) (passwords : List Bytes)
    (len index ts tc : Nat) (hdb : Database passwords len) (h0 : 0 < len) (hl32 : len < 2 ^ 32)
    (hbad : ¬ GoodDomain (8 * len % 65536 + 1)) (hi : index < passwords.length) (hm : s.many.Valid false passwords.length)
    (hsg : s.g.Valid) (hso : s.ot.Valid) (hcg : c.g.Valid) (hco : c.ot.Valid) (hts : ts < 65535) (htc : tc < 65535) :
    ∃ (sha : Bytes → WireBytes) (rnd1 rnd2 : GarbleRand) (key key' : WireBytes),
      Completes (mfpakeMany C (withHash X ⟨false, sha⟩) { s with g := s.g.withLabels rnd1 } passwords ts)
        (mfpakeSingle C (withHash X ⟨false, sha⟩) { c with g := c.g.withLabels rnd2 } passwords[index] index passwords.length tc)
        key key' ∧ key ≠ key' := by
  have hmask := drawMask_length s.mask len
  have hil : passwords[index].length = len := hdb.lengths _ (List.getElem_mem hi)
  have hbad := bad_of_not_good hbad
  obtain ⟨a, a', h1, -, hne⟩ := wrap_ends C (withHash X (wrapEnv (8 * len % 65536 + 1))) s.g.ord s.g.ot c.ot hsg.ord hsg.ot
    hco (drawMask s.mask len) ts (by omega) (by rw [hmask]; exact hbad) hts (by rw [hmask]; rfl) true
  obtain ⟨b, b', h2, heq, -⟩ := wrap_ends C (withHash X (wrapEnv (8 * len % 65536 + 1))) c.g.ord c.g.ot s.ot hcg.ord hcg.ot
    hso (drawMask s.mask len) tc (by omega) (by rw [hmask]; exact hbad) htc (by rw [hmask]; rfl) false
  have := heq rfl
  subst this
  refine ⟨wrapHash (8 * len % 65536 + 1), wrapRand (markAt true (8 * len)), wrapRand (markAt false (8 * len)),
    combine a b, combine a' b, Ends.completes ?_, fun he => hne rfl ?_⟩
  · have hc := xorB_cancel (mask := drawMask s.mask len) (p := passwords[index]) (by rw [hil]; exact hmask)
    rw [hmask] at h1 h2
    exact many_conn C (withHash X (wrapEnv (8 * len % 65536 + 1))) { s with g := s.g.withLabels (wrapRand (markAt true (8 * len))) }
      { c with g := c.g.withLabels (wrapRand (markAt false (8 * len))) } passwords passwords[index] passwords[index] len index
      ts tc hdb h0 hl32 hi hm (fun m hl => xorBytesInplace_ok _ (by omega)) (a := a) (a' := a') (b := b) (b' := b)
      (by rw [hc]; exact h1) (by rw [hc]; exact h2.swap)
  · rw [C12_combine_comm a b, C12_combine_comm a' b] at he
    exact C12_combine_inj _ _ _ he

example := C32_fails_bad_length Witness.curve (Witness.crypto true) Witness.manyDraws Witness.singleDraws
    Witness.wide 16 1 1 1 (by meets) (by meets) (by meets) (by meets) (by meets) (by meets) (by meets) (by meets)
    (by meets) (by meets) (by meets) (by meets)

/-! ### C33 -/

/-- C33, server garbling, is false for the same lengths. -/
theorem C33_server_fails_bad_length (C : Curve) (X : Crypto) (s : ServerDraws) (c : ClientDraws) (passwords : List Bytes)
    (len index t : Nat) (hdb : Database passwords len) (h0 : 0 < len) (hl32 : len < 2 ^ 32)
    (hbad : ¬ GoodDomain (8 * len % 65536 + 1)) (hi : index < passwords.length) (hm : s.many.Valid false passwords.length)
    (hsg : s.g.Valid) (hs2 : s.ot2.Valid) (hco : c.ot.Valid) (hco2 : c.ot2.Valid) (ht : t < 65535) :
    ∃ (sha : Bytes → WireBytes) (rnd : GarbleRand) (k k' : WireBytes) (mask masked : Bytes),
      Completes (garblerServerV3 C (withHash X ⟨false, sha⟩) { s with g := s.g.withLabels rnd } passwords t)
        (evaluatorClientV3 C (withHash X ⟨false, sha⟩) c passwords[index] passwords.length index) (k, mask) (k', masked) ∧ k ≠ k' := by
  have hmask := drawMask_length s.mask len
  have hil : passwords[index].length = len := hdb.lengths _ (List.getElem_mem hi)
  have hbad := bad_of_not_good hbad
  rw [Nat.mul_comm 8 len] at hbad
  obtain ⟨circ, z, K, gc, gc', d, H, hev⟩ := wrap_held3 (n := len * 8) (t := t) rfl hsg.ord rfl hbad ht (by omega) (by omega) true
  obtain ⟨K', hK', -, hne⟩ := hev (u8VecToBoolVec passwords[index]) (u8VecToBoolVec (drawMask s.mask len))
    (u8VecToBoolVec (xorB (drawMask s.mask len) passwords[index])) (bits_of hil) (bits_of hmask)
    (by rw [unpack_xor _ _ (by omega), xorBits_comm])
  exact ⟨wrapHash (len * 8 % 65536 + 1), wrapRand (markAt true (len * 8)), K, K', _, _,
    (serverV3_conn C (withHash X (wrapEnv (len * 8 % 65536 + 1))) { s with g := s.g.withLabels (wrapRand (markAt true (len * 8))) }
      c passwords passwords[index] len index t hdb h0 hl32 hil hi hm (withLabels_valid hsg _) hs2 hco hco2 H hK').completes,
    (hne rfl).symm⟩

example := C33_server_fails_bad_length Witness.curve (Witness.crypto true) Witness.serverDraws Witness.clientDraws
    Witness.wide 16 1 1 (by meets) (by meets) (by meets) (by meets) (by meets) (by meets) (by meets) (by meets)
    (by meets) (by meets) (by meets)

/-- C33, client garbling, is false for the same lengths. -/
theorem C33_client_fails_bad_length (C : Curve) (X : Crypto) (g : GarblerDraws) (o : OTRecv) (passwords : List Bytes)
    (mask : Bytes) (len index number t : Nat) (hdb : ∀ p ∈ passwords, p.length = len) (h0 : 0 < len) (hl32 : len < 2 ^ 32)
    (hbad : ¬ GoodDomain (8 * len % 65536 + 1)) (hmask : mask.length = len) (hi : index < passwords.length) (hg : g.Valid)
    (ho : o.Valid) (ht : t < 65535) :
    ∃ (sha : Bytes → WireBytes) (rnd : GarbleRand) (k k' : WireBytes),
      Completes (evaluatorServerV3 C (withHash X ⟨false, sha⟩) o passwords mask)
        (garblerClientV3 C (withHash X ⟨false, sha⟩) (g.withLabels rnd) passwords[index]
          (List.zipWith (· ^^^ ·) mask passwords[index]) index number t) k k' ∧ k ≠ k' := by
  have hil : passwords[index].length = len := hdb _ (List.getElem_mem hi)
  have hbad := bad_of_not_good hbad
  rw [Nat.mul_comm 8 len] at hbad
  obtain ⟨circ, z, K, gc, gc', d, H, hev⟩ := wrap_held3 (n := len * 8) (t := t) rfl hg.ord rfl hbad ht (by omega) (by omega) true
  obtain ⟨K', hK', -, hne⟩ := hev (u8VecToBoolVec (xorB mask passwords[index])) (u8VecToBoolVec mask)
    (u8VecToBoolVec passwords[index]) (bits_of (by rw [xorB_length (by omega), hil])) (bits_of hmask) (unmask_bits (by omega))
  exact ⟨wrapHash (len * 8 % 65536 + 1), wrapRand (markAt true (len * 8)), K', K,
    (clientV3_conn C (withHash X (wrapEnv (len * 8 % 65536 + 1))) (g.withLabels (wrapRand (markAt true (len * 8))))
      o passwords passwords[index] mask len index number t hdb h0 hl32 hil hmask hi (withLabels_valid hg _) ho H hK').completes,
    hne rfl⟩

example := C33_client_fails_bad_length Witness.curve (Witness.crypto true) Witness.g Witness.recv Witness.wide
    (List.replicate 16 9) 16 1 4 1 (by meets) (by meets) (by meets) (by meets) (by meets) (by meets) (by meets) (by meets)
    (by meets)

/-! ### C34 -/

/-- C34, first implementation, server garbling, is false for the same lengths. -/
theorem C34_v1_server_fails_bad_length (C : Curve) (X : Crypto) (s : ServerDraws1) (c : ClientDraws1) (passwords : List Bytes)
    (len index t : Nat) (hdb : Database passwords len) (h0 : 0 < len) (hl24 : len < 2 ^ 24)
    (hbad : ¬ GoodDomain (8 * len % 65536 + 1)) (hi : index < passwords.length) (hm : s.many.Valid false passwords.length)
    (hsg : s.g.Valid) (hco : c.ot.Valid) (ht : t < 65535) :
    ∃ (sha : Bytes → WireBytes) (rnd : GarbleRand) (k k' : WireBytes),
      Completes (garblerServerV1 C (withHash X ⟨false, sha⟩) { s with g := s.g.withLabels rnd } passwords t)
        (evaluatorClientV1 C (withHash X ⟨false, sha⟩) c passwords[index] passwords.length index) k k' ∧ k ≠ k' := by
  have hil : passwords[index].length = len := hdb.lengths _ (List.getElem_mem hi)
  have hbad := bad_of_not_good hbad
  rw [Nat.mul_comm 8 len] at hbad
  obtain ⟨circ, z, K, gc, gc', d, H, hev⟩ := wrap_held2 (n := len * 8) (t := t) rfl hsg.ord rfl hbad ht (by omega) (by omega) true
  obtain ⟨K', hK', -, hne⟩ := hev (u8VecToBoolVec passwords[index]) (bits_of hil)
  exact ⟨wrapHash (len * 8 % 65536 + 1), wrapRand (markAt true (len * 8)), K, K',
    (serverV1_conn C (withHash X (wrapEnv (len * 8 % 65536 + 1))) { s with g := s.g.withLabels (wrapRand (markAt true (len * 8))) }
      c passwords passwords[index] len index t hdb h0 hl24 hil hi hm (withLabels_valid hsg _) hco H hK').completes,
    (hne rfl).symm⟩

example := C34_v1_server_fails_bad_length Witness.curve (Witness.crypto true) Witness.serverDraws1 Witness.clientDraws1
    Witness.wide 16 1 1 (by meets) (by meets) (by meets) (by meets) (by meets) (by meets) (by meets) (by meets)
    (by meets)

/-- C34, first implementation, client garbling, is false for the same lengths. -/
theorem C34_v1_client_fails_bad_length (C : Curve) (X : Crypto) (g : ClientGarbler1) (o : OTRecv) (passwords : List Bytes)
    (len index t : Nat) (hdb : ∀ p ∈ passwords, p.length = len) (h0 : 0 < len) (hl24 : len < 2 ^ 24)
    (hbad : ¬ GoodDomain (8 * len % 65536 + 1)) (hcount' : passwords.length < 2 ^ 32)
    (hi : index < passwords.length) (hg : g.g.Valid) (ho : o.Valid) (ht : t < 65535) :
    ∃ (sha : Bytes → WireBytes) (rnd : GarbleRand) (k k' : WireBytes),
      Completes (evaluatorServerV1 C (withHash X ⟨false, sha⟩) o passwords)
        (garblerClientV1 C (withHash X ⟨false, sha⟩) { g with g := g.g.withLabels rnd } passwords[index] index passwords.length t)
        k k' ∧ k ≠ k' := by
  have hil : passwords[index].length = len := hdb _ (List.getElem_mem hi)
  have hbad := bad_of_not_good hbad
  rw [Nat.mul_comm 8 len] at hbad
  obtain ⟨circ, z, K, gc, gc', d, H, hev⟩ := wrap_held2 (n := len * 8) (t := t) rfl hg.ord rfl hbad ht (by omega) (by omega) true
  obtain ⟨K', hK', -, hne⟩ := hev (u8VecToBoolVec passwords[index]) (bits_of hil)
  exact ⟨wrapHash (len * 8 % 65536 + 1), wrapRand (markAt true (len * 8)), K', K,
    (clientV1_conn C (withHash X (wrapEnv (len * 8 % 65536 + 1))) { g with g := g.g.withLabels (wrapRand (markAt true (len * 8))) }
      o passwords passwords[index] len index t hdb h0 hl24 (fun h => Bool.noConfusion h) hcount' hil hi (withLabels_valid hg _) ho H hK').completes,
    hne rfl⟩

example := C34_v1_client_fails_bad_length Witness.curve (Witness.crypto true) Witness.clientGarbler1 Witness.recv
    Witness.wide 16 1 1 (by meets) (by meets) (by meets) (by meets) (by meets) (by meets) (by meets) (by meets)
    (by meets)

/-- C34, second implementation, server garbling, is false for the same lengths. -/
theorem C34_v2_server_fails_bad_length (C : Curve) (X : Crypto) (s : ServerDraws) (c : ClientDraws) (passwords : List Bytes)
    (len index t : Nat) (hdb : Database passwords len) (h0 : 0 < len) (hl32 : len < 2 ^ 32)
    (hbad : ¬ GoodDomain (8 * len % 65536 + 1)) (hi : index < passwords.length) (hm : s.many.Valid false passwords.length)
    (hsg : s.g.Valid) (hs2 : s.ot2.Valid) (hco : c.ot.Valid) (hco2 : c.ot2.Valid) (ht : t < 65535) :
    ∃ (sha : Bytes → WireBytes) (rnd : GarbleRand) (k k' : WireBytes),
      Completes (garblerServerV2 C (withHash X ⟨false, sha⟩) { s with g := s.g.withLabels rnd } passwords t)
        (evaluatorClientV2 C (withHash X ⟨false, sha⟩) c passwords[index] passwords.length index) k k' ∧ k ≠ k' := by
  obtain ⟨sha, rnd, k, k', mask, masked, h, hne⟩ := C33_server_fails_bad_length C X s c passwords len index t hdb h0 hl32 hbad hi hm
    hsg hs2 hco hco2 ht
  refine ⟨sha, rnd, k, k', Ends.completes ?_, hne⟩
  rw [garblerServerV2_eq, evaluatorClientV2_eq]
  exact .bind h.ends (.ret _ _)

example := C34_v2_server_fails_bad_length Witness.curve (Witness.crypto true) Witness.serverDraws Witness.clientDraws
    Witness.wide 16 1 1 (by meets) (by meets) (by meets) (by meets) (by meets) (by meets) (by meets) (by meets)
    (by meets) (by meets) (by meets)

/-- C34, second implementation, client garbling, is false for the same lengths. -/
theorem C34_v2_client_fails_bad_length (C : Curve) (X : Crypto) (g : ClientGarbler2) (s : ServerEvaluator2)
    (passwords : List Bytes) (len index t : Nat) (hdb : Database passwords len) (h0 : 0 < len) (hl32 : len < 2 ^ 32)
    (hbad : ¬ GoodDomain (8 * len % 65536 + 1)) (hi : index < passwords.length) (hm : s.many.Valid false passwords.length)
    (hg : g.g.Valid) (ho : s.ot.Valid) (ht : t < 65535) :
    ∃ (sha : Bytes → WireBytes) (rnd : GarbleRand) (k k' : WireBytes),
      Completes (evaluatorServerV2 C (withHash X ⟨false, sha⟩) s passwords)
        (garblerClientV2 C (withHash X ⟨false, sha⟩) { g with g := g.g.withLabels rnd } passwords[index] index passwords.length t)
        k k' ∧ k ≠ k' := by
  have hmask := drawMask_length s.mask len
  have hil : passwords[index].length = len := hdb.lengths _ (List.getElem_mem hi)
  have hbad := bad_of_not_good hbad
  rw [Nat.mul_comm 8 len] at hbad
  obtain ⟨circ, z, K, gc, gc', d, H, hev⟩ := wrap_held3 (n := len * 8) (t := t) rfl hg.ord rfl hbad ht (by omega) (by omega) true
  obtain ⟨K', hK', -, hne⟩ := hev (u8VecToBoolVec (xorB (drawMask s.mask len) passwords[index]))
    (u8VecToBoolVec (drawMask s.mask len)) (u8VecToBoolVec passwords[index])
    (bits_of (by rw [xorB_length (by omega), hil])) (bits_of hmask) (unmask_bits (by omega))
  exact ⟨wrapHash (len * 8 % 65536 + 1), wrapRand (markAt true (len * 8)), K', K,
    (clientV2_conn C (withHash X (wrapEnv (len * 8 % 65536 + 1))) { g with g := g.g.withLabels (wrapRand (markAt true (len * 8))) }
      s passwords passwords[index] len index t hdb h0 hl32 hil hi hm (withLabels_valid hg _) ho H hK').completes,
    hne rfl⟩

example := C34_v2_client_fails_bad_length Witness.curve (Witness.crypto true) Witness.clientGarbler2
    Witness.serverEvaluator2 Witness.wide 16 1 1 (by meets) (by meets) (by meets) (by meets) (by meets) (by meets)
    (by meets) (by meets) (by meets)

/-! ### Exactly the good lengths -/

def someMany (n : Nat) : ManySend :=
  ⟨1, List.range (workers 1 n), fun _ => (Vector.replicate 32 0, Vector.replicate 32 0), fun _ => 0⟩

theorem someMany_valid (dbg : Bool) (n : Nat) (hn : 0 < n) : (someMany n).Valid dbg n where
  cores := Nat.one_pos
  order := List.Perm.refl _
  split := by
    right
    unfold CleanSplit rowsPerWorker
    rw [show (someMany n).cores = 1 from rfl, Nat.min_eq_right hn]
    simp

theorem someDatabase (len : Nat) : Database [List.replicate len (0 : Byte)] len :=
  ⟨⟨0, rfl⟩, by simp, by simp⟩

theorem self_distance (q : Bytes) : bitDistance q q = 0 := by simp [bitDistance]

theorem low_mod {d D t : Nat} (h : d ≤ t) : d % D ≤ t := Nat.le_trans (Nat.mod_le _ _) h

noncomputable def zeroDraws : GarblerDraws := someDraws ⟨fun _ => Vector.replicate 32 0, fun _ => Vector.replicate 32 0⟩

theorem zeroDraws_valid : zeroDraws.Valid := someDraws_valid _

noncomputable def zeroCrypto : Crypto := someCrypto (toyEnv false)

noncomputable def zeroManyDraws : ManyDraws := ⟨fun _ => 0, someMany 1, zeroDraws, someRecv⟩
noncomputable def zeroSingleDraws : SingleDraws := ⟨fun _ => 0, someRecv, zeroDraws⟩
noncomputable def zeroServer : ServerDraws := ⟨zeroDraws, fun _ => 0, someMany 1, someSend⟩
noncomputable def zeroClient : ClientDraws := ⟨someRecv, fun _ => 0, someRecv⟩
noncomputable def zeroServer1 : ServerDraws1 := ⟨zeroDraws, someMany 1⟩
noncomputable def zeroClient1 : ClientDraws1 := ⟨someRecv, fun _ => 0⟩
noncomputable def zeroGarbler1 : ClientGarbler1 := ⟨zeroDraws, fun _ _ => Vector.replicate 32 0⟩
noncomputable def zeroGarbler2 : ClientGarbler2 := ⟨zeroDraws, fun _ => 0⟩
noncomputable def zeroEvaluator2 : ServerEvaluator2 := ⟨fun _ => 0, someRecv, someMany 1⟩

/-- C32: close passwords always give the same key for exactly the lengths for which labels modulo the
truncated number of bits plus one are added correctly. -/
theorem C32_exact (C : Curve) (len ts tc : Nat) (h0 : 0 < len) (hl32 : len < 2 ^ 32) (hts : ts < 65535) (htc : tc < 65535) :
    ManySameKeyOK C len ts tc ↔ GoodDomain (8 * len % 65536 + 1) := by
  constructor
  · intro h
    refine Decidable.by_contra fun hc => ?_
    obtain ⟨sha, rnd1, rnd2, k, k', hk, hne⟩ := C32_fails_bad_length C zeroCrypto
      zeroManyDraws
      zeroSingleDraws _ len 0 ts tc
      (someDatabase len) h0 hl32 hc Nat.one_pos (someMany_valid _ _ Nat.one_pos) zeroDraws_valid someRecv_valid
      zeroDraws_valid someRecv_valid hts htc
    obtain ⟨j, hj⟩ := h (withHash zeroCrypto ⟨false, sha⟩) { zeroManyDraws with g := zeroManyDraws.g.withLabels rnd1 } { zeroSingleDraws with g := zeroSingleDraws.g.withLabels rnd2 }
      [List.replicate len 0] (List.replicate len 0) 0 (someDatabase len) Nat.one_pos (by simp) (someMany_valid _ _ Nat.one_pos)
      (withLabels_valid zeroDraws_valid rnd1) someRecv_valid (withLabels_valid zeroDraws_valid rnd2) someRecv_valid
      (by rw [List.getElem_cons_zero, self_distance]; omega) (by rw [List.getElem_cons_zero, self_distance]; omega)
    obtain ⟨rfl, rfl⟩ := hk.unique hj
    exact hne rfl
  · intro hD X s c passwords password index hdb hi hpw hm hsg hso hcg hco h1 h2
    have hmask := drawMask_length s.mask len
    have hil : passwords[index].length = len := hdb.lengths _ (List.getElem_mem hi)
    have hxl : (xorB (xorB (drawMask s.mask len) passwords[index]) password).length = len := by
      rw [xorB_length (by rw [xorB_length (by omega)]; omega), hpw]
    have hd : bitDistance (drawMask s.mask len) (xorB (xorB (drawMask s.mask len) passwords[index]) password) =
        bitDistance passwords[index] password := by
      rw [distance_masked (by omega) (by omega)]; exact bitDistance_comm _ _ (by omega)
    obtain ⟨a, e1⟩ := half_same C X s.g c.ot hsg hco _ _ ts (hxl.trans hmask.symm) (by omega) (by omega) (by rw [hmask]; exact hD)
      hts (by rw [hd]; exact h1)
    obtain ⟨b, e2⟩ := half_same C X c.g s.ot hcg hso _ _ tc (hmask.trans hxl.symm) (by omega) (by omega) (by rw [hxl]; exact hD)
      htc (by rw [← bitDistance_comm _ _ (hxl.trans hmask.symm), hd]; exact h2)
    exact ⟨combine a b, (many_conn C X s c passwords password password len index ts tc hdb h0 hl32 hi hm
      (fun m hl => xorBytesInplace_ok _ (by omega)) e1 e2.swap).completes⟩

example := C32_exact Witness.curve 2 1 1 (by meets) (by meets) (by meets) (by meets)

/-- C33, server garbling: the lengths for which close passwords give the same half key. -/
theorem C33_server_exact (C : Curve) (len t : Nat) (h0 : 0 < len) (hl32 : len < 2 ^ 32) (ht : t < 65535) :
    Server3OK C len t ↔ GoodDomain (8 * len % 65536 + 1) := by
  constructor
  · intro h
    refine Decidable.by_contra fun hc => ?_
    obtain ⟨sha, rnd, k, k', mask, masked, hk, hne⟩ := C33_server_fails_bad_length C zeroCrypto
      zeroServer zeroClient
      [List.replicate len 0] len 0 t (someDatabase len) h0 hl32 hc Nat.one_pos (someMany_valid _ _ Nat.one_pos) zeroDraws_valid someSend_valid someRecv_valid someRecv_valid ht
    obtain ⟨j, mask', masked', hj⟩ := h (withHash zeroCrypto ⟨false, sha⟩) { zeroServer with g := zeroServer.g.withLabels rnd } zeroClient
      [List.replicate len 0] (List.replicate len 0) 0 (someDatabase len) Nat.one_pos (by simp) (someMany_valid _ _ Nat.one_pos)
      (withLabels_valid zeroDraws_valid rnd) someSend_valid someRecv_valid someRecv_valid
      (by rw [List.getElem_cons_zero, self_distance]; omega)
    obtain ⟨h1, h2⟩ := hk.unique hj
    exact hne ((congrArg Prod.fst h1).trans (congrArg Prod.fst h2).symm)
  · intro hD X s c passwords password index hdb hi hpw hm hsg hs2 hco hco2 hd
    obtain ⟨k, k', he, h, -⟩ := serverV3_mod C X s c passwords password len index t hdb h0 hl32 hD hpw hi hm hsg hs2 hco hco2 ht
    have := h (low_mod hd)
    subst this
    exact ⟨k, _, _, he.completes⟩

example := C33_server_exact Witness.curve 2 1 (by meets) (by meets) (by meets)

/-- C34, second implementation, server garbling: the same lengths. -/
theorem C34_v2_server_exact (C : Curve) (len t : Nat) (h0 : 0 < len) (hl32 : len < 2 ^ 32) (ht : t < 65535) :
    Server2OK C len t ↔ GoodDomain (8 * len % 65536 + 1) := by
  constructor
  · intro h
    refine Decidable.by_contra fun hc => ?_
    obtain ⟨sha, rnd, k, k', hk, hne⟩ := C34_v2_server_fails_bad_length C zeroCrypto
      zeroServer zeroClient
      [List.replicate len 0] len 0 t (someDatabase len) h0 hl32 hc Nat.one_pos (someMany_valid _ _ Nat.one_pos) zeroDraws_valid someSend_valid someRecv_valid someRecv_valid ht
    obtain ⟨j, hj⟩ := h (withHash zeroCrypto ⟨false, sha⟩) { zeroServer with g := zeroServer.g.withLabels rnd } zeroClient
      [List.replicate len 0] (List.replicate len 0) 0 (someDatabase len) Nat.one_pos (by simp) (someMany_valid _ _ Nat.one_pos)
      (withLabels_valid zeroDraws_valid rnd) someSend_valid someRecv_valid someRecv_valid
      (by rw [List.getElem_cons_zero, self_distance]; omega)
    obtain ⟨rfl, rfl⟩ := hk.unique hj
    exact hne rfl
  · intro hD X s c passwords password index hdb hi hpw hm hsg hs2 hco hco2 hd
    obtain ⟨k, k', he, h, -⟩ := serverV2_mod C X s c passwords password len index t hdb h0 hl32 hD hpw hi hm hsg hs2 hco hco2 ht
    have := h (low_mod hd)
    subst this
    exact ⟨k, he.completes⟩

example := C34_v2_server_exact Witness.curve 2 1 (by meets) (by meets) (by meets)

/-- C34, first implementation, server garbling: the same lengths. -/
theorem C34_v1_server_exact (C : Curve) (len t : Nat) (h0 : 0 < len) (hl24 : len < 2 ^ 24) (ht : t < 65535) :
    Server1OK C len t ↔ GoodDomain (8 * len % 65536 + 1) := by
  constructor
  · intro h
    refine Decidable.by_contra fun hc => ?_
    obtain ⟨sha, rnd, k, k', hk, hne⟩ := C34_v1_server_fails_bad_length C zeroCrypto
      zeroServer1 zeroClient1
      [List.replicate len 0] len 0 t (someDatabase len) h0 hl24 hc Nat.one_pos (someMany_valid _ _ Nat.one_pos) zeroDraws_valid someRecv_valid ht
    obtain ⟨j, hj⟩ := h (withHash zeroCrypto ⟨false, sha⟩) { zeroServer1 with g := zeroServer1.g.withLabels rnd } zeroClient1
      [List.replicate len 0] (List.replicate len 0) 0 (someDatabase len) Nat.one_pos (by simp) (someMany_valid _ _ Nat.one_pos)
      (withLabels_valid zeroDraws_valid rnd) someRecv_valid
      (by rw [List.getElem_cons_zero, self_distance]; omega)
    obtain ⟨rfl, rfl⟩ := hk.unique hj
    exact hne rfl
  · intro hD X s c passwords password index hdb hi hpw hm hsg hco hd
    obtain ⟨k, k', he, h, -⟩ := serverV1_mod C X s c passwords password len index t hdb h0 hl24 hD hpw hi hm hsg hco ht
    have := h (low_mod hd)
    subst this
    exact ⟨k, he.completes⟩

example := C34_v1_server_exact Witness.curve 2 1 (by meets) (by meets) (by meets)

/-- C34, second implementation, client garbling: the same lengths. -/
theorem C34_v2_client_exact (C : Curve) (len t : Nat) (h0 : 0 < len) (hl32 : len < 2 ^ 32) (ht : t < 65535) :
    Client2OK C len t ↔ GoodDomain (8 * len % 65536 + 1) := by
  constructor
  · intro h
    refine Decidable.by_contra fun hc => ?_
    obtain ⟨sha, rnd, k, k', hk, hne⟩ := C34_v2_client_fails_bad_length C zeroCrypto
      zeroGarbler2 zeroEvaluator2
      [List.replicate len 0] len 0 t (someDatabase len) h0 hl32 hc Nat.one_pos (someMany_valid _ _ Nat.one_pos) zeroDraws_valid someRecv_valid ht
    obtain ⟨j, hj⟩ := h (withHash zeroCrypto ⟨false, sha⟩) { zeroGarbler2 with g := zeroGarbler2.g.withLabels rnd } zeroEvaluator2
      [List.replicate len 0] (List.replicate len 0) 0 (someDatabase len) Nat.one_pos (by simp) (someMany_valid _ _ Nat.one_pos)
      (withLabels_valid zeroDraws_valid rnd) someRecv_valid
      (by rw [List.getElem_cons_zero, self_distance]; omega)
    obtain ⟨rfl, rfl⟩ := hk.unique hj
    exact hne rfl
  · intro hD X s c passwords password index hdb hi hpw hm hsg hco hd
    obtain ⟨k, k', he, h, -⟩ := clientV2_mod C X s c passwords password len index t hdb h0 hl32 hD hpw hi hm hsg hco ht
    have := h (low_mod hd)
    subst this
    exact ⟨k, he.completes⟩

example := C34_v2_client_exact Witness.curve 2 1 (by meets) (by meets) (by meets)

/-- C33, client garbling: the same lengths. -/
theorem C33_client_exact (C : Curve) (len t : Nat) (h0 : 0 < len) (hl32 : len < 2 ^ 32) (ht : t < 65535) :
    Client3OK C len t ↔ GoodDomain (8 * len % 65536 + 1) := by
  constructor
  · intro h
    refine Decidable.by_contra fun hc => ?_
    obtain ⟨sha, rnd, k, k', hk, hne⟩ := C33_client_fails_bad_length C zeroCrypto
      zeroDraws someRecv [List.replicate len 0] (List.replicate len 0) len 0 0 t (someDatabase len).lengths h0 hl32 hc (by simp) Nat.one_pos
      zeroDraws_valid someRecv_valid ht
    obtain ⟨j, hj⟩ := h _ _ _ _ _ [List.replicate len 0] (List.replicate len 0) 0 (someDatabase len).lengths Nat.one_pos (by simp)
      (by simp : (List.replicate len (0 : Byte)).length = len)
      (withLabels_valid zeroDraws_valid rnd) someRecv_valid (by rw [List.getElem_cons_zero, self_distance]; omega)
    obtain ⟨rfl, rfl⟩ := hk.unique hj
    exact hne rfl
  · intro hD X g o mask number passwords password index hdb hi hpw hmask hg ho hd
    obtain ⟨k, k', he, h, -⟩ := clientV3_mod C X g o passwords password mask len index number t hdb h0 hl32 hD hpw hmask hi hg ho ht
    have := h (low_mod hd)
    subst this
    exact ⟨k, he.completes⟩

example := C33_client_exact Witness.curve 2 1 (by meets) (by meets) (by meets)

/-- C34, first implementation, client garbling: the same lengths. -/
theorem C34_v1_client_exact (C : Curve) (len t : Nat) (h0 : 0 < len) (hl24 : len < 2 ^ 24) (ht : t < 65535) :
    Client1OK C len t ↔ GoodDomain (8 * len % 65536 + 1) := by
  have hdb2 : ∀ p ∈ [List.replicate len (0 : Byte), List.replicate len 0], p.length = len := by simp
  constructor
  · intro h
    refine Decidable.by_contra fun hc => ?_
    obtain ⟨sha, rnd, k, k', hk, hne⟩ := C34_v1_client_fails_bad_length C zeroCrypto
      zeroGarbler1 someRecv [List.replicate len 0, List.replicate len 0] len 0 t hdb2 h0 hl24 hc (by simp) (by simp)
      zeroDraws_valid someRecv_valid ht
    obtain ⟨j, hj⟩ := h (withHash zeroCrypto ⟨false, sha⟩) { zeroGarbler1 with g := zeroGarbler1.g.withLabels rnd } someRecv
      [List.replicate len 0, List.replicate len 0] (List.replicate len 0) 0 hdb2 (by simp) (by simp) (by simp) (by simp)
      (withLabels_valid zeroDraws_valid rnd) someRecv_valid (by rw [List.getElem_cons_zero, self_distance]; omega)
    obtain ⟨rfl, rfl⟩ := hk.unique hj
    exact hne rfl
  · intro hD X g o passwords password index hdb hi hpw hc1 hc2 hg ho hd
    obtain ⟨k, k', he, h, -⟩ := clientV1_mod C X g o passwords password len index t hdb h0 hl24 hD hc1 hc2 hpw hi hg ho ht
    have := h (low_mod hd)
    subst this
    exact ⟨k, he.completes⟩

example := C34_v1_client_exact Witness.curve 2 1 (by meets) (by meets) (by meets)

/-! ### The hypotheses are met -/

/-- A database of one password of 16 bytes and honest draws. -/
example : Database [List.replicate 16 (0 : Byte)] 16 ∧ ¬ GoodDomain (8 * 16 % 65536 + 1) ∧
    zeroManyDraws.many.Valid false 1 ∧ zeroManyDraws.g.Valid ∧ zeroManyDraws.ot.Valid :=
  ⟨someDatabase 16, by rintro (h | h) <;> simp at h, someMany_valid _ _ (by decide), zeroDraws_valid, someRecv_valid⟩

/-- So with 16-byte passwords the fourth implementation does not always agree, and with 15-byte ones it does. -/
example (C : Curve) : ¬ ManySameKeyOK C 16 2 2 ∧ ManySameKeyOK C 15 2 2 :=
  ⟨fun h => absurd ((C32_exact C 16 2 2 (by decide) (by decide) (by decide) (by decide)).mp h)
    (by unfold GoodDomain; decide),
   (C32_exact C 15 2 2 (by decide) (by decide) (by decide) (by decide)).mpr (by unfold GoodDomain; decide)⟩

end FP.Props
