import Verif.Spec.AskedLegacy
import Verif.Proof.Asked
import Verif.Proof.CuriousLegacy
/-
What the evaluating parties of the second one-of-many implementation hold, for inputs with the same exclusive or.
-/
namespace FP
open Spec Props

/-- The messages when the client garbles, given what garbling and evaluating give. -/
theorem recorderServerV2_conn (C : Curve) (X : Crypto) (g : ClientGarbler2) (s : ServerEvaluator2) (passwords : List Bytes)
    (password : Bytes) (len index t : Nat) (hdb : Database passwords len) (h0 : 0 < len) (hl32 : len < 2 ^ 32)
    (hpw : password.length = len) (hi : index < passwords.length) (hm : s.many.Valid X.dbg passwords.length) (hg : g.g.Valid)
    (ho : s.ot.Valid) {circ : Circuit} {z : List (Wire × Wire)} {K K' : WireBytes}
    {gc gc' : GarbledCircuit} {d : DecodingKey} (H : Held3 X.toEnv g.g.rnd g.g.ord (len * 8) t circ z K gc gc' d)
    (hK' : evaluatedKey X.toEnv gc' (pick (z.take (len * 8)) (u8VecToBoolVec (xorB (drawMask s.mask len) passwords[index])) ++
      pick ((z.drop (len * 8)).take (len * 8)) (u8VecToBoolVec (drawMask s.mask len)) ++
      pick (z.drop (len * 8 * 2)) (u8VecToBoolVec password)) = .ok K') :
    Ends (recorderServerV2 C X s passwords) (garblerClientV2 C X g password index passwords.length t)
      ⟨gc', pick (z.take (len * 8)) (u8VecToBoolVec (xorB (drawMask s.mask len) passwords[index])),
        pick ((z.drop (len * 8)).take (len * 8)) (u8VecToBoolVec (drawMask s.mask len)),
        pick (z.drop (len * 8 * 2)) (u8VecToBoolVec password), K'⟩ K := by
  have hmask := drawMask_length s.mask len
  generalize hmm : drawMask s.mask len = mask at hmask hK' ⊢
  have hil : passwords[index].length = len := hdb.lengths _ (List.getElem_mem hi)
  have hxl : (xorB mask passwords[index]).length = len := by rw [xorB_length (by omega), hil]
  have ul : ∀ p : Bytes, p.length = len → (u8VecToBoolVec p).length = len * 8 := fun p h => by rw [unpack_length, h, Nat.mul_comm]
  refine Ends.swap ?_
  have hz := H.length
  have pl : ∀ (off : Nat) (p : Bytes), off + len * 8 ≤ z.length → p.length = len →
      (pick ((z.drop off).take (len * 8)) (u8VecToBoolVec p)).length = len * 8 := by
    intro off p ho hp
    rw [pick_length (by rw [ul p hp]; simp; omega)]; simp; omega
  obtain ⟨domain, d1, d2, hmany⟩ := manyRun_ends C X (base := g.many) (Database.map hdb hmask) (by simpa using hm)
    (index := index) (by simpa using hi) h0 hl32
  rw [List.length_map] at d1 d2
  rw [List.getElem_map] at hmany
  unfold garblerClientV2 recorderServerV2
  have h00 : passwords[0].length = len := hdb.lengths _ (List.getElem_mem (by omega))
  rw [idxR_ok (a := passwords[0]) (List.getElem?_eq_getElem (by omega)), liftM_ok, ret_bind]
  dsimp only
  rw [h00, hpw, hmm]
  rw [H.built, liftM_ok, ret_bind, H.garbled, liftM_ok, ret_bind, bitsUpTo_ok hpw, liftM_ok, ret_bind]
  dsimp only
  rw [labelsAt_ok (by rw [ul _ hpw]; omega), liftM_ok, ret_bind, ul _ hpw, sendP_bind, recvP_bind]
  refine .sendRecv ?_
  rw [H.sent, liftM_ok, ret_bind, sendP_bind, recvP_bind]
  refine .sendRecv ?_
  rw [deserialize_ok wires_rt ⟨by rw [pl _ _ (by omega) hpw]; omega, fun w hw => binary_fits (pick_mem H.binary _ w hw)⟩, liftM_ok,
    ret_bind, labelPairs_ok (by omega), liftM_ok, ret_bind, bitsUpTo_ok hmask, liftM_ok, ret_bind,
    maskPasswords_ok X.dbg hmask hdb.lengths, liftM_ok, ret_bind]
  refine .bind (otChosen C X hg.ot ho h0 (by omega) (by simp; omega) (ul _ hmask)) ?_
  rw [d1, liftM_ok, ret_bind, d2, liftM_ok, ret_bind]
  refine .bind hmany.swap ?_
  rw [idxR_ok (a := z[0]) (List.getElem?_eq_getElem (by omega)), liftM_ok, ret_bind, encodeRows_ok X.dbg (by omega) (by omega),
    liftM_ok, ret_bind, sendP_bind, recvP_bind]
  refine .sendRecv ?_
  have hp3 := pl (len * 8) _ (by omega) hmask
  rw [idxR_ok (a := (pick ((z.drop (len * 8)).take (len * 8)) (u8VecToBoolVec mask))[0].bytes)
    (by rw [List.getElem?_map, List.getElem?_eq_getElem (by omega)]; rfl), liftM_ok, ret_bind]
  have hw32 : ∀ w : Wire, w.bytes.length = 32 := by intro w; simp [Wire.bytes]
  rw [hw32, payloadToEncoding_ok X.dbg (pick_mem H.binary _) hp3, liftM_ok, ret_bind,
    bytesToEncoding_ok X.dbg (pick_mem H.binary _) (pl 0 _ (by omega) hxl), liftM_ok, ret_bind, H.key]
  rw [List.drop_zero, List.take_of_length_le (l := z.drop (len * 8 * 2)) (by simp; omega), hK', liftM_ok, liftM_ok, ret_bind]
  exact .ret _ _

/-- The second half of a login for a client that differs from its entry in the same places. -/
theorem recorderServerV2_other (C : Curve) (X : Crypto) (g : ClientGarbler2) (e : ServerEvaluator2) (passwords : List Bytes)
    (p q : Bytes) (len i j t : Nat) (hdb : Database passwords len) (hlen : GoodLength len)
    (hp : p.length = len) (hq : q.length = len) (hi : i < passwords.length)
    (hj : j < passwords.length) (hg : g.g.Valid) (hm : e.many.Valid X.dbg passwords.length) (ho : e.ot.Valid) (ht : t < 65535)
    (hx : xorBits (bitsOf passwords[i]) (bitsOf p) = xorBits (bitsOf passwords[j]) (bitsOf q)) :
    ∃ v k, Ends (recorderServerV2 C X e passwords) (garblerClientV2 C X g p i passwords.length t) v k ∧
      Ends (recorderServerV2 C X e passwords)
        (garblerClientV2 C X { g with g := { g.g with rnd := (otherDraws (thrCircuit3 (len * 8) (len * 8 + 1) (t + 1))
            (bitsNat (bitsOf (xorB (drawMask e.mask len) passwords[i]) ++ bitsOf (drawMask e.mask len) ++ bitsOf p))
            (bitsNat (bitsOf (xorB (drawMask e.mask len) passwords[j]) ++ bitsOf (drawMask e.mask len) ++ bitsOf q)) g.g.rnd) } }
          q j passwords.length t) v k := by
  obtain ⟨h0, hl32⟩ := good_fits hlen
  obtain ⟨-, hn', hD⟩ := goodLength hlen
  rw [Nat.mul_comm 8 len] at hn' hD
  have hmask := drawMask_length e.mask len
  have hil : passwords[i].length = len := hdb.lengths _ (List.getElem_mem hi)
  have hjl : passwords[j].length = len := hdb.lengths _ (List.getElem_mem hj)
  have hxi : (xorB (drawMask e.mask len) passwords[i]).length = len := by rw [xorB_length (by omega), hil]
  have hxj : (xorB (drawMask e.mask len) passwords[j]).length = len := by rw [xorB_length (by omega), hjl]
  have ul : ∀ p : Bytes, p.length = len → (u8VecToBoolVec p).length = len * 8 := fun p h => by rw [unpack_length, h, Nat.mul_comm]
  have h3 : xorBits (xorBits (u8VecToBoolVec (xorB (drawMask e.mask len) passwords[j])) (u8VecToBoolVec (drawMask e.mask len))) (u8VecToBoolVec q) =
      xorBits (xorBits (u8VecToBoolVec (xorB (drawMask e.mask len) passwords[i])) (u8VecToBoolVec (drawMask e.mask len))) (u8VecToBoolVec p) := by
    rw [(sum_masks (by omega) (by omega)).2, (sum_masks (by omega) (by omega)).2]
    exact hx.symm
  obtain ⟨z, z', K, K', gc, gc', d, H, H', e1, e2, e3, hK⟩ := three_other X.toEnv g.g.rnd g.g.ord hg.ord (n := len * 8) (t := t)
    (by omega) hn' hD ht (ul _ hxi) (ul (drawMask e.mask len) hmask) (ul p hp) (ul _ hxj) (ul (drawMask e.mask len) hmask) (ul q hq) h3
  simp only [bitsOf_unpack] at H'
  generalize otherDraws (thrCircuit3 (len * 8) (len * 8 + 1) (t + 1)) _ _ g.g.rnd = rnd' at H' ⊢
  have r1 := recorderServerV2_conn C X g e passwords p len i t hdb h0 hl32 hp hi hm hg ho H hK
  have r2 := recorderServerV2_conn C X { g with g := { g.g with rnd := rnd' } } e passwords q len j t hdb h0 hl32 hq hj hm
    ⟨hg.ord, hg.ot⟩ ho H' (K' := K') (by rw [e1, e2, e3]; exact hK)
  rw [e1, e2, e3] at r2
  exact ⟨_, K, r1, r2⟩

/-- What the server has recorded says which bits of the password differ from the entry. -/
theorem recorderServerV2_reads (C : Curve) (X : Crypto) {g : ClientGarbler2} {e : ServerEvaluator2} {passwords : List Bytes}
    {p : Bytes} {len i t : Nat} (hdb : Database passwords len) (hlen : GoodLength len)
    (hp : p.length = len) (hi : i < passwords.length) (hg : g.g.Valid) (hm : e.many.Valid X.dbg passwords.length) (ho : e.ot.Valid)
    (ht : t < 65535) :
    ∃ v k, Ends (recorderServerV2 C X e passwords) (garblerClientV2 C X g p i passwords.length t) v k ∧
      sumBits3 (len * 8) v.gc v.first v.second v.third = xorBits (bitsOf passwords[i]) (bitsOf p) := by
  obtain ⟨h0, hl32⟩ := good_fits hlen
  obtain ⟨-, hn', hD⟩ := goodLength hlen
  rw [Nat.mul_comm 8 len] at hn' hD
  have hmask := drawMask_length e.mask len
  have hil : passwords[i].length = len := hdb.lengths _ (List.getElem_mem hi)
  have hxi : (xorB (drawMask e.mask len) passwords[i]).length = len := by rw [xorB_length (by omega), hil]
  have ul : ∀ p : Bytes, p.length = len → (u8VecToBoolVec p).length = len * 8 := fun p h => by rw [unpack_length, h, Nat.mul_comm]
  obtain ⟨z, K, gc, gc', d, H, hev⟩ := sum3 X.toEnv g.g.rnd g.g.ord hg.ord (n := len * 8) (t := t) (by omega) hn' hD ht
  obtain ⟨⟨K', hK'⟩, hS⟩ := hev _ _ _ (ul _ hxi) (ul (drawMask e.mask len) hmask) (ul p hp)
  rw [(sum_masks (by omega) (by omega)).2] at hS
  exact ⟨_, K, recorderServerV2_conn C X g e passwords p len i t hdb h0 hl32 hp hi hm hg ho H hK', hS⟩

theorem recorderServerV2_forget (C : Curve) (X : Crypto) (e : ServerEvaluator2) (passwords : List Bytes) :
    (do let r ← recorderServerV2 C X e passwords
        return r.key) = evaluatorServerV2 C X e passwords := by
  unfold recorderServerV2 evaluatorServerV2
  simp [bindP_assoc, bindP_pure]

/-- The first half of a login with the second implementation. -/
theorem firstV2_ends (C : Curve) (X : Crypto) (s : ServerDraws) (c : ClientDraws) (passwords : List Bytes)
    (len t : Nat) (hdb : Database passwords len) (hlen : GoodLength len) (hm : s.many.Valid X.dbg passwords.length)
    (hsg : s.g.Valid) (hs2 : s.ot2.Valid) (hco : c.ot.Valid) (hco2 : c.ot2.Valid) (ht : t < 65535) :
    ∃ k, ∀ (password : Bytes) (index : Nat) (_ : password.length = len) (_ : index < passwords.length),
      ∃ k', Ends (garblerServerV2 C X s passwords t) (evaluatorClientV2 C X c password passwords.length index) k k' := by
  obtain ⟨k, h⟩ := firstV3_ends C X s c passwords len t hdb hlen hm hsg hs2 hco hco2 ht
  refine ⟨k, fun password index hp hi => ?_⟩
  obtain ⟨k', h1⟩ := h password index hp hi
  rw [garblerServerV2_eq, evaluatorClientV2_eq]
  exact ⟨k', .bind h1 (.ret _ _)⟩

/-- What a client of the second implementation has recorded is what one of the third has. -/
theorem recorderClientV3_forget_v2 (C : Curve) (X : Crypto) (c : ClientDraws) (p : Bytes) (number index : Nat) :
    (do let r ← recorderClientV3 C X c p number index
        return r.2.key) = evaluatorClientV2 C X c p number index := by
  rw [evaluatorClientV2_eq, ← recorderClientV3_forget]
  simp [bindP_assoc]
  rfl

end FP
