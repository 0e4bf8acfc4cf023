import Verif.Spec.AskedFirst
import Verif.Proof.Asked
import Verif.Proof.CuriousLegacy
/-
What the evaluating client of the first one-of-many implementation holds.
-/
namespace FP
open Spec Props

/-- The messages when the server garbles, given what garbling and evaluating give. -/
theorem recorderClientV1_conn (C : Curve) (X : Crypto) (s : ServerDraws1) (c : ClientDraws1) (passwords : List Bytes)
    (password : Bytes) (len index t : Nat) (hdb : Database passwords len) (h0 : 0 < len) (hl24 : len < 2 ^ 24)
    (hpw : password.length = len) (hi : index < passwords.length) (hm : s.many.Valid X.dbg passwords.length)
    (hsg : s.g.Valid) (hco : c.ot.Valid) {circ : Circuit} {z : List (Wire × Wire)} {K K' : WireBytes}
    {gc gc' : GarbledCircuit} {d : DecodingKey} (H : Held2 X.toEnv s.g.rnd s.g.ord (len * 8) t circ z K gc gc' d)
    (hK' : evaluatedKey X.toEnv gc' (pick ((z.drop 0).take (len * 8)) (u8VecToBoolVec password) ++
      pick ((z.drop (len * 8)).take (len * 8)) (u8VecToBoolVec passwords[index])) = .ok K') :
    Ends (garblerServerV1 C X s passwords t) (recorderClientV1 C X c password passwords.length index) K
      ⟨gc', pick ((z.drop (len * 8)).take (len * 8)) (u8VecToBoolVec passwords[index]),
        pick ((z.drop 0).take (len * 8)) (u8VecToBoolVec password), K'⟩ := by
  have hil : passwords[index].length = len := hdb.lengths _ (List.getElem_mem hi)
  have ul : ∀ p : Bytes, p.length = len → (u8VecToBoolVec p).length = len * 8 := fun p h => by rw [unpack_length, h, Nat.mul_comm]
  have hz := H.length
  have pl : ∀ (off : Nat) (p : Bytes), off + len * 8 ≤ z.length → p.length = len →
      (pick ((z.drop off).take (len * 8)) (u8VecToBoolVec p)).length = len * 8 := by
    intro off p ho hp
    rw [pick_length (by rw [ul p hp]; simp; omega)]; simp; omega
  have hdb' : Database (passwords.map fun p => (pick ((z.drop (len * 8)).take (len * 8)) (u8VecToBoolVec p)).flatMap Wire.bytes)
      (32 * (len * 8)) := database_map hdb fun p hp => by rw [flatMap_bytes_length, pl _ _ (by omega) hp]
  obtain ⟨domain, d1, d2, hmany⟩ := manyRun_ends C X (base := c.many) hdb' (by simpa using hm)
    (index := index) (by simpa using hi) (by omega) (by omega)
  rw [List.length_map] at d1 d2
  rw [List.getElem_map] at hmany
  unfold garblerServerV1 recorderClientV1
  have h00 : passwords[0].length = len := hdb.lengths _ (List.getElem_mem (by omega))
  rw [idxR_ok (a := passwords[0]) (List.getElem?_eq_getElem (by omega)), liftM_ok, ret_bind]
  dsimp only
  rw [h00, hpw, H.built, liftM_ok, ret_bind, H.garbled, liftM_ok, ret_bind]
  dsimp only
  rw [sendP_bind, recvP_bind]
  refine .sendRecv ?_
  rw [labelPairs_ok (by omega), liftM_ok, ret_bind, H.sent, liftM_ok, ret_bind, bitsUpTo_ok hpw, liftM_ok, ret_bind]
  refine .bind (otChosen C X hsg.ot hco h0 (by omega) (by simp; omega) (ul _ hpw)) ?_
  rw [d1, liftM_ok, ret_bind, encodeAll_ok rfl hdb.lengths (by omega), liftM_ok, ret_bind, d2, liftM_ok, ret_bind]
  refine .bind hmany ?_
  rw [labelsOf_ok X.dbg (pick_mem H.binary _), liftM_ok, ret_bind, wiresFromBytes_ok X.dbg (pick_mem H.binary _), liftM_ok,
    ret_bind, H.swap _ _ (pl _ _ (by omega) hil) (pl _ _ (by omega) hpw) (pick_mem H.binary _) (pick_mem H.binary _), hK', H.key, liftM_ok, liftM_ok, ret_bind]
  exact .ret _ _

/-- What the client has recorded says its entry, and depends on nothing of the database but that entry. -/
theorem recorderClientV1_entry (C : Curve) (X : Crypto) (s : ServerDraws1) (c : ClientDraws1) (password : Bytes)
    (len index t : Nat) (hlen : GoodLength len) (hpw : password.length = len) (hsg : s.g.Valid) (hco : c.ot.Valid)
    (ht : t < 65535) (entry : Bytes) (he : entry.length = len) :
    ∃ v k, sumBits2 (len * 8) v.gc v.ours v.theirs = xorBits (bitsOf password) (bitsOf entry) ∧
      ∀ (passwords : List Bytes) (_ : Database passwords len) (_ : index < passwords.length) (_ : passwords[index] = entry)
        (_ : s.many.Valid X.dbg passwords.length),
        Ends (garblerServerV1 C X s passwords t) (recorderClientV1 C X c password passwords.length index) k v := by
  obtain ⟨h0, -⟩ := good_fits hlen
  obtain ⟨-, hn', hD⟩ := goodLength hlen
  rw [Nat.mul_comm 8 len] at hn' hD
  have ul : ∀ p : Bytes, p.length = len → (u8VecToBoolVec p).length = len * 8 := fun p h => by rw [unpack_length, h, Nat.mul_comm]
  have hl24 : len < 2 ^ 24 := by unfold GoodLength at hlen; omega
  obtain ⟨z, K, gc, gc', d, H, hev⟩ := sum2 X.toEnv s.g.rnd s.g.ord hsg.ord (n := len * 8) (t := t) (by omega) hn' hD ht
  obtain ⟨⟨K', hK'⟩, hS⟩ := hev _ _ (ul password hpw) (ul entry he)
  refine ⟨⟨gc', pick ((z.drop (len * 8)).take (len * 8)) (u8VecToBoolVec entry),
    pick ((z.drop 0).take (len * 8)) (u8VecToBoolVec password), K'⟩, K, by rw [hS, bitsOf_unpack, bitsOf_unpack], fun passwords hdb hi e hm => ?_⟩
  subst e
  exact recorderClientV1_conn C X s c passwords password len index t hdb h0 hl24 hpw hi hm hsg hco H hK'

theorem recorderClientV1_forget (C : Curve) (X : Crypto) (c : ClientDraws1) (p : Bytes) (number index : Nat) :
    (do let r ← recorderClientV1 C X c p number index
        return r.key) = evaluatorClientV1 C X c p number index := by
  unfold recorderClientV1 evaluatorClientV1
  simp [bindP_assoc, bindP_pure]

end FP
