import Verif.Proof.Legacy
import Verif.Props.ManyFpake
import Verif.Proof.Witness
/-
C34: the first and the second implementation of the one-of-many key exchange (src/legacy_fpake.rs).
-/
namespace FP.Props
open Spec

theorem database_map {passwords : List Bytes} {len len' : Nat} (h : Database passwords len) {f : Bytes → Bytes}
    (hf : ∀ p, p.length = len → (f p).length = len') : Database (passwords.map f) len' :=
  ⟨by simpa using h.power, by simpa using h.count, by
    intro p hp
    obtain ⟨q, hq, rfl⟩ := List.mem_map.mp hp
    exact hf q (h.lengths q hq)⟩

/-! ### First implementation -/

/-- The messages when the server garbles, given what garbling and evaluating give. -/
theorem serverV1_conn (C : Curve) (X : Crypto) (s : ServerDraws1) (c : ClientDraws1) (passwords : List Bytes)
    (password : Bytes) (len index t : Nat) (hdb : Database passwords len) (h0 : 0 < len) (hl24 : len < 2 ^ 24)
    (hpw : password.length = len) (hi : index < passwords.length) (hm : s.many.Valid X.dbg passwords.length)
    (hsg : s.g.Valid) (hco : c.ot.Valid) {circ : Circuit} {z : List (Wire × Wire)} {K K' : WireBytes}
    {gc gc' : GarbledCircuit} {d : DecodingKey} (H : Held2 X.toEnv s.g.rnd s.g.ord (len * 8) t circ z K gc gc' d)
    (hK' : evaluatedKey X.toEnv gc' (pick ((z.drop 0).take (len * 8)) (u8VecToBoolVec password) ++
      pick ((z.drop (len * 8)).take (len * 8)) (u8VecToBoolVec passwords[index])) = .ok K') :
    Ends (garblerServerV1 C X s passwords t) (evaluatorClientV1 C X c password passwords.length index) K K' := by
  have hil : passwords[index].length = len := hdb.lengths _ (List.getElem_mem hi)
  have ul : ∀ p : Bytes, p.length = len → (u8VecToBoolVec p).length = len * 8 := fun p h => by rw [unpack_length, h, Nat.mul_comm]
  have hz := H.length
  have pl : ∀ (off : Nat) (p : Bytes), off + len * 8 ≤ z.length → p.length = len →
      (pick ((z.drop off).take (len * 8)) (u8VecToBoolVec p)).length = len * 8 := by
    intro off p ho hp
    rw [pick_length (by rw [ul p hp]; simp; omega)]; simp; omega
  have hdb' : Database (passwords.map fun p => (pick ((z.drop (len * 8)).take (len * 8)) (u8VecToBoolVec p)).flatMap Wire.bytes)
      (32 * (len * 8)) := database_map hdb fun p hp => by rw [flatMap_bytes_length, pl _ _ (by omega) hp]
  obtain ⟨domain, d1, d2, hmany⟩ := manyRun_ends C X (base := c.many) hdb' (by simpa using hm)
    (index := index) (by simpa using hi) (by omega) (by omega)
  rw [List.length_map] at d1 d2
  rw [List.getElem_map] at hmany
  unfold garblerServerV1 evaluatorClientV1
  have h00 : passwords[0].length = len := hdb.lengths _ (List.getElem_mem (by omega))
  rw [idxR_ok (a := passwords[0]) (List.getElem?_eq_getElem (by omega)), liftM_ok, ret_bind]
  dsimp only
  rw [h00, hpw, H.built, liftM_ok, ret_bind, H.garbled, liftM_ok, ret_bind]
  dsimp only
  rw [sendP_bind, recvP_bind]
  refine .sendRecv ?_
  rw [labelPairs_ok (by omega), liftM_ok, ret_bind, H.sent, liftM_ok, ret_bind, bitsUpTo_ok hpw, liftM_ok, ret_bind]
  refine .bind (otChosen C X hsg.ot hco h0 (by omega) (by simp; omega) (ul _ hpw)) ?_
  rw [d1, liftM_ok, ret_bind, encodeAll_ok rfl hdb.lengths (by omega), liftM_ok, ret_bind, d2, liftM_ok, ret_bind]
  refine .bind hmany ?_
  rw [labelsOf_ok X.dbg (pick_mem H.binary _), liftM_ok, ret_bind, wiresFromBytes_ok X.dbg (pick_mem H.binary _), liftM_ok,
    ret_bind, H.swap _ _ (pl _ _ (by omega) hil) (pl _ _ (by omega) hpw) (pick_mem H.binary _) (pick_mem H.binary _), hK', H.key]
  exact .ret _ _

/-- The same in terms of the passwords, for every length for which label arithmetic is right. -/
theorem serverV1_mod (C : Curve) (X : Crypto) (s : ServerDraws1) (c : ClientDraws1) (passwords : List Bytes)
    (password : Bytes) (len index t : Nat) (hdb : Database passwords len) (h0 : 0 < len) (hl24 : len < 2 ^ 24)
    (hD : GoodDomain (8 * len % 65536 + 1))
    (hpw : password.length = len) (hi : index < passwords.length) (hm : s.many.Valid X.dbg passwords.length)
    (hsg : s.g.Valid) (hco : c.ot.Valid) (ht : t < 65535) :
    ∃ k k', Ends (garblerServerV1 C X s passwords t) (evaluatorClientV1 C X c password passwords.length index) k k' ∧
      (bitDistance passwords[index] password % (8 * len % 65536 + 1) ≤ t → k = k') ∧
      (t < bitDistance passwords[index] password % (8 * len % 65536 + 1) →
        NoOutputCollision X.toEnv s.g.rnd (buildCircuit X.dbg (8 * len) t) → k ≠ k') := by
  have hil : passwords[index].length = len := hdb.lengths _ (List.getElem_mem hi)
  rw [Nat.mul_comm 8 len] at hD ⊢
  have ul : ∀ p : Bytes, p.length = len → (u8VecToBoolVec p).length = len * 8 := fun p h => by rw [unpack_length, h, Nat.mul_comm]
  obtain ⟨z, K, gc, gc', d, H, hev⟩ := half2 X.toEnv s.g.rnd s.g.ord hsg.ord (n := len * 8) (t := t)
    (D := len * 8 % 65536 + 1) (by omega) (by omega)
    (buildCircuit_eq (addR_ok X.dbg (by unfold GoodDomain at hD; omega)) (addR_ok X.dbg (by omega))) hD ht
  obtain ⟨K', hK', h1, h2⟩ := hev _ _ (ul password hpw) (ul _ hil)
  rw [bitDistance_eq _ _ (by omega), bitDistance_comm _ _ (by omega)] at h1 h2
  exact ⟨K, K', serverV1_conn C X s c passwords password len index t hdb h0 hl24 hpw hi hm hsg hco H hK',
    fun h => (h1 h).symm, fun h hc => (h2 h hc).symm⟩

theorem serverV1_ends (C : Curve) (X : Crypto) (s : ServerDraws1) (c : ClientDraws1) (passwords : List Bytes)
    (password : Bytes) (len index t : Nat) (hdb : Database passwords len) (hlen : GoodLength len)
    (hpw : password.length = len) (hi : index < passwords.length) (hm : s.many.Valid X.dbg passwords.length)
    (hsg : s.g.Valid) (hco : c.ot.Valid) (ht : t < 65535) :
    ∃ k k', Ends (garblerServerV1 C X s passwords t) (evaluatorClientV1 C X c password passwords.length index) k k' ∧
      (bitDistance passwords[index] password ≤ t → k = k') ∧
      (t < bitDistance passwords[index] password →
        NoOutputCollision X.toEnv s.g.rnd (buildCircuit X.dbg (8 * len) t) → k ≠ k') := by
  obtain ⟨h0, -⟩ := good_fits hlen
  obtain ⟨-, g2, g3⟩ := good_mod hlen (q := password) (hdb.lengths _ (List.getElem_mem hi))
  obtain ⟨k, k', he, h⟩ := serverV1_mod C X s c passwords password len index t hdb h0 (by unfold GoodLength at hlen; omega) g2 hpw
    hi hm hsg hco ht
  rw [g3] at h
  exact ⟨k, k', he, h⟩

/-- The messages when the client garbles, given what garbling and evaluating give. -/
theorem clientV1_conn (C : Curve) (X : Crypto) (g : ClientGarbler1) (o : OTRecv) (passwords : List Bytes)
    (password : Bytes) (len index t : Nat) (hdb : ∀ p ∈ passwords, p.length = len) (h0 : 0 < len) (hl24 : len < 2 ^ 24)
    (hcount : X.dbg = true → 2 ≤ passwords.length) (hcount' : passwords.length < 2 ^ 32)
    (hpw : password.length = len) (hi : index < passwords.length) (hg : g.g.Valid) (ho : o.Valid)
    {circ : Circuit} {z : List (Wire × Wire)} {K K' : WireBytes}
    {gc gc' : GarbledCircuit} {d : DecodingKey} (H : Held2 X.toEnv g.g.rnd g.g.ord (len * 8) t circ z K gc gc' d)
    (hK' : evaluatedKey X.toEnv gc' (pick ((z.drop 0).take (len * 8)) (u8VecToBoolVec password) ++
      pick ((z.drop (len * 8)).take (len * 8)) (u8VecToBoolVec passwords[index])) = .ok K') :
    Ends (evaluatorServerV1 C X o passwords) (garblerClientV1 C X g password index passwords.length t) K' K := by
  have hil : passwords[index].length = len := hdb _ (List.getElem_mem hi)
  have ul : ∀ p : Bytes, p.length = len → (u8VecToBoolVec p).length = len * 8 := fun p h => by rw [unpack_length, h, Nat.mul_comm]
  refine Ends.swap ?_
  have hz := H.length
  have pl : ∀ (off : Nat) (p : Bytes), off + len * 8 ≤ z.length → p.length = len →
      (pick ((z.drop off).take (len * 8)) (u8VecToBoolVec p)).length = len * 8 := by
    intro off p ho hp
    rw [pick_length (by rw [ul p hp]; simp; omega)]; simp; omega
  unfold garblerClientV1 evaluatorServerV1
  have h00 : passwords[0].length = len := hdb _ (List.getElem_mem (by omega))
  rw [idxR_ok (a := passwords[0]) (List.getElem?_eq_getElem (by omega)), liftM_ok, ret_bind]
  dsimp only
  rw [h00, hpw, H.built, liftM_ok, ret_bind, H.garbled, liftM_ok, ret_bind]
  dsimp only
  rw [labelPairs_ok (by omega), liftM_ok, ret_bind, bitsUpTo_ok hpw, liftM_ok, ret_bind,
    labelsAt_ok (by rw [ul _ hpw]; omega), liftM_ok, ret_bind, ul _ hpw, sendP_bind, recvP_bind]
  refine .sendRecv ?_
  rw [H.sent, liftM_ok, ret_bind, sendP_bind, recvP_bind]
  refine .sendRecv ?_
  rw [deserialize_ok wires_rt ⟨by rw [pl _ _ (by omega) hpw]; omega, fun w hw => binary_fits (pick_mem H.binary _ w hw)⟩, liftM_ok,
    ret_bind]
  obtain ⟨rows, rows', hb1, hsame, hb2, hb3, hb4⟩ := blindingKeys_any X.dbg g.keys (bits := len * 8) hcount hcount' hi
  have hreal : (bytePairs ((z.drop (len * 8)).take (len * 8))).length = len * 8 := by simp [bytePairs]; omega
  have hreal' : ∀ m ∈ bytePairs ((z.drop (len * 8)).take (len * 8)), m.1.length = 32 ∧ m.2.length = 32 := by
    intro m hm
    obtain ⟨w, -, rfl⟩ := List.mem_map.mp hm
    simp [Wire.bytes]
  rw [hb1, liftM_ok, ret_bind, hsame, selectKeys_ok hreal hb2 hb3 hi, liftM_ok, ret_bind, allBits_ok hdb, liftM_ok, ret_bind]
  obtain ⟨e1, e2, e3⟩ := blinded_pairs hreal hreal' hb2 hb3 hdb hi
  refine .bind ((ot_correct C X hg.ot ho (n := passwords.length * (len * 8)) (Nat.mul_pos (by omega) (by omega))
    (by rw [← Nat.mul_assoc]; exact Nat.mul_mod_left _ _) ?_) _ _ e1 e2 e3).ends ?_
  · have h1 : passwords.length * (len * 8) ≤ 2 ^ 32 * (len * 8) := Nat.mul_le_mul_right _ (by omega)
    have h2 : 2 ^ 32 * (len * 8) < 2 ^ 32 * 2 ^ 32 := Nat.mul_lt_mul_of_pos_left (by omega) (by decide)
    omega
  have hun := unblind_ok X.dbg (real := bytePairs ((z.drop (len * 8)).take (len * 8))) (index := index) hreal hreal' hb2 hb3 hb4
    hdb hi
  rw [hun, liftM_ok, ret_bind, chosen_bytePairs, payloadToEncoding_ok X.dbg (pick_mem H.binary _) (pl _ _ (by omega) hil),
    liftM_ok, ret_bind, H.swap _ _ (pl _ _ (by omega) hil) (pl _ _ (by omega) hpw) (pick_mem H.binary _) (pick_mem H.binary _),
    hK', H.key]
  exact .ret _ _

/-- The same in terms of the passwords, for every length for which label arithmetic is right. -/
theorem clientV1_mod (C : Curve) (X : Crypto) (g : ClientGarbler1) (o : OTRecv) (passwords : List Bytes)
    (password : Bytes) (len index t : Nat) (hdb : ∀ p ∈ passwords, p.length = len) (h0 : 0 < len) (hl24 : len < 2 ^ 24)
    (hD : GoodDomain (8 * len % 65536 + 1))
    (hcount : X.dbg = true → 2 ≤ passwords.length) (hcount' : passwords.length < 2 ^ 32)
    (hpw : password.length = len) (hi : index < passwords.length) (hg : g.g.Valid) (ho : o.Valid) (ht : t < 65535) :
    ∃ k k', Ends (evaluatorServerV1 C X o passwords) (garblerClientV1 C X g password index passwords.length t) k k' ∧
      (bitDistance passwords[index] password % (8 * len % 65536 + 1) ≤ t → k = k') ∧
      (t < bitDistance passwords[index] password % (8 * len % 65536 + 1) →
        NoOutputCollision X.toEnv g.g.rnd (buildCircuit X.dbg (8 * len) t) → k ≠ k') := by
  have hil : passwords[index].length = len := hdb _ (List.getElem_mem hi)
  rw [Nat.mul_comm 8 len] at hD ⊢
  have ul : ∀ p : Bytes, p.length = len → (u8VecToBoolVec p).length = len * 8 := fun p h => by rw [unpack_length, h, Nat.mul_comm]
  obtain ⟨z, K, gc, gc', d, H, hev⟩ := half2 X.toEnv g.g.rnd g.g.ord hg.ord (n := len * 8) (t := t)
    (D := len * 8 % 65536 + 1) (by omega) (by omega)
    (buildCircuit_eq (addR_ok X.dbg (by unfold GoodDomain at hD; omega)) (addR_ok X.dbg (by omega))) hD ht
  obtain ⟨K', hK', h1, h2⟩ := hev _ _ (ul password hpw) (ul _ hil)
  rw [bitDistance_eq _ _ (by omega), bitDistance_comm _ _ (by omega)] at h1 h2
  exact ⟨K', K, clientV1_conn C X g o passwords password len index t hdb h0 hl24 hcount hcount' hpw hi hg ho H hK', h1, h2⟩

theorem clientV1_ends (C : Curve) (X : Crypto) (g : ClientGarbler1) (o : OTRecv) (passwords : List Bytes)
    (password : Bytes) (len index t : Nat) (hdb : ∀ p ∈ passwords, p.length = len) (hlen : GoodLength len)
    (hcount : X.dbg = true → 2 ≤ passwords.length) (hcount' : passwords.length < 2 ^ 32)
    (hpw : password.length = len) (hi : index < passwords.length) (hg : g.g.Valid) (ho : o.Valid) (ht : t < 65535) :
    ∃ k k', Ends (evaluatorServerV1 C X o passwords) (garblerClientV1 C X g password index passwords.length t) k k' ∧
      (bitDistance passwords[index] password ≤ t → k = k') ∧
      (t < bitDistance passwords[index] password →
        NoOutputCollision X.toEnv g.g.rnd (buildCircuit X.dbg (8 * len) t) → k ≠ k') := by
  obtain ⟨h0, -⟩ := good_fits hlen
  obtain ⟨-, g2, g3⟩ := good_mod hlen (q := password) (hdb _ (List.getElem_mem hi))
  obtain ⟨k, k', he, h⟩ := clientV1_mod C X g o passwords password len index t hdb h0 (by unfold GoodLength at hlen; omega) g2
    hcount hcount' hpw hi hg ho ht
  rw [g3] at h
  exact ⟨k, k', he, h⟩

/-! ### Second implementation -/

theorem serverV2_mod (C : Curve) (X : Crypto) (s : ServerDraws) (c : ClientDraws) (passwords : List Bytes) (password : Bytes)
    (len index t : Nat) (hdb : Database passwords len) (h0 : 0 < len) (hl32 : len < 2 ^ 32)
    (hD : GoodDomain (8 * len % 65536 + 1)) (hpw : password.length = len)
    (hi : index < passwords.length) (hm : s.many.Valid X.dbg passwords.length) (hsg : s.g.Valid) (hs2 : s.ot2.Valid)
    (hco : c.ot.Valid) (hco2 : c.ot2.Valid) (ht : t < 65535) :
    ∃ k k', Ends (garblerServerV2 C X s passwords t) (evaluatorClientV2 C X c password passwords.length index) k k' ∧
      (bitDistance passwords[index] password % (8 * len % 65536 + 1) ≤ t → k = k') ∧
      (t < bitDistance passwords[index] password % (8 * len % 65536 + 1) →
        NoOutputCollision X.toEnv s.g.rnd (buildCircuitV2 X.dbg (8 * len) t) → k ≠ k') := by
  obtain ⟨k, k', he, h⟩ :=
    serverV3_mod C X s c passwords password len index t hdb h0 hl32 hD hpw hi hm hsg hs2 hco hco2 ht
  refine ⟨k, k', ?_, h⟩
  rw [garblerServerV2_eq, evaluatorClientV2_eq]
  exact .bind he (.ret _ _)

theorem serverV2_ends (C : Curve) (X : Crypto) (s : ServerDraws) (c : ClientDraws) (passwords : List Bytes) (password : Bytes)
    (len index t : Nat) (hdb : Database passwords len) (hlen : GoodLength len) (hpw : password.length = len)
    (hi : index < passwords.length) (hm : s.many.Valid X.dbg passwords.length) (hsg : s.g.Valid) (hs2 : s.ot2.Valid)
    (hco : c.ot.Valid) (hco2 : c.ot2.Valid) (ht : t < 65535) :
    ∃ k k', Ends (garblerServerV2 C X s passwords t) (evaluatorClientV2 C X c password passwords.length index) k k' ∧
      (bitDistance passwords[index] password ≤ t → k = k') ∧
      (t < bitDistance passwords[index] password →
        NoOutputCollision X.toEnv s.g.rnd (buildCircuitV2 X.dbg (8 * len) t) → k ≠ k') := by
  obtain ⟨k, k', mask, -, he, h⟩ :=
    serverV3_ends C X s c passwords password len index t hdb hlen hpw hi hm hsg hs2 hco hco2 ht
  refine ⟨k, k', ?_, h⟩
  rw [garblerServerV2_eq, evaluatorClientV2_eq]
  exact .bind he (.ret _ _)

/-- The messages when the client garbles, given what garbling and evaluating give. -/
theorem clientV2_conn (C : Curve) (X : Crypto) (g : ClientGarbler2) (s : ServerEvaluator2) (passwords : List Bytes)
    (password : Bytes) (len index t : Nat) (hdb : Database passwords len) (h0 : 0 < len) (hl32 : len < 2 ^ 32)
    (hpw : password.length = len) (hi : index < passwords.length) (hm : s.many.Valid X.dbg passwords.length) (hg : g.g.Valid)
    (ho : s.ot.Valid) {circ : Circuit} {z : List (Wire × Wire)} {K K' : WireBytes}
    {gc gc' : GarbledCircuit} {d : DecodingKey} (H : Held3 X.toEnv g.g.rnd g.g.ord (len * 8) t circ z K gc gc' d)
    (hK' : evaluatedKey X.toEnv gc' (pick (z.take (len * 8)) (u8VecToBoolVec (xorB (drawMask s.mask len) passwords[index])) ++
      pick ((z.drop (len * 8)).take (len * 8)) (u8VecToBoolVec (drawMask s.mask len)) ++
      pick (z.drop (len * 8 * 2)) (u8VecToBoolVec password)) = .ok K') :
    Ends (evaluatorServerV2 C X s passwords) (garblerClientV2 C X g password index passwords.length t) K' K := by
  have hmask := drawMask_length s.mask len
  generalize hmm : drawMask s.mask len = mask at hmask hK' ⊢
  have hil : passwords[index].length = len := hdb.lengths _ (List.getElem_mem hi)
  have hxl : (xorB mask passwords[index]).length = len := by rw [xorB_length (by omega), hil]
  have ul : ∀ p : Bytes, p.length = len → (u8VecToBoolVec p).length = len * 8 := fun p h => by rw [unpack_length, h, Nat.mul_comm]
  refine Ends.swap ?_
  have hz := H.length
  have pl : ∀ (off : Nat) (p : Bytes), off + len * 8 ≤ z.length → p.length = len →
      (pick ((z.drop off).take (len * 8)) (u8VecToBoolVec p)).length = len * 8 := by
    intro off p ho hp
    rw [pick_length (by rw [ul p hp]; simp; omega)]; simp; omega
  obtain ⟨domain, d1, d2, hmany⟩ := manyRun_ends C X (base := g.many) (Database.map hdb hmask) (by simpa using hm)
    (index := index) (by simpa using hi) h0 hl32
  rw [List.length_map] at d1 d2
  rw [List.getElem_map] at hmany
  unfold garblerClientV2 evaluatorServerV2
  have h00 : passwords[0].length = len := hdb.lengths _ (List.getElem_mem (by omega))
  rw [idxR_ok (a := passwords[0]) (List.getElem?_eq_getElem (by omega)), liftM_ok, ret_bind]
  dsimp only
  rw [h00, hpw, hmm]
  rw [H.built, liftM_ok, ret_bind, H.garbled, liftM_ok, ret_bind, bitsUpTo_ok hpw, liftM_ok, ret_bind]
  dsimp only
  rw [labelsAt_ok (by rw [ul _ hpw]; omega), liftM_ok, ret_bind, ul _ hpw, sendP_bind, recvP_bind]
  refine .sendRecv ?_
  rw [H.sent, liftM_ok, ret_bind, sendP_bind, recvP_bind]
  refine .sendRecv ?_
  rw [deserialize_ok wires_rt ⟨by rw [pl _ _ (by omega) hpw]; omega, fun w hw => binary_fits (pick_mem H.binary _ w hw)⟩, liftM_ok,
    ret_bind, labelPairs_ok (by omega), liftM_ok, ret_bind, bitsUpTo_ok hmask, liftM_ok, ret_bind,
    maskPasswords_ok X.dbg hmask hdb.lengths, liftM_ok, ret_bind]
  refine .bind (otChosen C X hg.ot ho h0 (by omega) (by simp; omega) (ul _ hmask)) ?_
  rw [d1, liftM_ok, ret_bind, d2, liftM_ok, ret_bind]
  refine .bind hmany.swap ?_
  rw [idxR_ok (a := z[0]) (List.getElem?_eq_getElem (by omega)), liftM_ok, ret_bind, encodeRows_ok X.dbg (by omega) (by omega),
    liftM_ok, ret_bind, sendP_bind, recvP_bind]
  refine .sendRecv ?_
  have hp3 := pl (len * 8) _ (by omega) hmask
  rw [idxR_ok (a := (pick ((z.drop (len * 8)).take (len * 8)) (u8VecToBoolVec mask))[0].bytes)
    (by rw [List.getElem?_map, List.getElem?_eq_getElem (by omega)]; rfl), liftM_ok, ret_bind]
  have hw32 : ∀ w : Wire, w.bytes.length = 32 := by intro w; simp [Wire.bytes]
  rw [hw32, payloadToEncoding_ok X.dbg (pick_mem H.binary _) hp3, liftM_ok, ret_bind,
    bytesToEncoding_ok X.dbg (pick_mem H.binary _) (pl 0 _ (by omega) hxl), liftM_ok, ret_bind, H.key]
  rw [List.drop_zero, List.take_of_length_le (l := z.drop (len * 8 * 2)) (by simp; omega), hK']
  exact .ret _ _

/-- The same in terms of the passwords, for every length for which label arithmetic is right. -/
theorem clientV2_mod (C : Curve) (X : Crypto) (g : ClientGarbler2) (s : ServerEvaluator2) (passwords : List Bytes)
    (password : Bytes) (len index t : Nat) (hdb : Database passwords len) (h0 : 0 < len) (hl32 : len < 2 ^ 32)
    (hD : GoodDomain (8 * len % 65536 + 1))
    (hpw : password.length = len) (hi : index < passwords.length) (hm : s.many.Valid X.dbg passwords.length) (hg : g.g.Valid)
    (ho : s.ot.Valid) (ht : t < 65535) :
    ∃ k k', Ends (evaluatorServerV2 C X s passwords) (garblerClientV2 C X g password index passwords.length t) k k' ∧
      (bitDistance passwords[index] password % (8 * len % 65536 + 1) ≤ t → k = k') ∧
      (t < bitDistance passwords[index] password % (8 * len % 65536 + 1) →
        NoOutputCollision X.toEnv g.g.rnd (buildCircuitV2 X.dbg (8 * len) t) → k ≠ k') := by
  have hmask := drawMask_length s.mask len
  have hil : passwords[index].length = len := hdb.lengths _ (List.getElem_mem hi)
  have hxl : (xorB (drawMask s.mask len) passwords[index]).length = len := by rw [xorB_length (by omega), hil]
  rw [Nat.mul_comm 8 len] at hD ⊢
  have ul : ∀ p : Bytes, p.length = len → (u8VecToBoolVec p).length = len * 8 := fun p h => by rw [unpack_length, h, Nat.mul_comm]
  obtain ⟨z, K, gc, gc', d, H, hev⟩ := half3 X.toEnv g.g.rnd g.g.ord hg.ord (n := len * 8) (t := t)
    (D := len * 8 % 65536 + 1) (by omega) (by omega)
    (buildCircuitV2_eq (addR_ok X.dbg (by unfold GoodDomain at hD; omega)) (addR_ok X.dbg (by omega))) hD ht
  obtain ⟨K', hK', h1, h2⟩ := hev _ _ _ (ul _ hxl) (ul _ hmask) (ul password hpw)
  rw [mask_weight' (by omega) (by omega)] at h1 h2
  exact ⟨K', K, clientV2_conn C X g s passwords password len index t hdb h0 hl32 hpw hi hm hg ho H hK', h1, h2⟩

theorem clientV2_ends (C : Curve) (X : Crypto) (g : ClientGarbler2) (s : ServerEvaluator2) (passwords : List Bytes)
    (password : Bytes) (len index t : Nat) (hdb : Database passwords len) (hlen : GoodLength len)
    (hpw : password.length = len) (hi : index < passwords.length) (hm : s.many.Valid X.dbg passwords.length) (hg : g.g.Valid)
    (ho : s.ot.Valid) (ht : t < 65535) :
    ∃ k k', Ends (evaluatorServerV2 C X s passwords) (garblerClientV2 C X g password index passwords.length t) k k' ∧
      (bitDistance passwords[index] password ≤ t → k = k') ∧
      (t < bitDistance passwords[index] password →
        NoOutputCollision X.toEnv g.g.rnd (buildCircuitV2 X.dbg (8 * len) t) → k ≠ k') := by
  obtain ⟨h0, hl32⟩ := good_fits hlen
  obtain ⟨-, g2, g3⟩ := good_mod hlen (q := password) (hdb.lengths _ (List.getElem_mem hi))
  obtain ⟨k, k', he, h⟩ := clientV2_mod C X g s passwords password len index t hdb h0 hl32 g2 hpw hi hm hg ho ht
  rw [g3] at h
  exact ⟨k, k', he, h⟩

/-! ### C34 -/

/-- C34, first implementation, server garbling. -/
theorem C34_v1_server_garbles_partial (C : Curve) (X : Crypto) (s : ServerDraws1) (c : ClientDraws1) (passwords : List Bytes)
    (password : Bytes) (len index t : Nat) (hdb : Database passwords len) (hlen : GoodLength len)
    (hpw : password.length = len) (hi : index < passwords.length) (hm : s.many.Valid X.dbg passwords.length)
    (hsg : s.g.Valid) (hco : c.ot.Valid) (ht : t < 65535) :
    ∃ k k', Completes (garblerServerV1 C X s passwords t) (evaluatorClientV1 C X c password passwords.length index) k k' ∧
      (bitDistance passwords[index] password ≤ t → k = k') ∧
      (t < bitDistance passwords[index] password →
        NoOutputCollision X.toEnv s.g.rnd (buildCircuit X.dbg (8 * len) t) → k ≠ k') := by
  obtain ⟨k, k', he, h⟩ := serverV1_ends C X s c passwords password len index t hdb hlen hpw hi hm hsg hco ht
  exact ⟨k, k', he.completes, h⟩

example := C34_v1_server_garbles_partial Witness.curve (Witness.crypto true) Witness.serverDraws1 Witness.clientDraws1
    Witness.passwords Witness.password 2 1 1 (by meets) (by meets) (by meets) (by meets) (by meets) (by meets)
    (by meets) (by meets)

/-- C34, first implementation, client garbling: for any number of passwords from two on, and for a single one in
a release build (where it costs 2 ^ 32 rows of random strings, `C34_v1_single_work`). -/
theorem C34_v1_client_garbles_partial (C : Curve) (X : Crypto) (g : ClientGarbler1) (o : OTRecv) (passwords : List Bytes)
    (password : Bytes) (len index t : Nat) (hdb : ∀ p ∈ passwords, p.length = len) (hlen : GoodLength len)
    (hcount : X.dbg = true → 2 ≤ passwords.length) (hcount' : passwords.length < 2 ^ 32)
    (hpw : password.length = len) (hi : index < passwords.length) (hg : g.g.Valid) (ho : o.Valid) (ht : t < 65535) :
    ∃ k k', Completes (evaluatorServerV1 C X o passwords) (garblerClientV1 C X g password index passwords.length t) k k' ∧
      (bitDistance passwords[index] password ≤ t → k = k') ∧
      (t < bitDistance passwords[index] password →
        NoOutputCollision X.toEnv g.g.rnd (buildCircuit X.dbg (8 * len) t) → k ≠ k') := by
  obtain ⟨k, k', he, h⟩ := clientV1_ends C X g o passwords password len index t hdb hlen hcount hcount' hpw hi hg ho ht
  exact ⟨k, k', he.completes, h⟩

example := C34_v1_client_garbles_partial Witness.curve (Witness.crypto true) Witness.clientGarbler1 Witness.recv
    Witness.passwords Witness.password 2 1 1 (by meets) (by meets) (by meets) (by meets) (by meets) (by meets)
    (by meets) (by meets) (by meets)

/-- C34, second implementation, server garbling. -/
theorem C34_v2_server_garbles_partial (C : Curve) (X : Crypto) (s : ServerDraws) (c : ClientDraws) (passwords : List Bytes)
    (password : Bytes) (len index t : Nat) (hdb : Database passwords len) (hlen : GoodLength len)
    (hpw : password.length = len) (hi : index < passwords.length) (hm : s.many.Valid X.dbg passwords.length)
    (hsg : s.g.Valid) (hs2 : s.ot2.Valid) (hco : c.ot.Valid) (hco2 : c.ot2.Valid) (ht : t < 65535) :
    ∃ k k', Completes (garblerServerV2 C X s passwords t) (evaluatorClientV2 C X c password passwords.length index) k k' ∧
      (bitDistance passwords[index] password ≤ t → k = k') ∧
      (t < bitDistance passwords[index] password →
        NoOutputCollision X.toEnv s.g.rnd (buildCircuitV2 X.dbg (8 * len) t) → k ≠ k') := by
  obtain ⟨k, k', he, h⟩ := serverV2_ends C X s c passwords password len index t hdb hlen hpw hi hm hsg hs2 hco hco2 ht
  exact ⟨k, k', he.completes, h⟩

example := C34_v2_server_garbles_partial Witness.curve (Witness.crypto true) Witness.serverDraws Witness.clientDraws
    Witness.passwords Witness.password 2 1 1 (by meets) (by meets) (by meets) (by meets) (by meets) (by meets)
    (by meets) (by meets) (by meets) (by meets)

/-- C34, second implementation, client garbling. -/
theorem C34_v2_client_garbles_partial (C : Curve) (X : Crypto) (g : ClientGarbler2) (s : ServerEvaluator2)
    (passwords : List Bytes) (password : Bytes) (len index t : Nat) (hdb : Database passwords len) (hlen : GoodLength len)
    (hpw : password.length = len) (hi : index < passwords.length) (hm : s.many.Valid X.dbg passwords.length)
    (hg : g.g.Valid) (ho : s.ot.Valid) (ht : t < 65535) :
    ∃ k k', Completes (evaluatorServerV2 C X s passwords) (garblerClientV2 C X g password index passwords.length t) k k' ∧
      (bitDistance passwords[index] password ≤ t → k = k') ∧
      (t < bitDistance passwords[index] password →
        NoOutputCollision X.toEnv g.g.rnd (buildCircuitV2 X.dbg (8 * len) t) → k ≠ k') := by
  obtain ⟨k, k', he, h⟩ := clientV2_ends C X g s passwords password len index t hdb hlen hpw hi hm hg ho ht
  exact ⟨k, k', he.completes, h⟩

example := C34_v2_client_garbles_partial Witness.curve (Witness.crypto true) Witness.clientGarbler2
    Witness.serverEvaluator2 Witness.passwords Witness.password 2 1 1 (by meets) (by meets) (by meets) (by meets)
    (by meets) (by meets) (by meets) (by meets)

/-- C34: the server first garbles and then evaluates, the client first evaluates and then garbles; each
direction may use the first or the second implementation (`v2a`, `v2b`).  Within both thresholds the
combined keys are equal, on every schedule. -/
theorem C34_mixed_partial (C : Curve) (X : Crypto) (v2a v2b : Bool) (s1 : ServerDraws1) (c1 : ClientDraws1)
    (s2 : ServerDraws) (c2 : ClientDraws) (g1 : ClientGarbler1) (o1 : OTRecv) (g2 : ClientGarbler2) (e2 : ServerEvaluator2)
    (passwords : List Bytes) (password : Bytes) (len index ts tc : Nat) (hdb : Database passwords len)
    (hcount : X.dbg = true → 2 ≤ passwords.length) (hlen : GoodLength len) (hpw : password.length = len) (hi : index < passwords.length)
    (hs1 : s1.many.Valid X.dbg passwords.length ∧ s1.g.Valid) (hc1 : c1.ot.Valid)
    (hs2 : s2.many.Valid X.dbg passwords.length ∧ s2.g.Valid ∧ s2.ot2.Valid) (hc2 : c2.ot.Valid ∧ c2.ot2.Valid)
    (hg1 : g1.g.Valid) (ho1 : o1.Valid) (hg2 : g2.g.Valid) (he2 : e2.many.Valid X.dbg passwords.length ∧ e2.ot.Valid)
    (hts : ts < 65535) (htc : tc < 65535)
    (h1 : bitDistance passwords[index] password ≤ ts) (h2 : bitDistance passwords[index] password ≤ tc) :
    ∃ key, Completes
      (do let k1 ← (if v2a then garblerServerV2 C X s2 passwords ts else garblerServerV1 C X s1 passwords ts)
          let k2 ← (if v2b then evaluatorServerV2 C X e2 passwords else evaluatorServerV1 C X o1 passwords)
          return combine k1 k2)
      (do let k1 ← (if v2a then evaluatorClientV2 C X c2 password passwords.length index
            else evaluatorClientV1 C X c1 password passwords.length index)
          let k2 ← (if v2b then garblerClientV2 C X g2 password index passwords.length tc
            else garblerClientV1 C X g1 password index passwords.length tc)
          return combine k1 k2) key key := by
  obtain ⟨a, a', ha, hae⟩ : ∃ a a', Ends (if v2a then garblerServerV2 C X s2 passwords ts else garblerServerV1 C X s1 passwords ts)
      (if v2a then evaluatorClientV2 C X c2 password passwords.length index
            else evaluatorClientV1 C X c1 password passwords.length index) a a' ∧ a = a' := by
    cases v2a with
    | false =>
      obtain ⟨a, a', he, hh, -⟩ := serverV1_ends C X s1 c1 passwords password len index ts hdb hlen hpw hi hs1.1 hs1.2 hc1 hts
      exact ⟨a, a', he, hh h1⟩
    | true =>
      obtain ⟨a, a', he, hh, -⟩ := serverV2_ends C X s2 c2 passwords password len index ts hdb hlen hpw hi hs2.1 hs2.2.1 hs2.2.2
        hc2.1 hc2.2 hts
      exact ⟨a, a', he, hh h1⟩
  obtain ⟨b, b', hb, hbe⟩ : ∃ b b', Ends (if v2b then evaluatorServerV2 C X e2 passwords else evaluatorServerV1 C X o1 passwords)
      (if v2b then garblerClientV2 C X g2 password index passwords.length tc
            else garblerClientV1 C X g1 password index passwords.length tc) b b' ∧ b = b' := by
    cases v2b with
    | false =>
      obtain ⟨b, b', he, hh, -⟩ := clientV1_ends C X g1 o1 passwords password len index tc hdb.lengths hlen hcount hdb.count hpw
        hi hg1 ho1 htc
      exact ⟨b, b', he, hh h2⟩
    | true =>
      obtain ⟨b, b', he, hh, -⟩ := clientV2_ends C X g2 e2 passwords password len index tc hdb hlen hpw hi he2.1 hg2 he2.2 htc
      exact ⟨b, b', he, hh h2⟩
  subst hae
  subst hbe
  exact ⟨combine a b, Ends.completes (.bind ha (.bind hb (.ret _ _)))⟩

example := C34_mixed_partial Witness.curve (Witness.crypto true) true true Witness.serverDraws1 Witness.clientDraws1
    Witness.serverDraws Witness.clientDraws Witness.clientGarbler1 Witness.recv Witness.clientGarbler2
    Witness.serverEvaluator2 Witness.passwords Witness.password 2 1 1 1 (by meets) (by meets) (by meets) (by meets)
    (by meets) (by meets) (by meets) (by meets) (by meets) (by meets) (by meets) (by meets) (by meets) (by meets)
    (by meets) (by meets) (by meets)

/-- C34, arguments outside the domain of the first garbling client: with an index that is no entry,
with no passwords, and in a debug build with a single password, it panics whatever it receives. -/
theorem C34_v1_panics (C : Curve) (X : Crypto) (g : ClientGarbler1) (password : Bytes) (index number t : Nat)
    (inputs : List Bytes) (hlen : GoodLength password.length) (ht : t < 65535) (hg : g.g.Valid)
    (hbad : (2 ≤ number ∧ number < 2 ^ 32 ∧ number ≤ index) ∨ number = 0 ∨ (X.dbg = true ∧ number = 1)) :
    ((garblerClientV1 C X g password index number t).against inputs).2 = some (.error .panic) := by
  obtain ⟨h0, hl32⟩ := good_fits hlen
  obtain ⟨-, hn', hD⟩ := goodLength hlen
  rw [Nat.mul_comm 8] at hn' hD
  obtain ⟨z, K, gc, gc', d, H, -⟩ := half2 X.toEnv g.g.rnd g.g.ord hg.ord (n := password.length * 8) (t := t) (by omega)
    (by omega) (buildCircuit_ok X.dbg hn' ht) hD ht
  have hz := H.length
  have hul : (u8VecToBoolVec password).length = password.length * 8 := by rw [unpack_length, Nat.mul_comm]
  unfold garblerClientV1
  dsimp only
  rw [H.built, liftM_ok, ret_bind, H.garbled, liftM_ok, ret_bind]
  dsimp only
  rw [labelPairs_ok (by omega), liftM_ok, ret_bind, bitsUpTo_ok rfl, liftM_ok, ret_bind,
    labelsAt_ok (by rw [hul]; omega), liftM_ok, ret_bind, sendP_bind, sendP_bind]
  simp only [Proc.against]
  rcases hbad with ⟨h2, h32, hidx⟩ | rfl | ⟨hdbg, rfl⟩
  · obtain ⟨rows, hb1, hb2, hb3, hb4⟩ := blindingKeys_ok X.dbg g.keys (bits := password.length * 8) h2 h32
    rw [hb1, liftM_ok, ret_bind, selectKeys_out (by omega) hb3 hidx]
    rfl
  · have : blindingKeys X.dbg g.keys 0 (password.length * 8) = .error .panic := by
      unfold blindingKeys
      cases X.dbg <;> rfl
    rw [this]
    rfl
  · have : blindingKeys X.dbg g.keys 1 (password.length * 8) = .error .panic := by
      unfold blindingKeys
      rw [hdbg]
      rfl
    rw [this]
    rfl

example := C34_v1_panics Witness.curve (Witness.crypto true) Witness.clientGarbler1 Witness.password 4 4 1 []
    (by meets) (by meets) (by meets) (.inl (by decide))

/-- C34: in a release build a first garbling client with a single entry draws 2 ^ 32 - 1 rows of random strings, one for every
bit of its password in each, and lays out 2 ^ 32 rows, of which it uses none. -/
theorem C34_v1_single_work (rk : Nat → Nat → WireBytes) (real : List (Bytes × Bytes)) (bits : Nat) (hreal : real.length = bits) :
    ∃ rows, blindingKeys false rk 1 bits = .ok rows ∧ rows.length = 2 ^ 32 ∧
      (∀ r ∈ rows, r.length = bits ∧ ∀ k ∈ r, k.length = 32) ∧ selectKeys real rows 1 0 bits = .ok real := by
  obtain ⟨rows, h1, h2, h3⟩ := blindingKeys_one rk bits
  refine ⟨rows, h1, h2, fun r hr => ⟨(h3 r hr).1, (h3 r hr).2⟩, ?_⟩
  have he : selectKeys real rows 1 0 bits = selectKeys real [] 1 0 bits := by
    unfold selectKeys
    simp only [List.range_one, List.foldlM_cons, List.foldlM_nil, selectStep, if_true]
    cases (List.range bits).mapM fun j => idxR real j <;> rfl
  rw [he, selectKeys_ok hreal (by simp) (by simp) (by decide)]
  simp

example := C34_v1_single_work (fun i j => Witness.bytes (i + j)) [([1], [2]), ([3], [4])] 2 (by meets)

/-! ### C46 -/

/-- C46 is false for every number of passwords: the blocks of strings a server receives from the first
garbling client cancel when the block at the client's index is left out.  They also cancel without some
other block exactly if that block repeats the one at the index. -/
theorem C46_v1_index_leaks (C : Curve) (X : Crypto) (g : ClientGarbler1) (o : OTRecv) (passwords : List Bytes)
    (password : Bytes) (len index t : Nat) (hdb : ∀ p ∈ passwords, p.length = len) (hlen : GoodLength len)
    (hcount : 2 ≤ passwords.length) (hcount' : passwords.length < 2 ^ 32)
    (hpw : password.length = len) (hi : index < passwords.length) (hg : g.g.Valid) (ho : o.Valid) (ht : t < 65535) :
    ∃ view k, Completes (watchingServer C X o passwords len) (garblerClientV1 C X g password index passwords.length t) view k ∧
      view.length = passwords.length * (8 * len) ∧
      OthersCancel view passwords.length (8 * len) index ∧
      ∀ i < passwords.length, OthersCancel view passwords.length (8 * len) i ↔
        ∀ j < 8 * len, view[i * (8 * len) + j]? = view[index * (8 * len) + j]? := by
  obtain ⟨h0, hl32⟩ := good_fits hlen
  obtain ⟨-, hn', hD⟩ := goodLength hlen
  rw [Nat.mul_comm 8 len] at hn' hD ⊢
  obtain ⟨z, K, gc, gc', d, H, -⟩ := half2 X.toEnv g.g.rnd g.g.ord hg.ord (n := len * 8) (t := t) (by omega) (by omega)
    (buildCircuit_ok X.dbg hn' ht) hD ht
  have hz := H.length
  obtain ⟨rows, hb1, hb2, hb3, hb4⟩ := blindingKeys_ok X.dbg g.keys (bits := len * 8) hcount hcount'
  have hreal : (bytePairs ((z.drop (len * 8)).take (len * 8))).length = len * 8 := by simp [bytePairs]; omega
  have hreal' : ∀ m ∈ bytePairs ((z.drop (len * 8)).take (len * 8)), m.1.length = 32 ∧ m.2.length = 32 := by
    intro m hm
    obtain ⟨w, -, rfl⟩ := List.mem_map.mp hm
    simp [Wire.bytes]
  have hrow := chosen_isRow hreal hreal' (choices := u8VecToBoolVec passwords[index])
    (by rw [unpack_length, hdb _ (List.getElem_mem hi), Nat.mul_comm])
  refine ⟨chosen ((rows.map dupRow).take index ++ bytePairs ((z.drop (len * 8)).take (len * 8)) ::
    (rows.map dupRow).drop index).flatten (passwords.flatMap u8VecToBoolVec), K, (Ends.swap ?_).completes, ?_⟩
  · unfold garblerClientV1 watchingServer
    dsimp only
    have hul : (u8VecToBoolVec password).length = len * 8 := by rw [unpack_length, hpw, Nat.mul_comm]
    rw [hpw, H.built, liftM_ok, ret_bind, H.garbled, liftM_ok, ret_bind]
    dsimp only
    rw [labelPairs_ok (by omega), liftM_ok, ret_bind, bitsUpTo_ok hpw, liftM_ok, ret_bind,
      labelsAt_ok (by rw [hul]; omega), liftM_ok, ret_bind, sendP_bind, recvP_bind]
    refine .sendRecv ?_
    rw [sendP_bind, recvP_bind]
    refine .sendRecv ?_
    rw [hb1, liftM_ok, ret_bind, selectKeys_ok hreal hb2 hb3 hi, liftM_ok, ret_bind, allBits_ok hdb, liftM_ok, ret_bind]
    obtain ⟨e1, e2, e3⟩ := blinded_pairs hreal hreal' hb2 hb3 hdb hi
    refine .bindL ((ot_correct C X hg.ot ho (n := passwords.length * (len * 8)) (Nat.mul_pos (by omega) (by omega))
      (by rw [← Nat.mul_assoc]; exact Nat.mul_mod_left _ _) ?_) _ _ e1 e2 e3).ends (by rw [H.key]; rfl)
    have h1 : passwords.length * (len * 8) ≤ 2 ^ 32 * (len * 8) := Nat.mul_le_mul_right _ (by omega)
    have h2 : 2 ^ 32 * (len * 8) < 2 ^ 32 * 2 ^ 32 := Nat.mul_lt_mul_of_pos_left (by omega) (by decide)
    omega
  · rw [blinded_view hreal hb2 hb3 hdb hi]
    have hiff := fun i (hin : i < passwords.length) => othersCancel_iff hb2 hb3 hb4 hrow hi (i := i) hin
    refine ⟨?_, (hiff index hi).mpr fun _ _ => rfl, hiff⟩
    rw [flatten_length (m := len * 8)]
    · simp; rw [hb2]; omega
    · intro r hr
      rcases List.mem_append.mp hr with hr | hr
      · exact (hb3 r (List.mem_of_mem_take hr)).length
      · rcases List.mem_cons.mp hr with rfl | hr
        · exact hrow.length
        · exact (hb3 r (List.mem_of_mem_drop hr)).length

example := C46_v1_index_leaks Witness.curve (Witness.crypto true) Witness.clientGarbler1 Witness.recv Witness.passwords
    Witness.password 2 1 1 (by meets) (by meets) (by meets) (by meets) (by meets) (by meets) (by meets) (by meets)
    (by meets)

/-- Three passwords of one byte, and a client whose password differs in one bit from the second one. -/
example : (∀ p ∈ ([[1], [2], [255]] : List Bytes), p.length = 1) ∧ GoodLength 1 ∧ bitDistance [2] [3] = 1 ∧
    bitDistance [2] [255] = 7 := by decide

/-- With two passwords everything received for the entry that is not the client's is zero. -/
example (dbg : Bool) (rk : Nat → Nat → WireBytes) (bits : Nat) :
    blindingKeys dbg rk 2 bits = .ok [List.replicate bits (List.replicate 32 0)] := by
  cases dbg <;> rfl

end FP.Props
