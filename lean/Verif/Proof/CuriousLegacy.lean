import Verif.Spec.CuriousLegacy
import Verif.Proof.CuriousMany
import Verif.Props.Legacy
/-
Curious parties of the first two one-of-many implementations.
-/
namespace FP
open Spec Props

/-- What the evaluating party holds and reads. -/
theorem sum2 (E : Env) (rnd : GarbleRand) (ord : MapOrder) (hord : ord.Valid) {n t : Nat} (hn : 1 < n) (hn' : n < 65535)
    (hD : GoodDomain (n + 1)) (ht : t < 65535) :
    ∃ z K gc gc' d, Held2 E rnd ord n t (thrCircuit n (n + 1) (t + 1)) z K gc gc' d ∧
      ∀ a b : List Bool, a.length = n → b.length = n →
        (∃ K', evaluatedKey E gc' (pick ((z.drop 0).take n) a ++ pick ((z.drop n).take n) b) = .ok K') ∧
        sumBits2 n gc' (pick ((z.drop 0).take n) a) (pick ((z.drop n).take n) b) = xorBits a b := by
  have hbuild := buildCircuit_ok E.dbg hn' ht
  have hc := thr_typedD (T := t + 1) (show 0 < n by omega) good2 hD
  have hbin : ∀ d ∈ (thrCircuit n (n + 1) (t + 1)).inputDomains, d = 2 := by intro d hd; exact (List.mem_replicate.mp hd).2
  obtain ⟨run, z, d, zl, w1, hrun, hok, hgb, hzl, hzb, hK, hzw, hlab, hcar, henc⟩ := half_detail E rnd hc
    hbin (by show 0 < n * 2; omega) rfl (thr_last n (n + 1) (t + 1))
  change z.length = n * 2 at hzl
  obtain ⟨run', z', d', K, hrun', hgb', -, -, hK2, hev⟩ := half_key E rnd hc hbin (by show 0 < n * 2; omega) rfl
    (thr_last n (n + 1) (t + 1))
  rw [hrun] at hrun'
  obtain rfl := Except.ok.inj hrun'
  rw [hgb] at hgb'
  have hzz := Except.ok.inj hgb'
  obtain rfl : z = z' := congrArg (fun t => t.2.1) hzz
  obtain rfl : d = d' := congrArg (fun t => t.2.2) hzz
  obtain ⟨gc', H, he⟩ := held2 (rnd := rnd) hord hbuild (by omega) (by omega) (by omega) hrun hgb hzl hzb hK2
  have hfits := thr_fits (n := n) (D := n + 1) (T := t + 1) (by omega) (by omega) (by omega)
  have hgf : GarbledFits (thrCircuit n (n + 1) (t + 1)) (ord.f run.state.f) (ord.h run.state.fHalf) :=
    garble_fits hrun hfits.1 hfits.2 (hord.f _) (hord.h _)
  have hlook : ∀ k, List.lookup k gc'.f = List.lookup k run.state.f := by
    have hs := H.sent
    have hd : deserializeGarbled (sendGarbled ord ⟨thrCircuit n (n + 1) (t + 1), run.state.f, run.state.fHalf⟩) =
      .ok ⟨thrCircuit n (n + 1) (t + 1), hmapOfEntries (ord.f run.state.f), hmapOfEntries (ord.h run.state.fHalf)⟩ :=
      deserializeGarbled_ok hgf
    rw [hd] at hs
    obtain rfl := Except.ok.inj hs
    exact iteration_lookup (hord.f _)
  refine ⟨z, K, _, gc', d, H, fun a b ha hb => ?_⟩
  have hbl : (a ++ b).length = n * 2 := by simp [ha, hb]; omega
  obtain ⟨K', hK', -, -⟩ := hev (a ++ b) hbl
  obtain ⟨hin, hXl, hXi⟩ := henc (a ++ b) hbl
  refine ⟨⟨K', (he a b ha hb).trans hK'⟩, ?_⟩
  have hpick : pick ((z.drop 0).take n) a ++ pick ((z.drop n).take n) b = pick z (a ++ b) := by
    have e1 := pick_append (z := z) (a := a) (b := b) (by simp [ha, hb]; omega)
    rw [ha] at e1
    rw [← e1, List.drop_zero, List.take_of_length_le (l := z.drop n) (by simp; omega)]
  have hothers := others_ok (by omega) hD (by omega) hrun ha hb hXi hlook hpick
    (by rw [pick_length (by simp; omega)]; simp; omega)
  apply List.ext_getElem
  · simp [sumBits2, xorBits, ha, hb]
  · intro i h1 h2
    have hi : i < n := by simpa [sumBits2] using h1
    have hget := congrArg (fun l => l[i]?) hothers
    simp only [othersBits, List.getElem?_map, List.getElem?_range hi, Option.map_some] at hget
    rw [List.getElem?_eq_getElem (show i < a.length by omega)] at hget
    have hget := Option.some.inj hget
    rw [List.getD, List.getElem?_eq_getElem (show i < b.length by omega), Option.getD_some] at hget
    simp only [sumBits2, xorBits, List.getElem_map, List.getElem_range, List.getElem_zipWith]
    rw [← hget]
    generalize colourAt _ i = x
    generalize colourAt _ i = y
    generalize b[i]'_ = w
    generalize (_ == 0) = u
    cases x <;> cases y <;> cases w <;> cases u <;> rfl

/-- The messages when the server garbles, given what garbling and evaluating give. -/
theorem curiousClientV1_conn (C : Curve) (X : Crypto) (s : ServerDraws1) (c : ClientDraws1) (passwords : List Bytes)
    (password : Bytes) (len index t : Nat) (hdb : Database passwords len) (h0 : 0 < len) (hl24 : len < 2 ^ 24)
    (hpw : password.length = len) (hi : index < passwords.length) (hm : s.many.Valid X.dbg passwords.length)
    (hsg : s.g.Valid) (hco : c.ot.Valid) {circ : Circuit} {z : List (Wire × Wire)} {K K' : WireBytes} {S : List Bool}
    {gc gc' : GarbledCircuit} {d : DecodingKey} (H : Held2 X.toEnv s.g.rnd s.g.ord (len * 8) t circ z K gc gc' d)
    (hK' : evaluatedKey X.toEnv gc' (pick ((z.drop 0).take (len * 8)) (u8VecToBoolVec password) ++
      pick ((z.drop (len * 8)).take (len * 8)) (u8VecToBoolVec passwords[index])) = .ok K')
    (hS : sumBits2 (len * 8) gc' (pick ((z.drop 0).take (len * 8)) (u8VecToBoolVec password))
      (pick ((z.drop (len * 8)).take (len * 8)) (u8VecToBoolVec passwords[index])) = S) :
    Ends (garblerServerV1 C X s passwords t) (curiousClientV1 C X c password passwords.length index) K
      (K', List.zipWith xor (bitsOf password) S) := by
  have hil : passwords[index].length = len := hdb.lengths _ (List.getElem_mem hi)
  have ul : ∀ p : Bytes, p.length = len → (u8VecToBoolVec p).length = len * 8 := fun p h => by rw [unpack_length, h, Nat.mul_comm]
  have hz := H.length
  have pl : ∀ (off : Nat) (p : Bytes), off + len * 8 ≤ z.length → p.length = len →
      (pick ((z.drop off).take (len * 8)) (u8VecToBoolVec p)).length = len * 8 := by
    intro off p ho hp
    rw [pick_length (by rw [ul p hp]; simp; omega)]; simp; omega
  have hdb' : Database (passwords.map fun p => (pick ((z.drop (len * 8)).take (len * 8)) (u8VecToBoolVec p)).flatMap Wire.bytes)
      (32 * (len * 8)) := database_map hdb fun p hp => by rw [flatMap_bytes_length, pl _ _ (by omega) hp]
  obtain ⟨domain, d1, d2, hmany⟩ := manyRun_ends C X (base := c.many) hdb' (by simpa using hm)
    (index := index) (by simpa using hi) (by omega) (by omega)
  rw [List.length_map] at d1 d2
  rw [List.getElem_map] at hmany
  unfold garblerServerV1 curiousClientV1
  have h00 : passwords[0].length = len := hdb.lengths _ (List.getElem_mem (by omega))
  rw [idxR_ok (a := passwords[0]) (List.getElem?_eq_getElem (by omega)), liftM_ok, ret_bind]
  dsimp only
  rw [h00, hpw, H.built, liftM_ok, ret_bind, H.garbled, liftM_ok, ret_bind]
  dsimp only
  rw [sendP_bind, recvP_bind]
  refine .sendRecv ?_
  rw [labelPairs_ok (by omega), liftM_ok, ret_bind, H.sent, liftM_ok, ret_bind, bitsUpTo_ok hpw, liftM_ok, ret_bind]
  refine .bind (otChosen C X hsg.ot hco h0 (by omega) (by simp; omega) (ul _ hpw)) ?_
  rw [d1, liftM_ok, ret_bind, encodeAll_ok rfl hdb.lengths (by omega), liftM_ok, ret_bind, d2, liftM_ok, ret_bind]
  refine .bind hmany ?_
  rw [labelsOf_ok X.dbg (pick_mem H.binary _), liftM_ok, ret_bind, wiresFromBytes_ok X.dbg (pick_mem H.binary _), liftM_ok,
    ret_bind, H.swap _ _ (pl _ _ (by omega) hil) (pl _ _ (by omega) hpw) (pick_mem H.binary _) (pick_mem H.binary _), hK', H.key, liftM_ok, liftM_ok, ret_bind, hS]
  exact .ret _ _

/-- The messages when the client garbles, given what garbling and evaluating give. -/
theorem curiousServerV1_conn (C : Curve) (X : Crypto) (g : ClientGarbler1) (o : OTRecv) (passwords : List Bytes)
    (password : Bytes) (len index t : Nat) (hdb : ∀ p ∈ passwords, p.length = len) (h0 : 0 < len) (hl24 : len < 2 ^ 24)
    (hcount : X.dbg = true → 2 ≤ passwords.length) (hcount' : passwords.length < 2 ^ 32)
    (hpw : password.length = len) (hi : index < passwords.length) (hg : g.g.Valid) (ho : o.Valid)
    {circ : Circuit} {z : List (Wire × Wire)} {K K' : WireBytes} {S : List Bool}
    {gc gc' : GarbledCircuit} {d : DecodingKey} (H : Held2 X.toEnv g.g.rnd g.g.ord (len * 8) t circ z K gc gc' d)
    (hK' : evaluatedKey X.toEnv gc' (pick ((z.drop 0).take (len * 8)) (u8VecToBoolVec password) ++
      pick ((z.drop (len * 8)).take (len * 8)) (u8VecToBoolVec passwords[index])) = .ok K')
    (hS : sumBits2 (len * 8) gc' (pick ((z.drop 0).take (len * 8)) (u8VecToBoolVec password))
      (pick ((z.drop (len * 8)).take (len * 8)) (u8VecToBoolVec passwords[index])) = S) :
    Ends (curiousServerV1 C X o passwords) (garblerClientV1 C X g password index passwords.length t) (K', S) K := by
  have hil : passwords[index].length = len := hdb _ (List.getElem_mem hi)
  have ul : ∀ p : Bytes, p.length = len → (u8VecToBoolVec p).length = len * 8 := fun p h => by rw [unpack_length, h, Nat.mul_comm]
  refine Ends.swap ?_
  have hz := H.length
  have pl : ∀ (off : Nat) (p : Bytes), off + len * 8 ≤ z.length → p.length = len →
      (pick ((z.drop off).take (len * 8)) (u8VecToBoolVec p)).length = len * 8 := by
    intro off p ho hp
    rw [pick_length (by rw [ul p hp]; simp; omega)]; simp; omega
  unfold garblerClientV1 curiousServerV1
  have h00 : passwords[0].length = len := hdb _ (List.getElem_mem (by omega))
  rw [idxR_ok (a := passwords[0]) (List.getElem?_eq_getElem (by omega)), liftM_ok, ret_bind]
  dsimp only
  rw [h00, hpw, H.built, liftM_ok, ret_bind, H.garbled, liftM_ok, ret_bind]
  dsimp only
  rw [labelPairs_ok (by omega), liftM_ok, ret_bind, bitsUpTo_ok hpw, liftM_ok, ret_bind,
    labelsAt_ok (by rw [ul _ hpw]; omega), liftM_ok, ret_bind, ul _ hpw, sendP_bind, recvP_bind]
  refine .sendRecv ?_
  rw [H.sent, liftM_ok, ret_bind, sendP_bind, recvP_bind]
  refine .sendRecv ?_
  rw [deserialize_ok wires_rt ⟨by rw [pl _ _ (by omega) hpw]; omega, fun w hw => binary_fits (pick_mem H.binary _ w hw)⟩, liftM_ok,
    ret_bind]
  obtain ⟨rows, rows', hb1, hsame, hb2, hb3, hb4⟩ := blindingKeys_any X.dbg g.keys (bits := len * 8) hcount hcount' hi
  have hreal : (bytePairs ((z.drop (len * 8)).take (len * 8))).length = len * 8 := by simp [bytePairs]; omega
  have hreal' : ∀ m ∈ bytePairs ((z.drop (len * 8)).take (len * 8)), m.1.length = 32 ∧ m.2.length = 32 := by
    intro m hm
    obtain ⟨w, -, rfl⟩ := List.mem_map.mp hm
    simp [Wire.bytes]
  rw [hb1, liftM_ok, ret_bind, hsame, selectKeys_ok hreal hb2 hb3 hi, liftM_ok, ret_bind, allBits_ok hdb, liftM_ok, ret_bind]
  obtain ⟨e1, e2, e3⟩ := blinded_pairs hreal hreal' hb2 hb3 hdb hi
  refine .bind ((ot_correct C X hg.ot ho (n := passwords.length * (len * 8)) (Nat.mul_pos (by omega) (by omega))
    (by rw [← Nat.mul_assoc]; exact Nat.mul_mod_left _ _) ?_) _ _ e1 e2 e3).ends ?_
  · have h1 : passwords.length * (len * 8) ≤ 2 ^ 32 * (len * 8) := Nat.mul_le_mul_right _ (by omega)
    have h2 : 2 ^ 32 * (len * 8) < 2 ^ 32 * 2 ^ 32 := Nat.mul_lt_mul_of_pos_left (by omega) (by decide)
    omega
  have hun := unblind_ok X.dbg (real := bytePairs ((z.drop (len * 8)).take (len * 8))) (index := index) hreal hreal' hb2 hb3 hb4
    hdb hi
  rw [hun, liftM_ok, ret_bind, chosen_bytePairs, payloadToEncoding_ok X.dbg (pick_mem H.binary _) (pl _ _ (by omega) hil),
    liftM_ok, ret_bind, H.swap _ _ (pl _ _ (by omega) hil) (pl _ _ (by omega) hpw) (pick_mem H.binary _) (pick_mem H.binary _),
    hK', H.key, liftM_ok, liftM_ok, ret_bind, hS]
  exact .ret _ _

/-- The messages when the client garbles, given what garbling and evaluating give. -/
theorem curiousServerV2_conn (C : Curve) (X : Crypto) (g : ClientGarbler2) (s : ServerEvaluator2) (passwords : List Bytes)
    (password : Bytes) (len index t : Nat) (hdb : Database passwords len) (h0 : 0 < len) (hl32 : len < 2 ^ 32)
    (hpw : password.length = len) (hi : index < passwords.length) (hm : s.many.Valid X.dbg passwords.length) (hg : g.g.Valid)
    (ho : s.ot.Valid) {circ : Circuit} {z : List (Wire × Wire)} {K K' : WireBytes} {S : List Bool}
    {gc gc' : GarbledCircuit} {d : DecodingKey} (H : Held3 X.toEnv g.g.rnd g.g.ord (len * 8) t circ z K gc gc' d)
    (hK' : evaluatedKey X.toEnv gc' (pick (z.take (len * 8)) (u8VecToBoolVec (xorB (drawMask s.mask len) passwords[index])) ++
      pick ((z.drop (len * 8)).take (len * 8)) (u8VecToBoolVec (drawMask s.mask len)) ++
      pick (z.drop (len * 8 * 2)) (u8VecToBoolVec password)) = .ok K')
    (hS : sumBits3 (len * 8) gc' (pick (z.take (len * 8)) (u8VecToBoolVec (xorB (drawMask s.mask len) passwords[index])))
      (pick ((z.drop (len * 8)).take (len * 8)) (u8VecToBoolVec (drawMask s.mask len)))
      (pick (z.drop (len * 8 * 2)) (u8VecToBoolVec password)) = S) :
    Ends (curiousServerV2 C X s passwords) (garblerClientV2 C X g password index passwords.length t) (K', S) K := by
  have hmask := drawMask_length s.mask len
  generalize hmm : drawMask s.mask len = mask at hmask hK' hS ⊢
  have hil : passwords[index].length = len := hdb.lengths _ (List.getElem_mem hi)
  have hxl : (xorB mask passwords[index]).length = len := by rw [xorB_length (by omega), hil]
  have ul : ∀ p : Bytes, p.length = len → (u8VecToBoolVec p).length = len * 8 := fun p h => by rw [unpack_length, h, Nat.mul_comm]
  refine Ends.swap ?_
  have hz := H.length
  have pl : ∀ (off : Nat) (p : Bytes), off + len * 8 ≤ z.length → p.length = len →
      (pick ((z.drop off).take (len * 8)) (u8VecToBoolVec p)).length = len * 8 := by
    intro off p ho hp
    rw [pick_length (by rw [ul p hp]; simp; omega)]; simp; omega
  obtain ⟨domain, d1, d2, hmany⟩ := manyRun_ends C X (base := g.many) (Database.map hdb hmask) (by simpa using hm)
    (index := index) (by simpa using hi) h0 hl32
  rw [List.length_map] at d1 d2
  rw [List.getElem_map] at hmany
  unfold garblerClientV2 curiousServerV2
  have h00 : passwords[0].length = len := hdb.lengths _ (List.getElem_mem (by omega))
  rw [idxR_ok (a := passwords[0]) (List.getElem?_eq_getElem (by omega)), liftM_ok, ret_bind]
  dsimp only
  rw [h00, hpw, hmm]
  rw [H.built, liftM_ok, ret_bind, H.garbled, liftM_ok, ret_bind, bitsUpTo_ok hpw, liftM_ok, ret_bind]
  dsimp only
  rw [labelsAt_ok (by rw [ul _ hpw]; omega), liftM_ok, ret_bind, ul _ hpw, sendP_bind, recvP_bind]
  refine .sendRecv ?_
  rw [H.sent, liftM_ok, ret_bind, sendP_bind, recvP_bind]
  refine .sendRecv ?_
  rw [deserialize_ok wires_rt ⟨by rw [pl _ _ (by omega) hpw]; omega, fun w hw => binary_fits (pick_mem H.binary _ w hw)⟩, liftM_ok,
    ret_bind, labelPairs_ok (by omega), liftM_ok, ret_bind, bitsUpTo_ok hmask, liftM_ok, ret_bind,
    maskPasswords_ok X.dbg hmask hdb.lengths, liftM_ok, ret_bind]
  refine .bind (otChosen C X hg.ot ho h0 (by omega) (by simp; omega) (ul _ hmask)) ?_
  rw [d1, liftM_ok, ret_bind, d2, liftM_ok, ret_bind]
  refine .bind hmany.swap ?_
  rw [idxR_ok (a := z[0]) (List.getElem?_eq_getElem (by omega)), liftM_ok, ret_bind, encodeRows_ok X.dbg (by omega) (by omega),
    liftM_ok, ret_bind, sendP_bind, recvP_bind]
  refine .sendRecv ?_
  have hp3 := pl (len * 8) _ (by omega) hmask
  rw [idxR_ok (a := (pick ((z.drop (len * 8)).take (len * 8)) (u8VecToBoolVec mask))[0].bytes)
    (by rw [List.getElem?_map, List.getElem?_eq_getElem (by omega)]; rfl), liftM_ok, ret_bind]
  have hw32 : ∀ w : Wire, w.bytes.length = 32 := by intro w; simp [Wire.bytes]
  rw [hw32, payloadToEncoding_ok X.dbg (pick_mem H.binary _) hp3, liftM_ok, ret_bind,
    bytesToEncoding_ok X.dbg (pick_mem H.binary _) (pl 0 _ (by omega) hxl), liftM_ok, ret_bind, H.key]
  rw [List.drop_zero, List.take_of_length_le (l := z.drop (len * 8 * 2)) (by simp; omega), hK', liftM_ok, liftM_ok, ret_bind, hS]
  exact .ret _ _

/-- Both halves of the first implementation. -/
theorem serverV1_curious (C : Curve) (X : Crypto) (s : ServerDraws1) (c : ClientDraws1) (passwords : List Bytes) (password : Bytes)
    (len index t : Nat) (hdb : Database passwords len) (hlen : GoodLength len) (hpw : password.length = len)
    (hi : index < passwords.length) (hm : s.many.Valid X.dbg passwords.length) (hsg : s.g.Valid)
    (hco : c.ot.Valid) (ht : t < 65535) :
    ∃ k k', Ends (garblerServerV1 C X s passwords t) (evaluatorClientV1 C X c password passwords.length index) k k' ∧
      Ends (garblerServerV1 C X s passwords t) (curiousClientV1 C X c password passwords.length index) k
        (k', bitsOf passwords[index]) := by
  obtain ⟨h0, -⟩ := good_fits hlen
  obtain ⟨-, hn', hD⟩ := goodLength hlen
  have hil : passwords[index].length = len := hdb.lengths _ (List.getElem_mem hi)
  rw [Nat.mul_comm 8 len] at hn' hD
  have ul : ∀ p : Bytes, p.length = len → (u8VecToBoolVec p).length = len * 8 := fun p h => by rw [unpack_length, h, Nat.mul_comm]
  obtain ⟨z, K, gc, gc', d, H, hev⟩ := sum2 X.toEnv s.g.rnd s.g.ord hsg.ord (n := len * 8) (t := t) (by omega) hn' hD ht
  obtain ⟨⟨K', hK'⟩, hS⟩ := hev _ _ (ul password hpw) (ul _ hil)
  have hl24 : len < 2 ^ 24 := by unfold GoodLength at hlen; omega
  have h2 := curiousClientV1_conn C X s c passwords password len index t hdb h0 hl24 hpw hi hm hsg hco H hK' hS
  rw [bitsOf_unpack, bitsOf_unpack, show xorBits (bitsOf password) (bitsOf passwords[index]) =
    List.zipWith xor (bitsOf password) (bitsOf passwords[index]) from rfl, ← bitsOf_xorB (by omega), xor_mask' (by omega)] at h2
  exact ⟨K, K', serverV1_conn C X s c passwords password len index t hdb h0 hl24 hpw hi hm hsg hco H hK', h2⟩

theorem clientV1_curious (C : Curve) (X : Crypto) (g : ClientGarbler1) (o : OTRecv) (passwords : List Bytes)
    (password : Bytes) (len index t : Nat) (hdb : ∀ p ∈ passwords, p.length = len) (hlen : GoodLength len)
    (hcount : X.dbg = true → 2 ≤ passwords.length) (hcount' : passwords.length < 2 ^ 32)
    (hpw : password.length = len) (hi : index < passwords.length) (hg : g.g.Valid) (ho : o.Valid) (ht : t < 65535) :
    ∃ k k', Ends (evaluatorServerV1 C X o passwords) (garblerClientV1 C X g password index passwords.length t) k k' ∧
      Ends (curiousServerV1 C X o passwords) (garblerClientV1 C X g password index passwords.length t)
        (k, List.zipWith xor (bitsOf passwords[index]) (bitsOf password)) k' := by
  obtain ⟨h0, -⟩ := good_fits hlen
  obtain ⟨-, hn', hD⟩ := goodLength hlen
  have hil : passwords[index].length = len := hdb _ (List.getElem_mem hi)
  rw [Nat.mul_comm 8 len] at hn' hD
  have ul : ∀ p : Bytes, p.length = len → (u8VecToBoolVec p).length = len * 8 := fun p h => by rw [unpack_length, h, Nat.mul_comm]
  obtain ⟨z, K, gc, gc', d, H, hev⟩ := sum2 X.toEnv g.g.rnd g.g.ord hg.ord (n := len * 8) (t := t) (by omega) hn' hD ht
  obtain ⟨⟨K', hK'⟩, hS⟩ := hev _ _ (ul password hpw) (ul _ hil)
  have hl24 : len < 2 ^ 24 := by unfold GoodLength at hlen; omega
  have h2 := curiousServerV1_conn C X g o passwords password len index t hdb h0 hl24 hcount hcount' hpw hi hg ho H hK' hS
  rw [bitsOf_unpack, bitsOf_unpack, show xorBits (bitsOf password) (bitsOf passwords[index]) =
    List.zipWith xor (bitsOf password) (bitsOf passwords[index]) from rfl,
    List.zipWith_comm_of_comm (f := xor) Bool.xor_comm] at h2
  exact ⟨K', K, clientV1_conn C X g o passwords password len index t hdb h0 hl24 hcount hcount' hpw hi hg ho H hK', h2⟩

/-- The evaluating server of the second implementation. -/
theorem clientV2_curious (C : Curve) (X : Crypto) (g : ClientGarbler2) (s : ServerEvaluator2) (passwords : List Bytes)
    (password : Bytes) (len index t : Nat) (hdb : Database passwords len) (hlen : GoodLength len)
    (hpw : password.length = len) (hi : index < passwords.length) (hm : s.many.Valid X.dbg passwords.length) (hg : g.g.Valid)
    (ho : s.ot.Valid) (ht : t < 65535) :
    ∃ k k', Ends (evaluatorServerV2 C X s passwords) (garblerClientV2 C X g password index passwords.length t) k k' ∧
      Ends (curiousServerV2 C X s passwords) (garblerClientV2 C X g password index passwords.length t)
        (k, List.zipWith xor (bitsOf passwords[index]) (bitsOf password)) k' := by
  obtain ⟨h0, hl32⟩ := good_fits hlen
  obtain ⟨-, hn', hD⟩ := goodLength hlen
  have hmask := drawMask_length s.mask len
  have hil : passwords[index].length = len := hdb.lengths _ (List.getElem_mem hi)
  have hxl : (xorB (drawMask s.mask len) passwords[index]).length = len := by rw [xorB_length (by omega), hil]
  rw [Nat.mul_comm 8 len] at hn' hD
  have ul : ∀ p : Bytes, p.length = len → (u8VecToBoolVec p).length = len * 8 := fun p h => by rw [unpack_length, h, Nat.mul_comm]
  obtain ⟨z, K, gc, gc', d, H, hev⟩ := sum3 X.toEnv g.g.rnd g.g.ord hg.ord (n := len * 8) (t := t) (by omega) hn' hD ht
  obtain ⟨⟨K', hK'⟩, hS⟩ := hev _ _ _ (ul _ hxl) (ul _ hmask) (ul password hpw)
  rw [(sum_masks (by omega) (by omega)).2] at hS
  exact ⟨K', K, clientV2_conn C X g s passwords password len index t hdb h0 hl32 hpw hi hm hg ho H hK',
    curiousServerV2_conn C X g s passwords password len index t hdb h0 hl32 hpw hi hm hg ho H hK' hS⟩

end FP
