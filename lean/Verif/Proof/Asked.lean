import Verif.Spec.Asked
import Verif.Proof.ViewsHalf
import Verif.Proof.CuriousMany
import Verif.Proof.Entries
/-
What the evaluating parties of the third one-of-many implementation hold, for inputs with the same exclusive or.
-/
namespace FP
open Spec Props

/-- Garbling a circuit of bits for inputs that agree at the tables. -/
theorem circuit_other (E : Env) (rnd : GarbleRand) {c : Circuit} (hc : WellTyped c) (hbin : ∀ d ∈ c.inputDomains, d = 2)
    (hpos : 0 < c.numInputs) (hone : c.numOutputs = 1)
    (hdom : (c.inputDomains ++ c.gates.map Gate.outputDomain)[c.numWires - 1]? = some 2)
    (hdl : c.inputDomains.length = c.numInputs) {a a' : List Bool} (hbl : a.length = c.numInputs) (hbl' : a'.length = c.numInputs)
    (hsame : SameAtTables c (bitsNat a) (bitsNat a')) (hmean : meaning c (bitsNat a') = meaning c (bitsNat a)) :
    ∃ run run' z z' d K K', garbleRun E rnd c = .ok run ∧
      garbleRun E (otherDraws c (bitsNat a) (bitsNat a') rnd) c = .ok run' ∧
      garbleBinary E rnd c = .ok (⟨c, run.state.f, run.state.fHalf⟩, z, d) ∧
      garbleBinary E (otherDraws c (bitsNat a) (bitsNat a') rnd) c = .ok (⟨c, run'.state.f, run'.state.fHalf⟩, z', d) ∧
      run'.state.f = run.state.f ∧ run'.state.fHalf = run.state.fHalf ∧
      z.length = c.numInputs ∧ z'.length = c.numInputs ∧ (∀ p ∈ z, p.1.domain = .binary ∧ p.2.domain = .binary) ∧
      (∀ p ∈ z', p.1.domain = .binary ∧ p.2.domain = .binary) ∧ outputKey d = .ok K ∧
      pick z' a' = pick z a ∧
      evaluatedKey E ⟨c, run.state.f, run.state.fHalf⟩ (pick z a) = .ok K' := by
  generalize hrnd : otherDraws c (bitsNat a)
    (bitsNat a') rnd = rnd'
  have detail : ∀ (rnd : GarbleRand) (bits : List Bool), bits.length = c.numInputs → ∃ run z d K K', garbleRun E rnd c = .ok run ∧
      RunOK E c run ∧
      garbleBinary E rnd c = .ok (⟨c, run.state.f, run.state.fHalf⟩, z, d) ∧
      d = ⟨run.state.d, run.outputsStartAt⟩ ∧ z.length = c.numInputs ∧
      (∀ p ∈ z, p.1.domain = .binary ∧ p.2.domain = .binary) ∧ outputKey d = .ok K ∧
      evaluatedKey E ⟨c, run.state.f, run.state.fHalf⟩ (pick z bits) = .ok K' ∧
      InputOK c (bitsNat bits) ∧ (pick z bits).length = c.numInputs ∧
        ∀ (i m : Nat), c.inputDomains[i]? = some m → ∃ zi w v, run.encWires[i]? = some zi ∧
          (pick z bits)[i]? = some w ∧ (bitsNat bits)[i]? = some v ∧ Carries run.delta m zi v w := by
    intro rnd bits hb
    obtain ⟨run, z, d, zl, w1, hrun, hok, hgb, hzl, hzb, hK, hzw, hlab, hcar, henc⟩ := half_detail E rnd hc
      hbin hpos hone hdom
    obtain ⟨run', z', d', K, hrun', hgb', -, -, hK2, hev⟩ := half_key E rnd hc hbin hpos hone hdom
    rw [hrun] at hrun'
    obtain rfl := Except.ok.inj hrun'
    have hgb2 := hgb
    rw [hgb] at hgb'
    have hzz := Except.ok.inj hgb'
    obtain rfl : z = z' := congrArg (fun t => t.2.1) hzz
    obtain rfl : d = d' := congrArg (fun t => t.2.2) hzz
    obtain ⟨K', hK', -, -⟩ := hev _ hb
    obtain ⟨hin, hXl, hXi⟩ := henc _ hb
    refine ⟨run, z, d, K, K', hrun, hok, hgb, ?_, hzl, hzb, hK2, hK', hin, hXl, hXi⟩
    unfold garbleBinary at hgb2
    rw [garble_of_run hrun, okb] at hgb2
    simp only at hgb2
    cases hk : (BinaryEncodingKey.ofKey E.dbg ⟨run.encWires, run.delta⟩) with
    | error e => rw [hk] at hgb2; cases hgb2
    | ok bk =>
      rw [hk, okb] at hgb2
      cases hz : bk.zipped with
      | error e => rw [hz] at hgb2; cases hgb2
      | ok z => rw [hz, okb] at hgb2; cases hgb2; rfl
  obtain ⟨run, z, d, K, K', a1, a2, a3, a4, a5, a6, a7, a8, a9, a10, a11⟩ := detail rnd _ hbl
  obtain ⟨run', z', d', L, L', b1, b2, b3, b4, b5, b6, b7, b8, b9, b10, b11⟩ := detail rnd' _ hbl'
  have b1' := b1
  rw [← hrnd] at b1'
  obtain ⟨e1, e2, e3⟩ : run'.state.f = run.state.f ∧ run'.state.fHalf = run.state.fHalf ∧ run'.state.d = run.state.d := by
    have := (twin_run (E := E) hc a9 b9 hsame rnd).2 hmean
    obtain ⟨-, X, h1, h2, -⟩ := other_encode hc a9 b9 a1 b1' a2 b2
    unfold decoderView at this
    simp only at this
    rw [garble_of_run a1, garble_of_run b1', okb, okb] at this
    simp only at this
    rw [h1, h2] at this
    have := Except.ok.inj this
    simp only [Prod.mk.injEq, GarbledCircuit.mk.injEq, DecodingKey.mk.injEq] at this
    exact ⟨this.1.2.1, this.1.2.2, this.2.2.1⟩
  obtain ⟨f1, X, -, -, hXl, hX⟩ := other_encode hc a9 b9 a1 b1' a2 b2
  have hst : run'.outputsStartAt = run.outputsStartAt := by rw [a2.start, b2.start]
  obtain rfl : d' = d := by rw [a4, b4, e3, hst]
  rw [a7] at b7
  obtain rfl := Except.ok.inj b7
  have hpk : pick z' a' = pick z a := by
    apply List.ext_getElem?
    intro i
    by_cases hi : i < c.numInputs
    · have hdom : c.inputDomains[i]? = some 2 := by
        rw [List.getElem?_eq_getElem (by omega), hbin _ (List.getElem_mem _)]
      obtain ⟨y1, w1, v1, c1, c2, c3, c4⟩ := a11 i 2 hdom
      obtain ⟨y2, w2, v2, d1, d2, d3, d4⟩ := b11 i 2 hdom
      obtain ⟨y, y', w, v, v', g1, g2, g3, g4, g5, g6, g7⟩ := hX i 2 hdom
      obtain ⟨δ, hδ, -⟩ := a2.deltas 2 (hc.inputGood 2 (List.mem_of_getElem? hdom)).2
      rw [c1] at g1; obtain rfl := Option.some.inj g1
      rw [d1] at g2; obtain rfl := Option.some.inj g2
      rw [c3] at g4; obtain rfl := Option.some.inj g4
      rw [d3] at g5; obtain rfl := Option.some.inj g5
      rw [f1] at d4 g7
      have h1 : w1 = w := label_ext c4.lab g6.lab fun i => by rw [c4.eq δ hδ, g6.eq δ hδ]
      have h2 : w2 = w := label_ext d4.lab g7.lab fun i => by rw [d4.eq δ hδ, g7.eq δ hδ]
      rw [c2, d2, h1, h2]
    · rw [List.getElem?_eq_none (by omega), List.getElem?_eq_none (by omega)]
  exact ⟨run, run', z, z', d', K, K', a1, b1, a3, b3, e1, e2, a5, b5, a6, b6, a7, hpk, a8⟩

/-- The messages when the server garbles, given what garbling and evaluating give. -/
theorem recorderClientV3_conn (C : Curve) (X : Crypto) (s : ServerDraws) (c : ClientDraws) (passwords : List Bytes) (password : Bytes)
    (len index t : Nat) (hdb : Database passwords len) (h0 : 0 < len) (hl32 : len < 2 ^ 32) (hpw : password.length = len)
    (hi : index < passwords.length) (hm : s.many.Valid X.dbg passwords.length) (hsg : s.g.Valid) (hs2 : s.ot2.Valid)
    (hco : c.ot.Valid) (hco2 : c.ot2.Valid) {circ : Circuit} {z : List (Wire × Wire)} {K K' : WireBytes}
    {gc gc' : GarbledCircuit} {d : DecodingKey}
    (H : Held3 X.toEnv s.g.rnd s.g.ord (len * 8) t circ z K gc gc' d)
    (hK' : evaluatedKey X.toEnv gc' (pick (z.take (len * 8)) (u8VecToBoolVec password) ++
      pick ((z.drop (len * 8)).take (len * 8)) (u8VecToBoolVec (drawMask s.mask len)) ++
      pick (z.drop (len * 8 * 2)) (u8VecToBoolVec (xorB (drawMask s.mask len) passwords[index]))) = .ok K') :
    Ends (garblerServerV3 C X s passwords t) (recorderClientV3 C X c password passwords.length index)
      (K, drawMask s.mask len) (xorB (drawMask s.mask len) passwords[index],
        ⟨gc', pick (z.take (len * 8)) (u8VecToBoolVec password),
          pick ((z.drop (len * 8)).take (len * 8)) (u8VecToBoolVec (drawMask s.mask len)),
          pick (z.drop (len * 8 * 2)) (u8VecToBoolVec (xorB (drawMask s.mask len) passwords[index])), K'⟩) := by
  have hmask := drawMask_length s.mask len
  generalize hmm : drawMask s.mask len = mask at hmask hK' ⊢
  have hil : passwords[index].length = len := hdb.lengths _ (List.getElem_mem hi)
  have hxl : (xorB mask passwords[index]).length = len := by rw [xorB_length (by omega), hil]
  have ul : ∀ p : Bytes, p.length = len → (u8VecToBoolVec p).length = len * 8 := fun p h => by rw [unpack_length, h, Nat.mul_comm]
  obtain ⟨domain, d1, d2, hmany⟩ := manyRun_ends C X (base := c.many) (Database.map hdb hmask) (by simpa using hm)
    (index := index) (by simpa using hi) h0 hl32
  rw [List.length_map] at d1 d2
  rw [List.getElem_map] at hmany
  have hz := H.length
  unfold garblerServerV3 recorderClientV3
  have h00 : passwords[0].length = len := hdb.lengths _ (List.getElem_mem (by omega))
  rw [idxR_ok (a := passwords[0]) (List.getElem?_eq_getElem (by omega)), liftM_ok, ret_bind]
  dsimp only
  rw [h00, hmm, hpw]
  rw [H.built, liftM_ok, ret_bind, H.garbled, liftM_ok, ret_bind]
  dsimp only
  rw [sendP_bind, recvP_bind]
  refine .sendRecv ?_
  rw [labelPairs_ok (by omega), liftM_ok, ret_bind, H.sent, liftM_ok, ret_bind, bitsUpTo_ok hpw, liftM_ok, ret_bind]
  refine .bind (otChosen C X hsg.ot hco h0 (by omega) (by simp; omega) (ul _ hpw)) ?_
  rw [encodeRows_ok X.dbg (by omega) (by omega), liftM_ok, ret_bind, sendP_bind, recvP_bind]
  refine .sendRecv ?_
  rw [d1, liftM_ok, ret_bind, maskPasswords_ok X.dbg hmask hdb.lengths, liftM_ok, ret_bind, d2, liftM_ok, ret_bind]
  refine .bind hmany ?_
  rw [labelPairs_ok (by omega), liftM_ok, ret_bind, bitsUpTo_ok hxl, liftM_ok, ret_bind]
  refine .bind (otChosen C X hs2 hco2 h0 (by omega) (by simp; omega) (ul _ hxl)) ?_
  have pl : ∀ (off : Nat) (p : Bytes), off + len * 8 ≤ z.length → p.length = len →
      (pick ((z.drop off).take (len * 8)) (u8VecToBoolVec p)).length = len * 8 := by
    intro off p ho hp
    rw [pick_length (by rw [ul p hp]; simp; omega)]; simp; omega
  have hp3 := pl (len * 8 * 2) _ (by omega) hxl
  rw [idxR_ok (a := (pick ((z.drop (len * 8 * 2)).take (len * 8)) (u8VecToBoolVec (xorB mask passwords[index])))[0].bytes)
    (by rw [List.getElem?_map, List.getElem?_eq_getElem (by omega)]; rfl), liftM_ok, ret_bind]
  have hw32 : ∀ w : Wire, w.bytes.length = 32 := by intro w; simp [Wire.bytes]
  rw [hw32, payloadToEncoding_ok X.dbg (pick_mem H.binary _) (pl 0 _ (by omega) hpw), liftM_ok, ret_bind,
    bytesToEncoding_ok X.dbg (pick_mem H.binary _) (pl _ _ (by omega) hmask), liftM_ok, ret_bind,
    payloadToEncoding_ok X.dbg (pick_mem H.binary _) hp3, liftM_ok, ret_bind, H.key, liftM_ok, ret_bind]
  rw [List.drop_zero, List.take_of_length_le (l := z.drop (len * 8 * 2)) (by simp; omega), hK', liftM_ok, ret_bind]
  exact .ret _ _

/-- The messages when the client garbles, given what garbling and evaluating give. -/
theorem recorderServerV3_conn (C : Curve) (X : Crypto) (g : GarblerDraws) (o : OTRecv) (passwords : List Bytes)
    (password mask : Bytes) (len index number t : Nat) (hdb : ∀ p ∈ passwords, p.length = len) (h0 : 0 < len)
    (hl32 : len < 2 ^ 32) (hpw : password.length = len) (hmask : mask.length = len) (hi : index < passwords.length)
    (hg : g.Valid) (ho : o.Valid) {circ : Circuit} {z : List (Wire × Wire)} {K K' : WireBytes}
    {gc gc' : GarbledCircuit} {d : DecodingKey} (H : Held3 X.toEnv g.rnd g.ord (len * 8) t circ z K gc gc' d)
    (hK' : evaluatedKey X.toEnv gc' (pick (z.take (len * 8)) (u8VecToBoolVec (xorB mask passwords[index])) ++
      pick ((z.drop (len * 8)).take (len * 8)) (u8VecToBoolVec mask) ++
      pick (z.drop (len * 8 * 2)) (u8VecToBoolVec password)) = .ok K') :
    Ends (recorderServerV3 C X o passwords mask)
      (garblerClientV3 C X g password (xorB mask passwords[index]) index number t)
      ⟨gc', pick (z.take (len * 8)) (u8VecToBoolVec (xorB mask passwords[index])),
        pick ((z.drop (len * 8)).take (len * 8)) (u8VecToBoolVec mask), pick (z.drop (len * 8 * 2)) (u8VecToBoolVec password), K'⟩ K := by
  have hil : passwords[index].length = len := hdb _ (List.getElem_mem hi)
  have hxl : (xorB mask passwords[index]).length = len := by rw [xorB_length (by omega), hil]
  have ul : ∀ p : Bytes, p.length = len → (u8VecToBoolVec p).length = len * 8 := fun p h => by rw [unpack_length, h, Nat.mul_comm]
  refine Ends.swap ?_
  have hz := H.length
  have pl : ∀ (off : Nat) (p : Bytes), off + len * 8 ≤ z.length → p.length = len →
      (pick ((z.drop off).take (len * 8)) (u8VecToBoolVec p)).length = len * 8 := by
    intro off p ho hp
    rw [pick_length (by rw [ul p hp]; simp; omega)]; simp; omega
  unfold garblerClientV3 recorderServerV3
  have h00 : passwords[0].length = len := hdb _ (List.getElem_mem (by omega))
  rw [idxR_ok (a := passwords[0]) (List.getElem?_eq_getElem (by omega)), liftM_ok, ret_bind]
  dsimp only
  rw [h00, hpw]
  rw [H.built, liftM_ok, ret_bind, H.garbled, liftM_ok, ret_bind, bitsUpTo_ok hpw, liftM_ok, ret_bind]
  dsimp only
  rw [labelsAt_ok (by rw [ul _ hpw]; omega), liftM_ok, ret_bind, ul _ hpw, sendP_bind, recvP_bind]
  refine .sendRecv ?_
  rw [H.sent, liftM_ok, ret_bind, sendP_bind, recvP_bind]
  refine .sendRecv ?_
  rw [deserialize_ok wires_rt ⟨by rw [pl _ _ (by omega) hpw]; omega, fun w hw => binary_fits (pick_mem H.binary _ w hw)⟩, liftM_ok,
    ret_bind, labelPairs_ok (by omega), liftM_ok, ret_bind, bitsUpTo_ok hmask, liftM_ok, ret_bind]
  refine .bind (otChosen C X hg.ot ho h0 (by omega) (by simp; omega) (ul _ hmask)) ?_
  rw [idxR_ok (a := z[0]) (List.getElem?_eq_getElem (by omega)), liftM_ok, ret_bind, encodeRows_ok X.dbg (by omega) (by omega),
    liftM_ok, ret_bind, sendP_bind, recvP_bind]
  refine .sendRecv ?_
  have hp3 := pl (len * 8) _ (by omega) hmask
  rw [idxR_ok (a := (pick ((z.drop (len * 8)).take (len * 8)) (u8VecToBoolVec mask))[0].bytes)
    (by rw [List.getElem?_map, List.getElem?_eq_getElem (by omega)]; rfl), liftM_ok, ret_bind]
  have hw32 : ∀ w : Wire, w.bytes.length = 32 := by intro w; simp [Wire.bytes]
  rw [hw32, payloadToEncoding_ok X.dbg (pick_mem H.binary _) hp3, liftM_ok, ret_bind,
    bytesToEncoding_ok X.dbg (pick_mem H.binary _) (pl 0 _ (by omega) hxl), liftM_ok, ret_bind, H.key]
  rw [List.drop_zero, List.take_of_length_le (l := z.drop (len * 8 * 2)) (by simp; omega), hK', liftM_ok, liftM_ok, ret_bind]
  exact .ret _ _


theorem pick3 {z : List (Wire × Wire)} {n : Nat} (hz : z.length = n * 3) {a b c : List Bool} (ha : a.length = n)
    (hb : b.length = n) (hc : c.length = n) :
    pick (z.take n) a ++ pick ((z.drop n).take n) b ++ pick (z.drop (n * 2)) c = pick z (a ++ b ++ c) := by
  have e1 := pick_append (z := z) (a := a ++ b) (b := c) (by simp [ha, hb, hc]; omega)
  have e2 := pick_append (z := z.take (n + n)) (a := a) (b := b) (by simp [ha, hb]; omega)
  rw [List.length_append, ha, hb] at e1
  rw [ha] at e2
  rw [← e1, ← e2]
  rw [List.take_take, Nat.min_eq_left (by omega), List.drop_take, Nat.add_sub_cancel_left, Nat.mul_two]

theorem drawn_bits3 {n D T len : Nat} (hn : n = len * 8) {r : GarbleRand} : Drawn (thrCircuit3 n D T) r ↔ DrawnBits3 len r := by
  constructor
  · intro h i hi
    exact h i 2 (by
      show (List.replicate (n * 3) 2)[i]? = some 2
      rw [List.getElem?_replicate, if_pos (by omega)])
  · intro h i m hm
    change (List.replicate (n * 3) 2)[i]? = some m at hm
    obtain ⟨h1, h2⟩ := List.getElem?_eq_some_iff.mp hm
    rw [List.getElem_replicate] at h2
    subst h2
    rw [List.length_replicate] at h1
    exact h i (by omega)

/-- The circuit of three inputs, garbled for inputs with the same exclusive or. -/
theorem three_other (E : Env) (rnd : GarbleRand) (ord : MapOrder) (hord : ord.Valid) {n t : Nat} (hn : 0 < n) (hn' : n < 65535)
    (hD : GoodDomain (n + 1)) (ht : t < 65535) {a b c a' b' c' : List Bool} (ha : a.length = n) (hb : b.length = n)
    (hc : c.length = n) (ha' : a'.length = n) (hb' : b'.length = n) (hc' : c'.length = n)
    (hx : xorBits (xorBits a' b') c' = xorBits (xorBits a b) c) :
    ∃ z z' K K' gc gc' d, Held3 E rnd ord n t (thrCircuit3 n (n + 1) (t + 1)) z K gc gc' d ∧
      Held3 E (otherDraws (thrCircuit3 n (n + 1) (t + 1)) (bitsNat (a ++ b ++ c)) (bitsNat (a' ++ b' ++ c')) rnd) ord n t
        (thrCircuit3 n (n + 1) (t + 1)) z' K gc gc' d ∧
      pick (z'.take n) a' = pick (z.take n) a ∧ pick ((z'.drop n).take n) b' = pick ((z.drop n).take n) b ∧
      pick (z'.drop (n * 2)) c' = pick (z.drop (n * 2)) c ∧
      evaluatedKey E gc' (pick (z.take n) a ++ pick ((z.drop n).take n) b ++ pick (z.drop (n * 2)) c) = .ok K' := by
  have hbuild := buildCircuitV2_ok E.dbg hn' ht
  have hw := thr3_typedD (T := t + 1) hn good2 hD
  obtain ⟨hsame, hmean⟩ := thr3_same (D := n + 1) (T := t + 1) ha hb hc ha' hb' hc' hx
  obtain ⟨run, run', z, z', d, K, K', a1, b1, a3, b3, e1, e2, a5, b5, a6, b6, a7, hpk, a8⟩ :=
    circuit_other E rnd hw (by intro d hd; exact (List.mem_replicate.mp hd).2) (by show 0 < n * 3; omega) rfl
      (thr3_last n (n + 1) (t + 1)) (by simp [thrCircuit3]) (a := a ++ b ++ c) (a' := a' ++ b' ++ c')
      (by show _ = n * 3; simp [ha, hb, hc]; omega) (by show _ = n * 3; simp [ha', hb', hc']; omega) hsame hmean
  change z.length = n * 3 at a5
  change z'.length = n * 3 at b5
  obtain ⟨gc1, H1, he1⟩ := held3 (rnd := rnd) hord hbuild (by omega) (by omega) (by omega) a1 a3 a5 a6 a7
  obtain ⟨gc2, H2, -⟩ := held3 hord hbuild (by omega) (by omega) (by omega) b1 b3 b5 b6 a7
  rw [e1, e2] at H2
  have hgc : gc2 = gc1 := Except.ok.inj (H2.sent.symm.trans H1.sent)
  subst hgc
  rw [← pick3 b5 ha' hb' hc', ← pick3 a5 ha hb hc] at hpk
  have l1 : (pick (z'.take n) a').length = n := by rw [pick_length (by simp; omega)]; simp; omega
  have l2 : (pick (z.take n) a).length = n := by rw [pick_length (by simp; omega)]; simp; omega
  have l3 : (pick ((z'.drop n).take n) b').length = n := by rw [pick_length (by simp; omega)]; simp; omega
  have l4 : (pick ((z.drop n).take n) b).length = n := by rw [pick_length (by simp; omega)]; simp; omega
  obtain ⟨h1, h2⟩ := List.append_inj hpk (by simp only [List.length_append]; omega)
  obtain ⟨h3, h4⟩ := List.append_inj h1 (by omega)
  exact ⟨z, z', K, K', _, gc2, d, H1, H2, h3, h4, h2, (he1 a b c ha hb hc).trans a8⟩

/-- The second half of a login for a client that differs from its entry in the same places. -/
theorem recorderServerV3_other (C : Curve) (X : Crypto) (g : GarblerDraws) (o : OTRecv) (passwords : List Bytes)
    (p q mask : Bytes) (len i j number t : Nat) (hdb : ∀ p ∈ passwords, p.length = len) (hlen : GoodLength len)
    (hp : p.length = len) (hq : q.length = len) (hmask : mask.length = len) (hi : i < passwords.length)
    (hj : j < passwords.length) (hg : g.Valid) (ho : o.Valid) (ht : t < 65535)
    (hx : xorBits (bitsOf passwords[i]) (bitsOf p) = xorBits (bitsOf passwords[j]) (bitsOf q)) :
    ∃ v k, Ends (recorderServerV3 C X o passwords mask) (garblerClientV3 C X g p (xorB mask passwords[i]) i number t) v k ∧
      Ends (recorderServerV3 C X o passwords mask)
        (garblerClientV3 C X { g with rnd := (otherDraws (thrCircuit3 (len * 8) (len * 8 + 1) (t + 1))
            (bitsNat (bitsOf (xorB mask passwords[i]) ++ bitsOf mask ++ bitsOf p))
            (bitsNat (bitsOf (xorB mask passwords[j]) ++ bitsOf mask ++ bitsOf q)) g.rnd) }
          q (xorB mask passwords[j]) j number t) v k := by
  obtain ⟨h0, hl32⟩ := good_fits hlen
  obtain ⟨-, hn', hD⟩ := goodLength hlen
  rw [Nat.mul_comm 8 len] at hn' hD
  have hil : passwords[i].length = len := hdb _ (List.getElem_mem hi)
  have hjl : passwords[j].length = len := hdb _ (List.getElem_mem hj)
  have hxi : (xorB mask passwords[i]).length = len := by rw [xorB_length (by omega), hil]
  have hxj : (xorB mask passwords[j]).length = len := by rw [xorB_length (by omega), hjl]
  have ul : ∀ p : Bytes, p.length = len → (u8VecToBoolVec p).length = len * 8 := fun p h => by rw [unpack_length, h, Nat.mul_comm]
  have h3 : xorBits (xorBits (u8VecToBoolVec (xorB mask passwords[j])) (u8VecToBoolVec mask)) (u8VecToBoolVec q) =
      xorBits (xorBits (u8VecToBoolVec (xorB mask passwords[i])) (u8VecToBoolVec mask)) (u8VecToBoolVec p) := by
    rw [(sum_masks (by omega) (by omega)).2, (sum_masks (by omega) (by omega)).2]
    exact hx.symm
  obtain ⟨z, z', K, K', gc, gc', d, H, H', e1, e2, e3, hK⟩ := three_other X.toEnv g.rnd g.ord hg.ord (n := len * 8) (t := t)
    (by omega) hn' hD ht (ul _ hxi) (ul mask hmask) (ul p hp) (ul _ hxj) (ul mask hmask) (ul q hq) h3
  simp only [bitsOf_unpack] at H'
  generalize otherDraws (thrCircuit3 (len * 8) (len * 8 + 1) (t + 1)) _ _ g.rnd = rnd' at H' ⊢
  have r1 := recorderServerV3_conn C X g o passwords p mask len i number t hdb h0 hl32 hp hmask hi hg ho H hK
  have r2 := recorderServerV3_conn C X { g with rnd := rnd' } o passwords q mask len j number t hdb h0 hl32 hq hmask hj
    ⟨hg.ord, hg.ot⟩ ho H' (K' := K') (by rw [e1, e2, e3]; exact hK)
  rw [e1, e2, e3] at r2
  exact ⟨_, K, r1, r2⟩

/-- What the server has recorded says which bits of the password differ from the entry. -/
theorem recorderServerV3_reads (C : Curve) (X : Crypto) {g : GarblerDraws} {o : OTRecv} {passwords : List Bytes}
    {p mask : Bytes} {len i number t : Nat} (hdb : ∀ p ∈ passwords, p.length = len) (hlen : GoodLength len)
    (hp : p.length = len) (hmask : mask.length = len) (hi : i < passwords.length) (hg : g.Valid) (ho : o.Valid)
    (ht : t < 65535) :
    ∃ v k, Ends (recorderServerV3 C X o passwords mask) (garblerClientV3 C X g p (xorB mask passwords[i]) i number t) v k ∧
      sumBits3 (len * 8) v.gc v.first v.second v.third = xorBits (bitsOf passwords[i]) (bitsOf p) := by
  obtain ⟨h0, hl32⟩ := good_fits hlen
  obtain ⟨-, hn', hD⟩ := goodLength hlen
  rw [Nat.mul_comm 8 len] at hn' hD
  have hil : passwords[i].length = len := hdb _ (List.getElem_mem hi)
  have hxi : (xorB mask passwords[i]).length = len := by rw [xorB_length (by omega), hil]
  have ul : ∀ p : Bytes, p.length = len → (u8VecToBoolVec p).length = len * 8 := fun p h => by rw [unpack_length, h, Nat.mul_comm]
  obtain ⟨z, K, gc, gc', d, H, hev⟩ := sum3 X.toEnv g.rnd g.ord hg.ord (n := len * 8) (t := t) (by omega) hn' hD ht
  obtain ⟨⟨K', hK'⟩, hS⟩ := hev _ _ _ (ul _ hxi) (ul mask hmask) (ul p hp)
  rw [(sum_masks (by omega) (by omega)).2] at hS
  exact ⟨_, K, recorderServerV3_conn C X g o passwords p mask len i number t hdb h0 hl32 hp hmask hi hg ho H hK', hS⟩

/-- What the client has recorded says its entry.  The server's key does not depend on the client. -/
theorem recorderClientV3_reads (C : Curve) (X : Crypto) (s : ServerDraws) (c : ClientDraws) (passwords : List Bytes)
    (len t : Nat) (hdb : Database passwords len) (hlen : GoodLength len) (hm : s.many.Valid X.dbg passwords.length)
    (hsg : s.g.Valid) (hs2 : s.ot2.Valid) (hco : c.ot.Valid) (hco2 : c.ot2.Valid) (ht : t < 65535) :
    ∃ k, ∀ (password : Bytes) (index : Nat) (_ : password.length = len) (_ : index < passwords.length),
      ∃ v, Ends (garblerServerV3 C X s passwords t) (recorderClientV3 C X c password passwords.length index)
          (k, drawMask s.mask len) (xorB (drawMask s.mask len) passwords[index], v) ∧
        sumBits3 (len * 8) v.gc v.first v.second v.third = xorBits (bitsOf password) (bitsOf passwords[index]) := by
  obtain ⟨h0, hl32⟩ := good_fits hlen
  obtain ⟨-, hn', hD⟩ := goodLength hlen
  have hmask := drawMask_length s.mask len
  rw [Nat.mul_comm 8 len] at hn' hD
  have ul : ∀ p : Bytes, p.length = len → (u8VecToBoolVec p).length = len * 8 := fun p h => by rw [unpack_length, h, Nat.mul_comm]
  obtain ⟨z, K, gc, gc', d, H, hev⟩ := sum3 X.toEnv s.g.rnd s.g.ord hsg.ord (n := len * 8) (t := t) (by omega) hn' hD ht
  refine ⟨K, fun password index hpw hi => ?_⟩
  have hil : passwords[index].length = len := hdb.lengths _ (List.getElem_mem hi)
  have hxl : (xorB (drawMask s.mask len) passwords[index]).length = len := by rw [xorB_length (by omega), hil]
  obtain ⟨⟨K', hK'⟩, hS⟩ := hev _ _ _ (ul password hpw) (ul _ hmask) (ul _ hxl)
  rw [(sum_masks (by omega) (by omega)).1] at hS
  exact ⟨_, recorderClientV3_conn C X s c passwords password len index t hdb h0 hl32 hpw hi hm hsg hs2 hco hco2 H hK', hS⟩

theorem recorderClientV3_forget (C : Curve) (X : Crypto) (c : ClientDraws) (p : Bytes) (number index : Nat) :
    (do let r ← recorderClientV3 C X c p number index
        return (r.2.key, r.1)) = evaluatorClientV3 C X c p number index := by
  unfold recorderClientV3 evaluatorClientV3
  simp [bindP_assoc]

theorem recorderServerV3_forget (C : Curve) (X : Crypto) (o : OTRecv) (passwords : List Bytes) (mask : Bytes) :
    (do let r ← recorderServerV3 C X o passwords mask
        return r.key) = evaluatorServerV3 C X o passwords mask := by
  unfold recorderServerV3 evaluatorServerV3
  simp [bindP_assoc, bindP_pure]

/-- The first half of a login. -/
theorem firstV3_ends (C : Curve) (X : Crypto) (s : ServerDraws) (c : ClientDraws) (passwords : List Bytes)
    (len t : Nat) (hdb : Database passwords len) (hlen : GoodLength len) (hm : s.many.Valid X.dbg passwords.length)
    (hsg : s.g.Valid) (hs2 : s.ot2.Valid) (hco : c.ot.Valid) (hco2 : c.ot2.Valid) (ht : t < 65535) :
    ∃ k, ∀ (password : Bytes) (index : Nat) (_ : password.length = len) (_ : index < passwords.length),
      ∃ k', Ends (garblerServerV3 C X s passwords t) (evaluatorClientV3 C X c password passwords.length index)
          (k, drawMask s.mask len) (k', xorB (drawMask s.mask len) passwords[index]) := by
  obtain ⟨k, h⟩ := recorderClientV3_reads C X s c passwords len t hdb hlen hm hsg hs2 hco hco2 ht
  refine ⟨k, fun password index hp hi => ?_⟩
  obtain ⟨v, h1, -⟩ := h password index hp hi
  refine ⟨v.key, ?_⟩
  rw [← recorderClientV3_forget]
  exact h1.bindR (k := fun r : Bytes × HeldThree => Proc.ret (r.2.key, r.1)) rfl

/-- The one password that differs from `a` in the bits `x`. -/
theorem the_password {a x : Bytes} (h : x.length = a.length) : (xorB a x).length = a.length ∧
    ∀ q : Bytes, q.length = a.length → (xorBits (bitsOf a) (bitsOf q) = bitsOf x ↔ q = xorB a x) := by
  have hl : (xorB a x).length = a.length := by rw [xorB_length (by omega)]; omega
  have cancel : ∀ a b : List Bool, a.length = b.length → xorBits a (xorBits a b) = b := by
    intro a b hab
    apply List.ext_getElem
    · simp [xorBits]; omega
    · intro k h1 h2
      simp only [xorBits, List.getElem_zipWith]
      generalize a[k]'_ = x; generalize b[k] = y
      cases x <;> cases y <;> rfl
  have hlb : ∀ a b : Bytes, a.length = b.length → (bitsOf a).length = (bitsOf b).length := fun a b h => by simp [bitsOf, h]
  have hx : ∀ a b : Bytes, a.length = b.length → xorBits (bitsOf a) (bitsOf b) = bitsOf (xorB a b) := fun a b h =>
    (bitsOf_xorB (by omega)).symm
  refine ⟨hl, fun q hq => ⟨fun e => ?_, ?_⟩⟩
  · apply bitsOf_injective
    rw [← hx a x (by omega), ← e, cancel _ _ (hlb _ _ (by omega))]
  · rintro rfl
    rw [← hx a x (by omega), cancel _ _ (hlb _ _ (by omega))]

/-- What a client has recorded depends on nothing of the database but its entry. -/
theorem recorderClientV3_entry (C : Curve) (X : Crypto) (s : ServerDraws) (c : ClientDraws) (password : Bytes)
    (len index t : Nat) (hlen : GoodLength len) (hpw : password.length = len) (hsg : s.g.Valid) (hs2 : s.ot2.Valid)
    (hco : c.ot.Valid) (hco2 : c.ot2.Valid) (ht : t < 65535) (entry : Bytes) (he : entry.length = len) :
    ∃ v r, ∀ (passwords : List Bytes) (_ : Database passwords len) (_ : index < passwords.length) (_ : passwords[index] = entry)
      (_ : s.many.Valid X.dbg passwords.length),
      Ends (garblerServerV3 C X s passwords t) (recorderClientV3 C X c password passwords.length index) r v := by
  obtain ⟨h0, hl32⟩ := good_fits hlen
  obtain ⟨-, hn', hD⟩ := goodLength hlen
  have hmask := drawMask_length s.mask len
  rw [Nat.mul_comm 8 len] at hn' hD
  have ul : ∀ p : Bytes, p.length = len → (u8VecToBoolVec p).length = len * 8 := fun p h => by rw [unpack_length, h, Nat.mul_comm]
  obtain ⟨z, K, gc, gc', d, H, hev⟩ := sum3 X.toEnv s.g.rnd s.g.ord hsg.ord (n := len * 8) (t := t) (by omega) hn' hD ht
  have hxl : (xorB (drawMask s.mask len) entry).length = len := by rw [xorB_length (by omega), he]
  obtain ⟨⟨K', hK'⟩, -⟩ := hev _ _ _ (ul password hpw) (ul _ hmask) (ul _ hxl)
  refine ⟨(xorB (drawMask s.mask len) entry, ⟨gc', pick (z.take (len * 8)) (u8VecToBoolVec password),
    pick ((z.drop (len * 8)).take (len * 8)) (u8VecToBoolVec (drawMask s.mask len)),
    pick (z.drop (len * 8 * 2)) (u8VecToBoolVec (xorB (drawMask s.mask len) entry)), K'⟩), (K, drawMask s.mask len),
    fun passwords hdb hi e hm => ?_⟩
  subst e
  exact recorderClientV3_conn C X s c passwords password len index t hdb h0 hl32 hpw hi hm hsg hs2 hco hco2 H hK'

end FP
