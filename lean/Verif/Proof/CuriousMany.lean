import Verif.Proof.Curious
/-
Curious parties of the third one-of-many implementation.
-/
namespace FP
open Spec Props

theorem bits_parity3 {ca cb cc : Nat} {a b c : Bool} (ha : ca < 2) (hb : cb < 2) (hc : cc < 2) {r : Nat}
    (h : r = 0 ↔ (ca + a.toNat + (cb + b.toNat + (cc + c.toNat))) % 2 = 1) :
    ((ca != 0) ^^ (cb != 0) ^^ (cc != 0) ^^ (r == 0)) = (a ^^ b ^^ c) := by
  have hr : (r == 0) = decide ((ca + a.toNat + (cb + b.toNat + (cc + c.toNat))) % 2 = 1) := by
    rw [Bool.eq_iff_iff]; simp [h]
  rw [hr]
  rcases (by omega : ca = 0 ∨ ca = 1) with rfl | rfl <;> rcases (by omega : cb = 0 ∨ cb = 1) with rfl | rfl <;>
    rcases (by omega : cc = 0 ∨ cc = 1) with rfl | rfl <;> cases a <;> cases b <;> cases c <;> rfl

theorem sum3_ok {E : Env} {rnd : GarbleRand} {n D T : Nat} (hn : 0 < n) (hDg : GoodDomain D) (hD : 3 ≤ D)
    {run : GarbleRun} (hrun : garbleRun E rnd (thrCircuit3 n D T) = .ok run) {X : List Wire} {p q s : List Bool}
    (hpl : p.length = n) (hql : q.length = n) (hsl : s.length = n)
    (hX : ∀ (i m : Nat), (thrCircuit3 n D T).inputDomains[i]? = some m → ∃ zi w v, run.encWires[i]? = some zi ∧
          X[i]? = some w ∧ (bitsNat (p ++ q ++ s))[i]? = some v ∧ Carries run.delta m zi v w)
    {gc : GarbledCircuit} (hgc : ∀ k, List.lookup k gc.f = List.lookup k run.state.f) {x y u : List Wire}
    (hXe : x ++ y ++ u = X) (hxl : x.length = n) (hyl : y.length = n) :
    sumBits3 n gc x y u = xorBits (xorBits p q) s := by
  have hc := thr3_typedD (T := T) hn good2 hDg
  obtain ⟨run', hrun', hok⟩ := garbleRun_ok E rnd hc
  rw [hrun] at hrun'; cases hrun'
  have hδ2 : DeltaOK run.delta 2 := hok.deltas 2 ⟨⟨0 + 3 * n, 2, [0, 0 + n, 0 + 2 * n], .add⟩, by
    show _ ∈ xorGates3 n ++ _
    exact List.mem_append_left _ (List.mem_map.mpr ⟨0, List.mem_range.mpr hn, rfl⟩), .inl rfl⟩
  have hget : ∀ k, k < n * 3 → ∃ z w, run.state.wires[k]? = some z ∧ Carries run.delta 2 z ((p ++ q ++ s).getD k false).toNat w ∧
      (X.getD k Wire.empty) = w ∧ w.color < 2 := by
    intro k hk
    obtain ⟨z, w, v, h1, h2, h3, h4⟩ := hX k 2 (by
      show (List.replicate (n * 3) 2)[k]? = some 2
      rw [List.getElem?_replicate, if_pos hk])
    rw [hok.pre k hk] at h1
    refine ⟨z, w, h1, ?_, by rw [List.getD, h2, Option.getD_some], color_lt_two h4.lab⟩
    have : v = ((p ++ q ++ s).getD k false).toNat := by
      simp only [bitsNat, List.getElem?_map] at h3
      rw [List.getD]
      cases hh : (p ++ q ++ s)[k]? with
      | none => rw [hh] at h3; simp at h3
      | some b => rw [hh] at h3; simp at h3; simp [h3]
    rw [← this]; exact h4
  unfold sumBits3
  apply List.ext_getElem
  · simp [xorBits, hpl, hql, hsl]
  intro i h1 h2
  have hi : i < n := by simpa using h1
  simp only [List.getElem_map, List.getElem_range]
  obtain ⟨z1, w1, a1, a2, a3, a4⟩ := hget i (by omega)
  obtain ⟨z2, w2, b1, b2, b3, b4⟩ := hget (i + n) (by omega)
  obtain ⟨z3, w3, c1, c2, c3, c4⟩ := hget (i + 2 * n) (by omega)
  obtain ⟨rows, r, d1, d2, d3⟩ := first_row_parity hc hrun hδ2 (o := i + 3 * n) (o' := 3 * n + n + i) (D := D)
    (ks := [i, i + n, i + 2 * n])
    (by
      show _ ∈ xorGates3 n ++ _
      exact List.mem_append_left _ (List.mem_map.mpr ⟨i, List.mem_range.mpr hi, rfl⟩))
    (by
      show _ ∈ xorGates3 n ++ tailGates (3 * n) n D T
      apply List.mem_append_right
      unfold tailGates
      simp only [List.mem_append, List.mem_map, List.mem_range]
      left
      exact ⟨i, hi, by simp; omega⟩) hD
    (col := fun k => (X.getD k Wire.empty).color) (val := fun k => ((p ++ q ++ s).getD k false).toNat) (by
      intro k hk
      simp only [List.mem_cons, List.not_mem_nil, or_false] at hk
      rcases hk with rfl | rfl | rfl
      · exact ⟨z1, w1, a1, a2, by rw [a3]⟩
      · exact ⟨z2, w2, b1, b2, by rw [b3]⟩
      · exact ⟨z3, w3, c1, c2, by rw [c3]⟩)
  have hrow : firstRow gc (4 * n + i) = r := by
    unfold firstRow
    rw [hgc, show 4 * n + i = 3 * n + n + i by omega, d1]
    simp only [Option.getD_some]
    rw [List.getD, d2, Option.getD_some]
  have e1 : X.getD i Wire.empty = x.getD i Wire.empty := by
    rw [← hXe, List.append_assoc, List.getD, List.getElem?_append_left (by omega), List.getD]
  have e2 : X.getD (i + n) Wire.empty = y.getD i Wire.empty := by
    rw [← hXe, List.append_assoc, List.getD, List.getElem?_append_right (by omega), hxl, Nat.add_sub_cancel,
      List.getElem?_append_left (by omega), List.getD]
  have e3 : X.getD (i + 2 * n) Wire.empty = u.getD i Wire.empty := by
    rw [← hXe, List.getD, List.getElem?_append_right (by simp; omega), List.length_append, hxl, hyl,
      show i + 2 * n - (n + n) = i by omega, List.getD]
  have f1 : (p ++ q ++ s).getD i false = p[i] := by
    rw [List.append_assoc, List.getD, List.getElem?_append_left (by omega), List.getElem?_eq_getElem (by omega), Option.getD_some]
  have f2 : (p ++ q ++ s).getD (i + n) false = q[i] := by
    rw [List.append_assoc, List.getD, List.getElem?_append_right (by omega), hpl, Nat.add_sub_cancel,
      List.getElem?_append_left (by omega), List.getElem?_eq_getElem (by omega), Option.getD_some]
  have f3 : (p ++ q ++ s).getD (i + 2 * n) false = s[i] := by
    rw [List.getD, List.getElem?_append_right (by simp; omega), List.length_append, hpl, hql]
    simp only [show i + 2 * n - (n + n) = i by omega]
    rw [List.getElem?_eq_getElem (by omega), Option.getD_some]
  simp only [List.map_cons, List.map_nil, List.sum_cons, List.sum_nil, Nat.add_zero, e1, e2, e3, f1, f2, f3] at d3
  rw [hrow]
  unfold colourAt
  have := bits_parity3 (by rw [← e1, a3]; exact a4) (by rw [← e2, b3]; exact b4) (by rw [← e3, c3]; exact c4) d3
  simp only [xorBits, List.getElem_zipWith]
  exact this

/-- What the evaluating party holds and reads. -/
theorem sum3 (E : Env) (rnd : GarbleRand) (ord : MapOrder) (hord : ord.Valid) {n t : Nat} (hn : 1 < n) (hn' : n < 65535)
    (hD : GoodDomain (n + 1)) (ht : t < 65535) :
    ∃ z K gc gc' d, Held3 E rnd ord n t (thrCircuit3 n (n + 1) (t + 1)) z K gc gc' d ∧
      ∀ a b c : List Bool, a.length = n → b.length = n → c.length = n →
        (∃ K', evaluatedKey E gc' (pick (z.take n) a ++ pick ((z.drop n).take n) b ++ pick (z.drop (n * 2)) c) = .ok K') ∧
        sumBits3 n gc' (pick (z.take n) a) (pick ((z.drop n).take n) b) (pick (z.drop (n * 2)) c) = xorBits (xorBits a b) c := by
  have hbuild := buildCircuitV2_ok E.dbg hn' ht
  have hc := thr3_typedD (T := t + 1) (show 0 < n by omega) good2 hD
  have hbin : ∀ d ∈ (thrCircuit3 n (n + 1) (t + 1)).inputDomains, d = 2 := by intro d hd; exact (List.mem_replicate.mp hd).2
  obtain ⟨run, z, d, zl, w1, hrun, hok, hgb, hzl, hzb, hK, hzw, hlab, hcar, henc⟩ := half_detail E rnd hc
    hbin (by show 0 < n * 3; omega) rfl (thr3_last n (n + 1) (t + 1))
  change z.length = n * 3 at hzl
  obtain ⟨run', z', d', K, hrun', hgb', -, -, hK2, hev⟩ := half_key E rnd hc hbin (by show 0 < n * 3; omega) rfl
    (thr3_last n (n + 1) (t + 1))
  rw [hrun] at hrun'
  obtain rfl := Except.ok.inj hrun'
  rw [hgb] at hgb'
  have hzz := Except.ok.inj hgb'
  obtain rfl : z = z' := congrArg (fun t => t.2.1) hzz
  obtain rfl : d = d' := congrArg (fun t => t.2.2) hzz
  have hfits := thr3_fits (n := n) (D := n + 1) (T := t + 1) (by omega) (by omega) (by omega)
  have hgf : GarbledFits (thrCircuit3 n (n + 1) (t + 1)) (ord.f run.state.f) (ord.h run.state.fHalf) :=
    garble_fits hrun hfits.1 hfits.2 (hord.f _) (hord.h _)
  have hgc : deserializeGarbled (sendGarbled ord ⟨thrCircuit3 n (n + 1) (t + 1), run.state.f, run.state.fHalf⟩) =
      .ok ⟨thrCircuit3 n (n + 1) (t + 1), hmapOfEntries (ord.f run.state.f), hmapOfEntries (ord.h run.state.fHalf)⟩ :=
    deserializeGarbled_ok hgf
  refine ⟨z, K, _, _, d, ⟨hbuild, hgb, hK2, hzl, hzb, hgc⟩, fun a b c ha hb hcl => ?_⟩
  have hpick : pick (z.take n) a ++ pick ((z.drop n).take n) b ++ pick (z.drop (n * 2)) c = pick z (a ++ b ++ c) := by
    have e1 := pick_append (z := z) (a := a ++ b) (b := c) (by simp [ha, hb, hcl]; omega)
    have e2 := pick_append (z := z.take (n + n)) (a := a) (b := b) (by simp [ha, hb]; omega)
    rw [List.length_append, ha, hb] at e1
    rw [ha] at e2
    rw [← e1, ← e2]
    rw [List.take_take, Nat.min_eq_left (by omega), List.drop_take, Nat.add_sub_cancel_left, Nat.mul_two]
  have hbl : (a ++ b ++ c).length = n * 3 := by simp [ha, hb, hcl]; omega
  obtain ⟨K', hK', -, -⟩ := hev (a ++ b ++ c) hbl
  obtain ⟨hin, hXl, hXi⟩ := henc (a ++ b ++ c) hbl
  refine ⟨⟨K', ?_⟩, sum3_ok (by omega) hD (by omega) hrun ha hb hcl hXi (iteration_lookup (hord.f _)) hpick
    (by rw [pick_length (by simp; omega)]; simp; omega) (by rw [pick_length (by simp; omega)]; simp; omega)⟩
  rw [hpick]
  exact (evaluatedKey_congr E (gc := ⟨thrCircuit3 n (n + 1) (t + 1), run.state.f, run.state.fHalf⟩)
    (gc' := ⟨thrCircuit3 n (n + 1) (t + 1), hmapOfEntries (ord.f run.state.f), hmapOfEntries (ord.h run.state.fHalf)⟩) rfl
    (evaluate_congr E rfl (iteration_lookup (hord.f _)) (iteration_lookup (hord.h _))) _).trans hK'

/-- The messages when the server garbles, given what garbling and evaluating give. -/
theorem curiousClientV3_conn (C : Curve) (X : Crypto) (s : ServerDraws) (c : ClientDraws) (passwords : List Bytes) (password : Bytes)
    (len index t : Nat) (hdb : Database passwords len) (h0 : 0 < len) (hl32 : len < 2 ^ 32) (hpw : password.length = len)
    (hi : index < passwords.length) (hm : s.many.Valid X.dbg passwords.length) (hsg : s.g.Valid) (hs2 : s.ot2.Valid)
    (hco : c.ot.Valid) (hco2 : c.ot2.Valid) {circ : Circuit} {z : List (Wire × Wire)} {K K' : WireBytes} {S : List Bool}
    {gc gc' : GarbledCircuit} {d : DecodingKey}
    (H : Held3 X.toEnv s.g.rnd s.g.ord (len * 8) t circ z K gc gc' d)
    (hK' : evaluatedKey X.toEnv gc' (pick (z.take (len * 8)) (u8VecToBoolVec password) ++
      pick ((z.drop (len * 8)).take (len * 8)) (u8VecToBoolVec (drawMask s.mask len)) ++
      pick (z.drop (len * 8 * 2)) (u8VecToBoolVec (xorB (drawMask s.mask len) passwords[index]))) = .ok K')
    (hS : sumBits3 (len * 8) gc' (pick (z.take (len * 8)) (u8VecToBoolVec password))
      (pick ((z.drop (len * 8)).take (len * 8)) (u8VecToBoolVec (drawMask s.mask len)))
      (pick (z.drop (len * 8 * 2)) (u8VecToBoolVec (xorB (drawMask s.mask len) passwords[index]))) = S) :
    Ends (garblerServerV3 C X s passwords t) (curiousClientV3 C X c password passwords.length index)
      (K, drawMask s.mask len) ((K', xorB (drawMask s.mask len) passwords[index]), List.zipWith xor (bitsOf password) S) := by
  have hmask := drawMask_length s.mask len
  generalize hmm : drawMask s.mask len = mask at hmask hK' hS ⊢
  have hil : passwords[index].length = len := hdb.lengths _ (List.getElem_mem hi)
  have hxl : (xorB mask passwords[index]).length = len := by rw [xorB_length (by omega), hil]
  have ul : ∀ p : Bytes, p.length = len → (u8VecToBoolVec p).length = len * 8 := fun p h => by rw [unpack_length, h, Nat.mul_comm]
  obtain ⟨domain, d1, d2, hmany⟩ := manyRun_ends C X (base := c.many) (Database.map hdb hmask) (by simpa using hm)
    (index := index) (by simpa using hi) h0 hl32
  rw [List.length_map] at d1 d2
  rw [List.getElem_map] at hmany
  have hz := H.length
  unfold garblerServerV3 curiousClientV3
  have h00 : passwords[0].length = len := hdb.lengths _ (List.getElem_mem (by omega))
  rw [idxR_ok (a := passwords[0]) (List.getElem?_eq_getElem (by omega)), liftM_ok, ret_bind]
  dsimp only
  rw [h00, hmm, hpw]
  rw [H.built, liftM_ok, ret_bind, H.garbled, liftM_ok, ret_bind]
  dsimp only
  rw [sendP_bind, recvP_bind]
  refine .sendRecv ?_
  rw [labelPairs_ok (by omega), liftM_ok, ret_bind, H.sent, liftM_ok, ret_bind, bitsUpTo_ok hpw, liftM_ok, ret_bind]
  refine .bind (otChosen C X hsg.ot hco h0 (by omega) (by simp; omega) (ul _ hpw)) ?_
  rw [encodeRows_ok X.dbg (by omega) (by omega), liftM_ok, ret_bind, sendP_bind, recvP_bind]
  refine .sendRecv ?_
  rw [d1, liftM_ok, ret_bind, maskPasswords_ok X.dbg hmask hdb.lengths, liftM_ok, ret_bind, d2, liftM_ok, ret_bind]
  refine .bind hmany ?_
  rw [labelPairs_ok (by omega), liftM_ok, ret_bind, bitsUpTo_ok hxl, liftM_ok, ret_bind]
  refine .bind (otChosen C X hs2 hco2 h0 (by omega) (by simp; omega) (ul _ hxl)) ?_
  have pl : ∀ (off : Nat) (p : Bytes), off + len * 8 ≤ z.length → p.length = len →
      (pick ((z.drop off).take (len * 8)) (u8VecToBoolVec p)).length = len * 8 := by
    intro off p ho hp
    rw [pick_length (by rw [ul p hp]; simp; omega)]; simp; omega
  have hp3 := pl (len * 8 * 2) _ (by omega) hxl
  rw [idxR_ok (a := (pick ((z.drop (len * 8 * 2)).take (len * 8)) (u8VecToBoolVec (xorB mask passwords[index])))[0].bytes)
    (by rw [List.getElem?_map, List.getElem?_eq_getElem (by omega)]; rfl), liftM_ok, ret_bind]
  have hw32 : ∀ w : Wire, w.bytes.length = 32 := by intro w; simp [Wire.bytes]
  rw [hw32, payloadToEncoding_ok X.dbg (pick_mem H.binary _) (pl 0 _ (by omega) hpw), liftM_ok, ret_bind,
    bytesToEncoding_ok X.dbg (pick_mem H.binary _) (pl _ _ (by omega) hmask), liftM_ok, ret_bind,
    payloadToEncoding_ok X.dbg (pick_mem H.binary _) hp3, liftM_ok, ret_bind, H.key, liftM_ok, ret_bind]
  rw [List.drop_zero, List.take_of_length_le (l := z.drop (len * 8 * 2)) (by simp; omega), hK', liftM_ok, ret_bind, hS]
  exact .ret _ _

/-- The messages when the client garbles, given what garbling and evaluating give. -/
theorem curiousServerV3_conn (C : Curve) (X : Crypto) (g : GarblerDraws) (o : OTRecv) (passwords : List Bytes)
    (password mask : Bytes) (len index number t : Nat) (hdb : ∀ p ∈ passwords, p.length = len) (h0 : 0 < len)
    (hl32 : len < 2 ^ 32) (hpw : password.length = len) (hmask : mask.length = len) (hi : index < passwords.length)
    (hg : g.Valid) (ho : o.Valid) {circ : Circuit} {z : List (Wire × Wire)} {K K' : WireBytes} {S : List Bool}
    {gc gc' : GarbledCircuit} {d : DecodingKey} (H : Held3 X.toEnv g.rnd g.ord (len * 8) t circ z K gc gc' d)
    (hK' : evaluatedKey X.toEnv gc' (pick (z.take (len * 8)) (u8VecToBoolVec (xorB mask passwords[index])) ++
      pick ((z.drop (len * 8)).take (len * 8)) (u8VecToBoolVec mask) ++
      pick (z.drop (len * 8 * 2)) (u8VecToBoolVec password)) = .ok K')
    (hS : sumBits3 (len * 8) gc' (pick (z.take (len * 8)) (u8VecToBoolVec (xorB mask passwords[index])))
      (pick ((z.drop (len * 8)).take (len * 8)) (u8VecToBoolVec mask))
      (pick (z.drop (len * 8 * 2)) (u8VecToBoolVec password)) = S) :
    Ends (curiousServerV3 C X o passwords mask)
      (garblerClientV3 C X g password (xorB mask passwords[index]) index number t) (K', S) K := by
  have hil : passwords[index].length = len := hdb _ (List.getElem_mem hi)
  have hxl : (xorB mask passwords[index]).length = len := by rw [xorB_length (by omega), hil]
  have ul : ∀ p : Bytes, p.length = len → (u8VecToBoolVec p).length = len * 8 := fun p h => by rw [unpack_length, h, Nat.mul_comm]
  refine Ends.swap ?_
  have hz := H.length
  have pl : ∀ (off : Nat) (p : Bytes), off + len * 8 ≤ z.length → p.length = len →
      (pick ((z.drop off).take (len * 8)) (u8VecToBoolVec p)).length = len * 8 := by
    intro off p ho hp
    rw [pick_length (by rw [ul p hp]; simp; omega)]; simp; omega
  unfold garblerClientV3 curiousServerV3
  have h00 : passwords[0].length = len := hdb _ (List.getElem_mem (by omega))
  rw [idxR_ok (a := passwords[0]) (List.getElem?_eq_getElem (by omega)), liftM_ok, ret_bind]
  dsimp only
  rw [h00, hpw]
  rw [H.built, liftM_ok, ret_bind, H.garbled, liftM_ok, ret_bind, bitsUpTo_ok hpw, liftM_ok, ret_bind]
  dsimp only
  rw [labelsAt_ok (by rw [ul _ hpw]; omega), liftM_ok, ret_bind, ul _ hpw, sendP_bind, recvP_bind]
  refine .sendRecv ?_
  rw [H.sent, liftM_ok, ret_bind, sendP_bind, recvP_bind]
  refine .sendRecv ?_
  rw [deserialize_ok wires_rt ⟨by rw [pl _ _ (by omega) hpw]; omega, fun w hw => binary_fits (pick_mem H.binary _ w hw)⟩, liftM_ok,
    ret_bind, labelPairs_ok (by omega), liftM_ok, ret_bind, bitsUpTo_ok hmask, liftM_ok, ret_bind]
  refine .bind (otChosen C X hg.ot ho h0 (by omega) (by simp; omega) (ul _ hmask)) ?_
  rw [idxR_ok (a := z[0]) (List.getElem?_eq_getElem (by omega)), liftM_ok, ret_bind, encodeRows_ok X.dbg (by omega) (by omega),
    liftM_ok, ret_bind, sendP_bind, recvP_bind]
  refine .sendRecv ?_
  have hp3 := pl (len * 8) _ (by omega) hmask
  rw [idxR_ok (a := (pick ((z.drop (len * 8)).take (len * 8)) (u8VecToBoolVec mask))[0].bytes)
    (by rw [List.getElem?_map, List.getElem?_eq_getElem (by omega)]; rfl), liftM_ok, ret_bind]
  have hw32 : ∀ w : Wire, w.bytes.length = 32 := by intro w; simp [Wire.bytes]
  rw [hw32, payloadToEncoding_ok X.dbg (pick_mem H.binary _) hp3, liftM_ok, ret_bind,
    bytesToEncoding_ok X.dbg (pick_mem H.binary _) (pl 0 _ (by omega) hxl), liftM_ok, ret_bind, H.key]
  rw [List.drop_zero, List.take_of_length_le (l := z.drop (len * 8 * 2)) (by simp; omega), hK', liftM_ok, liftM_ok, ret_bind, hS]
  exact .ret _ _


theorem sum_masks {p q mask : Bytes} (h1 : mask.length = p.length) (h2 : q.length = p.length) :
    xorBits (xorBits (u8VecToBoolVec p) (u8VecToBoolVec mask)) (u8VecToBoolVec (xorB mask q)) =
      List.zipWith xor (bitsOf p) (bitsOf q) ∧
    xorBits (xorBits (u8VecToBoolVec (xorB mask p)) (u8VecToBoolVec mask)) (u8VecToBoolVec q) =
      List.zipWith xor (bitsOf p) (bitsOf q) := by
  rw [bitsOf_unpack, bitsOf_unpack, bitsOf_unpack, bitsOf_unpack, bitsOf_unpack, bitsOf_xorB (by omega), bitsOf_xorB (by omega)]
  have l1 : (bitsOf mask).length = (bitsOf p).length := by rw [bitsOf_length, bitsOf_length, h1]
  have l2 : (bitsOf q).length = (bitsOf p).length := by rw [bitsOf_length, bitsOf_length, h2]
  constructor <;>
  · apply List.ext_getElem
    · simp [xorBits, l1, l2]
    · intro i h1 h2
      simp only [xorBits, List.getElem_zipWith]
      generalize (bitsOf mask)[i]'_ = x
      generalize (bitsOf p)[i]'_ = y
      generalize (bitsOf q)[i]'_ = w
      cases x <;> cases y <;> cases w <;> rfl

theorem serverV3_curious (C : Curve) (X : Crypto) (s : ServerDraws) (c : ClientDraws) (passwords : List Bytes) (password : Bytes)
    (len index t : Nat) (hdb : Database passwords len) (hlen : GoodLength len) (hpw : password.length = len)
    (hi : index < passwords.length) (hm : s.many.Valid X.dbg passwords.length) (hsg : s.g.Valid) (hs2 : s.ot2.Valid)
    (hco : c.ot.Valid) (hco2 : c.ot2.Valid) (ht : t < 65535) :
    ∃ k k' mask, mask.length = len ∧ Ends (garblerServerV3 C X s passwords t)
        (evaluatorClientV3 C X c password passwords.length index) (k, mask) (k', xorB mask passwords[index]) ∧
      Ends (garblerServerV3 C X s passwords t)
        (curiousClientV3 C X c password passwords.length index) (k, mask) ((k', xorB mask passwords[index]), bitsOf passwords[index]) := by
  obtain ⟨h0, hl32⟩ := good_fits hlen
  obtain ⟨-, hn', hD⟩ := goodLength hlen
  have hmask := drawMask_length s.mask len
  have hil : passwords[index].length = len := hdb.lengths _ (List.getElem_mem hi)
  have hxl : (xorB (drawMask s.mask len) passwords[index]).length = len := by rw [xorB_length (by omega), hil]
  rw [Nat.mul_comm 8 len] at hn' hD
  have ul : ∀ p : Bytes, p.length = len → (u8VecToBoolVec p).length = len * 8 := fun p h => by rw [unpack_length, h, Nat.mul_comm]
  obtain ⟨z, K, gc, gc', d, H, hev⟩ := sum3 X.toEnv s.g.rnd s.g.ord hsg.ord (n := len * 8) (t := t) (by omega) hn' hD ht
  obtain ⟨⟨K', hK'⟩, hS⟩ := hev _ _ _ (ul password hpw) (ul _ hmask) (ul _ hxl)
  rw [(sum_masks (by omega) (by omega)).1] at hS
  have h2 := curiousClientV3_conn C X s c passwords password len index t hdb h0 hl32 hpw hi hm hsg hs2 hco hco2 H hK' hS
  rw [← bitsOf_xorB (by omega), xor_mask' (by omega)] at h2
  exact ⟨K, K', _, hmask, serverV3_conn C X s c passwords password len index t hdb h0 hl32 hpw hi hm hsg hs2 hco hco2 H hK', h2⟩

theorem clientV3_curious (C : Curve) (X : Crypto) (g : GarblerDraws) (o : OTRecv) (passwords : List Bytes)
    (password mask : Bytes) (len index number t : Nat) (hdb : ∀ p ∈ passwords, p.length = len) (hlen : GoodLength len)
    (hpw : password.length = len) (hmask : mask.length = len) (hi : index < passwords.length) (hg : g.Valid) (ho : o.Valid)
    (ht : t < 65535) :
    ∃ k k', Ends (evaluatorServerV3 C X o passwords mask)
        (garblerClientV3 C X g password (xorB mask passwords[index]) index number t) k k' ∧
      Ends (curiousServerV3 C X o passwords mask)
        (garblerClientV3 C X g password (xorB mask passwords[index]) index number t)
        (k, List.zipWith xor (bitsOf passwords[index]) (bitsOf password)) k' := by
  obtain ⟨h0, hl32⟩ := good_fits hlen
  obtain ⟨-, hn', hD⟩ := goodLength hlen
  have hil : passwords[index].length = len := hdb _ (List.getElem_mem hi)
  have hxl : (xorB mask passwords[index]).length = len := by rw [xorB_length (by omega), hil]
  rw [Nat.mul_comm 8 len] at hn' hD
  have ul : ∀ p : Bytes, p.length = len → (u8VecToBoolVec p).length = len * 8 := fun p h => by rw [unpack_length, h, Nat.mul_comm]
  obtain ⟨z, K, gc, gc', d, H, hev⟩ := sum3 X.toEnv g.rnd g.ord hg.ord (n := len * 8) (t := t) (by omega) hn' hD ht
  obtain ⟨⟨K', hK'⟩, hS⟩ := hev _ _ _ (ul _ hxl) (ul mask hmask) (ul password hpw)
  rw [(sum_masks (by omega) (by omega)).2] at hS
  exact ⟨K', K, clientV3_conn C X g o passwords password mask len index number t hdb h0 hl32 hpw hmask hi hg ho H hK',
    curiousServerV3_conn C X g o passwords password mask len index number t hdb h0 hl32 hpw hmask hi hg ho H hK' hS⟩

end FP
