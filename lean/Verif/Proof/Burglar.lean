import Verif.Proof.Impostor
import Verif.Proof.ManyFpake
import Verif.Props.ManyFpake
/-
Parties that learn passwords.
-/
namespace FP
open Spec Props

theorem bitsOf_unpack (p : Bytes) : u8VecToBoolVec p = bitsOf p := by
  apply List.ext_getElem
  · rw [unpack_length]; simp [bitsOf]
  · intro i h1 h2
    have := unpack_bitAt p i
    rw [List.getD_eq_getElem?_getD, List.getElem?_eq_getElem h1] at this
    simp only [Option.getD_some] at this
    rw [this]
    simp [bitsOf]

theorem bitsOf_length (p : Bytes) : (bitsOf p).length = 8 * p.length := by simp [bitsOf]

theorem xor_mask {a b : Bytes} (h : a.length = b.length) : List.zipWith xor (bitsOf (xorB a b)) (bitsOf a) = bitsOf b := by
  apply List.ext_getElem
  · simp [bitsOf, xorB, h]
  · intro i h1 h2
    simp only [bitsOf, List.getElem_zipWith, List.getElem_map, List.getElem_range]
    rw [xorB_get h]
    cases bitAt a i <;> cases bitAt b i <;> rfl

theorem xor_zeros (p : Bytes) : xorB (List.replicate p.length 0) p = p := by
  unfold xorB
  exact zipWith_zero' rfl

/-- Two parties of the fourth implementation. -/
theorem burglarSingle_ends (C : Curve) (X : Crypto) (d : ManyDraws) (many : Nat → Nat) (s : OTSend) (r : OTRecv)
    (passwords : List Bytes) (len index t : Nat) (hdb : Database passwords len) (hlen : GoodLength len)
    (hi : index < passwords.length) (hm : d.many.Valid X.dbg passwords.length) (hg : d.g.Valid) (ho : d.ot.Valid)
    (hs : s.Valid) (hr : r.Valid) (ht : t < 8 * len) (hcol : SomeColourAgrees d.g.rnd (8 * len)) (label : WireBytes) :
    ∃ key, Ends (mfpakeMany C X d passwords t) (burglarSingle C X many s r (8 * len) index passwords.length t label) key
      (key, bitsOf passwords[index]) := by
  obtain ⟨h0, hl32⟩ := good_fits hlen
  obtain ⟨-, hn', hD⟩ := goodLength hlen
  have hmask := drawMask_length d.mask len
  generalize hmm : drawMask d.mask len = mask at hmask
  have hil : passwords[index].length = len := hdb.lengths _ (List.getElem_mem hi)
  obtain ⟨k1, h1⟩ := reader_ends X.toEnv d.g.rnd d.g.ord hg.ord mask t (8 * len) (by rw [hmask]) (by omega) hn' hD ht
    (ot_correct C X hg.ot hr (n := 8 * len) (by omega) (by omega) (by omega)) hcol
  have h2 := forger_ends X.toEnv mask (8 * len) (by rw [hmask]) (by omega) (by omega)
    (ot_correct C X hs ho (n := 8 * len) (by omega) (by omega) (by omega)) label
  obtain ⟨domain, d1, d2, hmany⟩ := manyRun_ends C X (base := many) (Database.map hdb hmask) (by simpa using hm)
    (index := index) (by simpa using hi) h0 hl32
  rw [List.length_map] at d1 d2
  rw [List.getElem_map] at hmany
  refine ⟨combine k1 (hashOut X.toEnv (2 * (8 * len)) 1 ⟨.binary, label⟩), ?_⟩
  unfold mfpakeMany burglarSingle
  have h00 : passwords[0].length = len := hdb.lengths _ (List.getElem_mem (by omega))
  rw [idxR_ok (a := passwords[0]) (List.getElem?_eq_getElem (by omega)), liftM_ok, ret_bind]
  dsimp only
  rw [h00, hmm, maskPasswords_ok X.dbg hmask hdb.lengths, liftM_ok, ret_bind, d1, liftM_ok, ret_bind, d2, liftM_ok, ret_bind]
  refine .bind hmany (.bind h1 (.bind h2.swap ?_))
  dsimp only
  rw [bitsOf_unpack, xor_mask (by omega)]
  exact .ret _ _

theorem fakeServer_ends (C : Curve) (X : Crypto) (c : SingleDraws) (many : ManySend) (s : OTSend) (r : OTRecv)
    (password : Bytes) (len index number t : Nat) (hpw : password.length = len) (hlen : GoodLength len)
    (hnum : ∃ k, number = 2 ^ k) (hcount : number < 2 ^ 32) (hi : index < number) (hm : many.Valid X.dbg number) (hg : c.g.Valid)
    (ho : c.ot.Valid) (hs : s.Valid) (hr : r.Valid) (ht : t < 8 * len) (hcol : SomeColourAgrees c.g.rnd (8 * len))
    (label : WireBytes) :
    ∃ key, Ends (fakeServer C X many s r len number t label) (mfpakeSingle C X c password index number t) (key, bitsOf password) key := by
  obtain ⟨h0, hl32⟩ := good_fits hlen
  obtain ⟨-, hn', hD⟩ := goodLength hlen
  obtain ⟨k1, h1⟩ := reader_ends X.toEnv c.g.rnd c.g.ord hg.ord password t (8 * len) (by rw [hpw]) (by omega) hn' hD ht
    (ot_correct C X hg.ot hr (n := 8 * len) (by omega) (by omega) (by omega)) hcol
  have h2 := forger_ends X.toEnv password (8 * len) (by rw [hpw]) (by omega) (by omega)
    (ot_correct C X hs ho (n := 8 * len) (by omega) (by omega) (by omega)) label
  have hdb : Database (List.replicate number (List.replicate len (0 : Byte))) len :=
    ⟨by simpa using hnum, by simpa using hcount, by
      intro p hp; rw [(List.mem_replicate.mp hp).2]; simp⟩
  obtain ⟨domain, d1, d2, hmany⟩ := manyRun_ends C X (base := c.many) hdb (by simpa using hm)
    (index := index) (by simpa using hi) h0 hl32
  rw [List.length_replicate] at d1 d2
  rw [List.getElem_replicate] at hmany
  refine ⟨combine (hashOut X.toEnv (2 * (8 * len)) 1 ⟨.binary, label⟩) k1, ?_⟩
  unfold mfpakeSingle fakeServer
  rw [d1, liftM_ok, ret_bind, d2, liftM_ok, ret_bind]
  refine .bind hmany ?_
  rw [xorBytesInplace_ok X.dbg (by simp [hpw]), liftM_ok, ret_bind]
  have hz : List.zipWith (· ^^^ ·) (List.replicate len (0 : Byte)) password = password := by
    rw [← hpw]; exact xor_zeros password
  rw [hz]
  refine .bind h2 (.bind h1.swap ?_)
  dsimp only
  rw [bitsOf_unpack]
  exact .ret _ _

/-- The zero label of the exclusive or of three inputs has colour zero if the sum of their colours is even. -/
theorem xor_colour3 {E : Env} {rnd : GarbleRand} {n D T : Nat} (hc : WellTyped (thrCircuit3 n D T)) {run : GarbleRun}
    (hrun : garbleRun E rnd (thrCircuit3 n D T) = .ok run) {i : Nat} (hi : i < n)
    (hcol : ((rnd.input i)[31].toNat + (rnd.input (n + i))[31].toNat + (rnd.input (2 * n + i))[31].toNat) % 2 = 0) :
    ∃ z, run.state.wires[3 * n + i]? = some z ∧ z.color = 0 := by
  have hin : ∀ k, k < n * 3 → run.state.wires[k]? = some ⟨.binary, rnd.input k⟩ := by
    intro k hk
    obtain ⟨w, hw, h1, -⟩ := (run_steps hc hrun).2 k 2 (by
      show (List.replicate (n * 3) 2)[k]? = some 2
      rw [List.getElem?_replicate, if_pos hk])
    have : Wire.new 2 (rnd.input k) = .ok ⟨.binary, rnd.input k⟩ := rfl
    rw [this] at hw
    injection hw with hw
    rw [h1, hw]
  obtain ⟨w, hw, hlw, -, hz⟩ := run_sums hc hrun (g := ⟨i + 3 * n, 2, [i, i + n, i + 2 * n], .add⟩) (by
    show _ ∈ xorGates3 n ++ _
    exact List.mem_append_left _ (List.mem_map.mpr ⟨i, List.mem_range.mpr hi, rfl⟩)) rfl
  simp only at hw hlw hz
  refine ⟨w, by rw [Nat.add_comm]; exact hw, ?_⟩
  have hdw : w.domain = .binary := by
    have := hlw.dom
    have h2 : Domain.new 2 = .ok .binary := rfl
    rw [h2] at this
    injection this with this; exact this.symm
  have e := hz (colorPos w.domain)
  have hlt : w.color < 2 := color_lt_two hlw
  have e1 : zd 2 w (colorPos w.domain) = (w.color : ZMod 2) := by rw [color_eq]; rfl
  have ha : ∀ v : WireBytes, zd 2 ⟨.binary, v⟩ (colorPos w.domain) = ((v[31].toNat : ℕ) : ZMod 2) := by
    intro v
    have := color_eq ⟨.binary, v⟩
    rw [hdw]
    unfold zd
    rw [show colorPos Domain.binary = colorPos (⟨.binary, v⟩ : Wire).domain from rfl, ← this]
    rw [← ZMod.natCast_mod (v[31].toNat)]
    simp [Wire.color, BitVec.toNat_and, Nat.and_one_is_mod]
  have hg1 : run.state.wires.getD i Wire.empty = ⟨.binary, rnd.input i⟩ := by
    rw [List.getD, hin i (by omega), Option.getD_some]
  have hg2 : run.state.wires.getD (i + n) Wire.empty = ⟨.binary, rnd.input (n + i)⟩ := by
    rw [List.getD, Nat.add_comm i n, hin (n + i) (by omega), Option.getD_some]
  have hg3 : run.state.wires.getD (i + 2 * n) Wire.empty = ⟨.binary, rnd.input (2 * n + i)⟩ := by
    rw [List.getD, Nat.add_comm i (2 * n), hin (2 * n + i) (by omega), Option.getD_some]
  simp only [List.map_cons, List.map_nil, List.sum_cons, List.sum_nil, add_zero] at e
  rw [hg1, hg2, hg3, ha, ha, ha, e1] at e
  have h0 : ((w.color : ℕ) : ZMod 2) = 0 := by
    rw [e, ← add_assoc, ← Nat.cast_add, ← Nat.cast_add, ZMod.natCast_eq_zero_iff]
    exact Nat.dvd_of_mod_eq_zero hcol
  rw [ZMod.natCast_eq_zero_iff] at h0
  exact Nat.eq_zero_of_dvd_of_lt h0 hlt

/-- What can be computed from the three-input circuit. -/
structure Spy3 (E : Env) (rnd : GarbleRand) (ord : MapOrder) (n t : Nat) (z : List (Wire × Wire)) (K : WireBytes)
    (gc gc' : GarbledCircuit) (d : DecodingKey) : Prop where
  garbled : ((do garbleBinary E rnd (← buildCircuitV2 E.dbg n t)) : R _) = .ok (gc, z, d)
  key : outputKey d = .ok K
  length : z.length = n * 3
  binary : ∀ p ∈ z, p.1.domain = .binary ∧ p.2.domain = .binary
  sent : deserializeGarbled (sendGarbled ord gc) = .ok gc'
  spy : ∀ a b c : List Bool, a.length = n → b.length = n → c.length = n →
    stolenKey E (3 * n) n (n + 1) t gc' (pick (z.take n) a ++ pick ((z.drop n).take n) b ++ pick (z.drop (n * 2)) c) = .ok K ∧
    (t < n → readBits E (3 * n) n (n + 1) gc'
      (pick (z.take n) a ++ pick ((z.drop n).take n) b ++ pick (z.drop (n * 2)) c) = .ok (xorBits (xorBits a b) c))

theorem spy3 (E : Env) (rnd : GarbleRand) (ord : MapOrder) (hord : ord.Valid) {n t : Nat} (hn : 1 < n) (hn' : n < 65535)
    (heven : n % 2 = 0) (hD : GoodDomain (n + 1)) (ht : t < 65535) (hcol : SomeColourEven rnd n) :
    ∃ z K gc gc' d, Spy3 E rnd ord n t z K gc gc' d := by
  have hbuild := buildCircuitV2_ok E.dbg hn' ht
  have hc := thr3_typedD (T := t + 1) (show 0 < n by omega) good2 hD
  obtain ⟨run, z, d, zl, w1, hrun, hok, hgb, hzl, hzb, hK, hzw, hlab, hcar, henc⟩ := half_detail E rnd hc
    (by intro d hd; exact (List.mem_replicate.mp hd).2) (by show 0 < n * 3; omega) rfl (thr3_last n (n + 1) (t + 1))
  change z.length = n * 3 at hzl
  have hfits := thr3_fits (n := n) (D := n + 1) (T := t + 1) (by omega) (by omega) (by omega)
  have hgf : GarbledFits (thrCircuit3 n (n + 1) (t + 1)) (ord.f run.state.f) (ord.h run.state.fHalf) :=
    garble_fits hrun hfits.1 hfits.2 (hord.f _) (hord.h _)
  have hgc : deserializeGarbled (sendGarbled ord ⟨thrCircuit3 n (n + 1) (t + 1), run.state.f, run.state.fHalf⟩) =
      .ok ⟨thrCircuit3 n (n + 1) (t + 1), hmapOfEntries (ord.f run.state.f), hmapOfEntries (ord.h run.state.fHalf)⟩ :=
    deserializeGarbled_ok hgf
  obtain ⟨i, hi, hci⟩ := hcol
  have hleak : ∃ i < n, ∃ z, run.state.wires[3 * n + i]? = some z ∧ z.color = 0 := ⟨i, hi, xor_colour3 hc hrun hi hci⟩
  have hnw : (thrCircuit3 n (n + 1) (t + 1)).numWires = 3 * n + 2 * n + 2 := by
    show 5 * n + 2 = _; omega
  have hgs : (thrCircuit3 n (n + 1) (t + 1)).gates = xorGates3 n ++ tailGates (3 * n) n (n + 1) (t + 1) := rfl
  have hidx : (thrCircuit3 n (n + 1) (t + 1)).numWires - 1 = 3 * n + 2 * n + 1 := by
    show 5 * n + 2 - 1 = _; omega
  rw [hidx] at hK hzw
  obtain ⟨δ2, hδ2, -⟩ := hok.deltas 2 ⟨⟨0 + 3 * n, 2, [0, 0 + n, 0 + 2 * n], .add⟩, by
    show _ ∈ xorGates3 n ++ _
    exact List.mem_append_left _ (List.mem_map.mpr ⟨0, List.mem_range.mpr (by omega), rfl⟩), .inl rfl⟩
  refine ⟨z, _, _, _, d, by rw [hbuild, okb, hgb], hK, hzl, hzb, hgc, ?_⟩
  intro a b c ha hb hcl
  have hpick : pick (z.take n) a ++ pick ((z.drop n).take n) b ++ pick (z.drop (n * 2)) c = pick z (a ++ b ++ c) := by
    have e1 := pick_append (z := z) (a := a ++ b) (b := c) (by simp [ha, hb, hcl]; omega)
    have e2 := pick_append (z := z.take (n + n)) (a := a) (b := b) (by simp [ha, hb]; omega)
    rw [List.length_append, ha, hb] at e1
    rw [ha] at e2
    rw [← e1, ← e2]
    rw [List.take_take, Nat.min_eq_left (by omega), List.drop_take, Nat.add_sub_cancel_left, Nat.mul_two]
  rw [hpick]
  obtain ⟨hin, hXl, hXi⟩ := henc (a ++ b ++ c) (by
    rw [List.length_append, List.length_append, ha, hb, hcl]; show n + n + n = n * 3; omega)
  constructor
  · obtain ⟨z', w1', hz', hc', hst⟩ := steal_ok hc hrun hok (xs := xorGates3 n) (b := 3 * n) (n := n) (D := n + 1) (t := t) hgs hnw hD (by omega) (by omega) hleak
      (gc' := ⟨thrCircuit3 n (n + 1) (t + 1), hmapOfEntries (ord.f run.state.f), hmapOfEntries (ord.h run.state.fHalf)⟩) rfl
      (iteration_lookup (hord.f _)) (iteration_lookup (hord.h _)) hin hXl hXi
    have hzz := Option.some.inj (hzw.symm.trans hz')
    subst hzz
    have hw : w1' = w1 := label_ext hc'.lab hcar.lab fun i => by rw [hc'.eq δ2 hδ2, hcar.eq δ2 hδ2]
    rw [hst, hw]
  · intro htn
    have hxl : (xorBits (xorBits a b) c).length = n := by simp [xorBits, ha, hb, hcl]
    refine readBits_ok hc hrun hok (xs := xorGates3 n) (b := 3 * n) (n := n) (D := n + 1) (t := t) hgs hnw hD (by omega) (by omega) (by omega) hleak
      (gc' := ⟨thrCircuit3 n (n + 1) (t + 1), hmapOfEntries (ord.f run.state.f), hmapOfEntries (ord.h run.state.fHalf)⟩) rfl
      (iteration_lookup (hord.f _)) (iteration_lookup (hord.h _)) hin hXl hXi _ hxl fun j hj => ?_
    rw [values_thr3 ha hb hcl]
    have hl1 : (bitsNat (a ++ b ++ c)).length = 3 * n := by
      simp [bitsNat, ha, hb, hcl]; omega
    have hl2 : (bitsNat (xorBits (xorBits a b) c)).length = n := by simp [bitsNat, hxl]
    rw [List.append_assoc, List.append_assoc, List.getElem?_append_right (by omega),
      List.getElem?_append_left (by omega), hl1, Nat.add_sub_cancel_left]

/-- The half of the third implementation in which the server garbles. -/
theorem readerV3_ends (C : Curve) (X : Crypto) (s : ServerDraws) (c : ClientDraws) (passwords : List Bytes)
    (len index t : Nat) (hdb : Database passwords len) (hlen : GoodLength len)
    (hi : index < passwords.length) (hm : s.many.Valid X.dbg passwords.length) (hsg : s.g.Valid) (hs2 : s.ot2.Valid)
    (hco : c.ot.Valid) (hco2 : c.ot2.Valid) (ht : t < 8 * len) (hcol : SomeColourEven s.g.rnd (8 * len)) :
    ∃ k mask, mask.length = len ∧ Ends (garblerServerV3 C X s passwords t) (readerV3 C X c len passwords.length index t)
      (k, mask) (k, bitsOf passwords[index]) := by
  obtain ⟨h0, hl32⟩ := good_fits hlen
  obtain ⟨-, hn', hD⟩ := goodLength hlen
  have hmask := drawMask_length s.mask len
  generalize hmm : drawMask s.mask len = mask at hmask
  have hil : passwords[index].length = len := hdb.lengths _ (List.getElem_mem hi)
  have hxl : (xorB mask passwords[index]).length = len := by rw [xorB_length (by omega), hil]
  rw [Nat.mul_comm 8 len] at hn' hD hcol ht
  obtain ⟨z, K, gc, gc', d, H⟩ := spy3 X.toEnv s.g.rnd s.g.ord hsg.ord (n := len * 8) (t := t) (by omega) hn' (by omega) hD
    (by omega) hcol
  have ul : ∀ p : Bytes, p.length = len → (u8VecToBoolVec p).length = len * 8 := fun p h => by rw [unpack_length, h, Nat.mul_comm]
  have hzl : (List.replicate (len * 8) false).length = len * 8 := by simp
  obtain ⟨hst, hrd⟩ := H.spy _ _ _ hzl (ul mask hmask) (ul _ hxl)
  refine ⟨K, mask, hmask, ?_⟩
  obtain ⟨domain, d1, d2, hmany⟩ := manyRun_ends C X (base := c.many) (Database.map hdb hmask) (by simpa using hm)
    (index := index) (by simpa using hi) h0 hl32
  rw [List.length_map] at d1 d2
  rw [List.getElem_map] at hmany
  have hz := H.length
  have hgb := H.garbled
  unfold garblerServerV3 readerV3
  have h00 : passwords[0].length = len := hdb.lengths _ (List.getElem_mem (by omega))
  rw [idxR_ok (a := passwords[0]) (List.getElem?_eq_getElem (by omega)), liftM_ok, ret_bind]
  dsimp only
  rw [h00, hmm, Nat.mul_comm 8 len]
  rw [buildCircuitV2_ok X.dbg hn' (by omega)] at hgb ⊢
  rw [okb] at hgb
  rw [liftM_ok, ret_bind, hgb, liftM_ok, ret_bind]
  dsimp only
  rw [sendP_bind, recvP_bind]
  refine .sendRecv ?_
  rw [labelPairs_ok (by omega), liftM_ok, ret_bind, H.sent, liftM_ok, ret_bind]
  refine .bind (otChosen C X hsg.ot hco h0 (by omega) (by simp; omega) hzl) ?_
  rw [encodeRows_ok X.dbg (by omega) (by omega), liftM_ok, ret_bind, sendP_bind, recvP_bind]
  refine .sendRecv ?_
  rw [d1, liftM_ok, ret_bind, maskPasswords_ok X.dbg hmask hdb.lengths, liftM_ok, ret_bind, d2, liftM_ok, ret_bind]
  refine .bind hmany ?_
  rw [labelPairs_ok (by omega), liftM_ok, ret_bind, ← bitsOf_unpack]
  refine .bind (otChosen C X hs2 hco2 h0 (by omega) (by simp; omega) (ul _ hxl)) ?_
  have pl : ∀ (off : Nat) (p : List Bool), off + len * 8 ≤ z.length → p.length = len * 8 →
      (pick ((z.drop off).take (len * 8)) p).length = len * 8 := by
    intro off p ho hp
    rw [pick_length (by rw [hp]; simp; omega)]; simp; omega
  rw [payloadToEncoding_ok X.dbg (pick_mem H.binary _) (pl 0 _ (by omega) hzl), liftM_ok, ret_bind,
    bytesToEncoding_ok X.dbg (pick_mem H.binary _) (pl _ _ (by omega) (ul _ hmask)), liftM_ok, ret_bind,
    payloadToEncoding_ok X.dbg (pick_mem H.binary _) (pl _ _ (by omega) (ul _ hxl)), liftM_ok, ret_bind, H.key, liftM_ok, ret_bind]
  rw [List.drop_zero, List.take_of_length_le (l := z.drop (len * 8 * 2)) (by simp; omega), hst, liftM_ok, ret_bind, hrd ht,
    liftM_ok, ret_bind]
  have hx : xorBits (xorBits (List.replicate (len * 8) false) (u8VecToBoolVec mask)) (u8VecToBoolVec (xorB mask passwords[index])) =
      bitsOf passwords[index] := by
    rw [unpack_xor _ _ (by omega), ← bitsOf_unpack]
    have l1 := ul mask hmask
    have l2 := ul _ hil
    apply List.ext_getElem
    · simp [xorBits, l1, l2]
    · intro i h1 h2
      simp [xorBits]
  rw [hx]
  exact .ret _ _

/-- The circuit of the forger arrives. -/
theorem first_sent {n : Nat} (h0 : 0 < n) (h : n < 2 ^ 63) : deserializeGarbled (serializeGarbled ⟨firstInput n, [], []⟩ [] []) =
    .ok ⟨firstInput n, hmapOfEntries [], hmapOfEntries []⟩ := by
  refine deserializeGarbled_ok ⟨⟨?_, ?_, ?_, ?_, ?_, ?_, ?_⟩, by simp, by simp, by simp, by simp⟩
  · show n + 1 < 2 ^ 64; omega
  · show n < 2 ^ 64; omega
  · show 1 < 2 ^ 64; omega
  · show 1 < 2 ^ 64; omega
  · intro g hg
    have hg : g ∈ [(⟨n, 2, [0], .add⟩ : Gate)] := hg
    rw [List.mem_singleton] at hg
    subst hg
    refine ⟨?_, ?_, ?_, ?_, trivial⟩
    · show n < 2 ^ 64; omega
    · show 2 < 65536; omega
    · show 1 < 2 ^ 64; omega
    · intro i hi
      rw [List.mem_singleton] at hi
      omega
  · show (List.replicate n 2).length < 2 ^ 64; rw [List.length_replicate]; omega
  · intro d hd
    have := (List.mem_replicate.mp hd).2
    omega

/-- The key derived from it. -/
theorem first_key (E : Env) {n : Nat} (h0 : 0 < n) (label : WireBytes) (f : HMap Nat (List Wire)) (fh : HMap Nat (Wire × Wire)) :
    evaluatedKey E ⟨firstInput (3 * n), f, fh⟩ (List.replicate n (⟨.binary, label⟩ : Wire) ++
      List.replicate n (⟨.binary, label⟩ : Wire) ++ List.replicate n (⟨.binary, label⟩ : Wire)) =
      .ok (hashOut E (3 * n) 1 ⟨.binary, label⟩) := by
  have hl : (List.replicate n (⟨.binary, label⟩ : Wire) ++ List.replicate n (⟨.binary, label⟩ : Wire) ++
      List.replicate n (⟨.binary, label⟩ : Wire)).length = 3 * n := by
    simp; omega
  unfold evaluatedKey
  rw [evaluate_first E hl (by omega), okb, subR_ok E.dbg (by show 1 ≤ 3 * n + 1; omega), okb]
  have : (List.replicate n (⟨.binary, label⟩ : Wire) ++ List.replicate n (⟨.binary, label⟩ : Wire) ++
      List.replicate n (⟨.binary, label⟩ : Wire))[0]'(by omega) = ⟨.binary, label⟩ := by
    rw [List.getElem_append_left (by simp; omega), List.getElem_append_left (by simp; omega), List.getElem_replicate]
  rw [this]
  rfl

/-- The half of the third implementation in which the client garbles. -/
theorem forgerV3_ends (C : Curve) (X : Crypto) (s : OTSend) (o : OTRecv) (passwords : List Bytes) (mask : Bytes)
    (len : Nat) (hpos : 0 < passwords.length) (hdb : ∀ p ∈ passwords, p.length = len) (hlen : GoodLength len)
    (hmask : mask.length = len) (hs : s.Valid) (ho : o.Valid) (label : WireBytes) :
    Ends (forgerV3 C X s (8 * len) label) (evaluatorServerV3 C X o passwords mask)
      (hashOut X.toEnv (3 * (8 * len)) 1 ⟨.binary, label⟩) (hashOut X.toEnv (3 * (8 * len)) 1 ⟨.binary, label⟩) := by
  obtain ⟨h0, hl32⟩ := good_fits hlen
  have ul : (u8VecToBoolVec mask).length = 8 * len := by rw [unpack_length, hmask]
  unfold forgerV3 evaluatorServerV3
  have h00 : passwords[0].length = len := hdb _ (List.getElem_mem (by omega))
  rw [idxR_ok (a := passwords[0]) (List.getElem?_eq_getElem (by omega)), liftM_ok, ret_bind]
  dsimp only
  rw [h00, Nat.mul_comm len 8]
  generalize hnn : 8 * len = n at *
  have hgc := first_sent (n := 3 * n) (by omega) (by omega)
  have hbin : ∀ w ∈ List.replicate n (⟨.binary, label⟩ : Wire), w.domain = .binary := by
    intro w hw; rw [(List.mem_replicate.mp hw).2]
  rw [sendP_bind, recvP_bind]
  refine .sendRecv ?_
  rw [hgc, liftM_ok, ret_bind, sendP_bind, recvP_bind]
  refine .sendRecv ?_
  rw [deserialize_ok wires_rt ⟨by rw [List.length_replicate]; omega, fun w hw => binary_fits (hbin w hw)⟩, liftM_ok, ret_bind,
    bitsUpTo_ok hmask, liftM_ok, ret_bind]
  have hot := (ot_correct C X hs ho (n := n) (by omega) (by omega) (by omega))
    (List.replicate n (label.toList, label.toList)) (u8VecToBoolVec mask) (by simp) ul (by
      intro m hm
      rw [(List.mem_replicate.mp hm).2]
      simp)
  refine .bind hot.ends ?_
  rw [chosen_same label _ ul, sendP_bind, recvP_bind]
  refine .sendRecv ?_
  have hflat : (List.replicate n label.toList).flatten = (List.replicate n (⟨.binary, label⟩ : Wire)).flatMap Wire.bytes := by
    rw [List.flatMap_def, List.map_replicate]
    rfl
  have hw32 : ∀ w : Wire, w.bytes.length = 32 := by intro w; simp [Wire.bytes]
  rw [idxR_ok (a := (⟨.binary, label⟩ : Wire).bytes) (by
      rw [List.getElem?_map, List.getElem?_eq_getElem (by simp; omega), List.getElem_replicate]; rfl), liftM_ok, ret_bind, hw32,
    payloadToEncoding_ok X.dbg hbin (by simp), liftM_ok, ret_bind, hflat, bytesToEncoding_ok X.dbg hbin (by simp), liftM_ok,
    ret_bind]
  rw [first_key X.toEnv (by omega)]
  exact .ret _ _

/-- A client of the third implementation against a server without passwords. -/
theorem forgerServerV3_ends (C : Curve) (X : Crypto) (s : OTSend) (many : ManySend) (s2 : OTSend) (c : ClientDraws) (password : Bytes)
    (len index number : Nat) (hpw : password.length = len) (hlen : GoodLength len)
    (hnum : ∃ k, number = 2 ^ k) (hcount : number < 2 ^ 32) (hi : index < number) (hm : many.Valid X.dbg number)
    (hs : s.Valid) (hs2 : s2.Valid) (hco : c.ot.Valid) (hco2 : c.ot2.Valid) (label : WireBytes) :
    Ends (forgerServerV3 C X s many s2 len number label) (evaluatorClientV3 C X c password number index)
      (hashOut X.toEnv (3 * (8 * len)) 1 ⟨.binary, label⟩) (hashOut X.toEnv (3 * (8 * len)) 1 ⟨.binary, label⟩,
        List.replicate len 0) := by
  obtain ⟨h0, hl32⟩ := good_fits hlen
  have ul : ∀ p : Bytes, p.length = len → (u8VecToBoolVec p).length = 8 * len := fun p h => by rw [unpack_length, h]
  have hdb : Database (List.replicate number (List.replicate len (0 : Byte))) len :=
    ⟨by simpa using hnum, by simpa using hcount, by
      intro p hp; rw [(List.mem_replicate.mp hp).2]; simp⟩
  obtain ⟨domain, d1, d2, hmany⟩ := manyRun_ends C X (base := c.many) hdb (by simpa using hm)
    (index := index) (by simpa using hi) h0 hl32
  rw [List.length_replicate] at d1 d2
  rw [List.getElem_replicate] at hmany
  unfold forgerServerV3 evaluatorClientV3
  dsimp only
  rw [hpw, Nat.mul_comm len 8]
  generalize hnn : 8 * len = n at *
  have hbin : ∀ w ∈ List.replicate n (⟨.binary, label⟩ : Wire), w.domain = .binary := by
    intro w hw; rw [(List.mem_replicate.mp hw).2]
  have hot : ∀ {s : OTSend} {r : OTRecv}, s.Valid → r.Valid → ∀ bits : List Bool, bits.length = n →
      Ends (s.run C X (List.replicate n (label.toList, label.toList))) (r.run C X bits) ()
        ((List.replicate n (⟨.binary, label⟩ : Wire)).map Wire.bytes) := by
    intro s r hs hr bits hb
    rw [← chosen_same label bits hb]
    refine ((ot_correct C X hs hr (n := n) (by omega) (by omega) (by omega))
      (List.replicate n (label.toList, label.toList)) bits (by simp) hb (by
      intro m hm
      rw [(List.mem_replicate.mp hm).2]
      simp)).ends
  have hz : (List.replicate len (0 : Byte)).length = len := by simp
  rw [sendP_bind, recvP_bind]
  refine .sendRecv ?_
  rw [first_sent (n := 3 * n) (by omega) (by omega), liftM_ok, ret_bind, bitsUpTo_ok hpw, liftM_ok, ret_bind]
  refine .bind (hot hs hco _ (ul _ hpw)) ?_
  rw [sendP_bind, recvP_bind]
  refine .sendRecv ?_
  rw [d1, liftM_ok, ret_bind, d2, liftM_ok, ret_bind]
  refine .bind hmany ?_
  rw [bitsUpTo_ok hz, liftM_ok, ret_bind]
  refine .bind (hot hs2 hco2 _ (ul _ hz)) ?_
  have hflat : (List.replicate n label.toList).flatten = (List.replicate n (⟨.binary, label⟩ : Wire)).flatMap Wire.bytes := by
    rw [List.flatMap_def, List.map_replicate]
    rfl
  have hw32 : ∀ w : Wire, w.bytes.length = 32 := by intro w; simp [Wire.bytes]
  rw [idxR_ok (a := (⟨.binary, label⟩ : Wire).bytes) (by
      rw [List.getElem?_map, List.getElem?_eq_getElem (by simp; omega), List.getElem_replicate]; rfl), liftM_ok, ret_bind, hw32,
    payloadToEncoding_ok X.dbg hbin (by simp), liftM_ok, ret_bind, hflat, bytesToEncoding_ok X.dbg hbin (by simp), liftM_ok,
    ret_bind, ret_bind, first_key X.toEnv (by omega), liftM_ok, ret_bind]
  exact .ret _ _

/-- The client garbles. -/
theorem readerServerV3_ends (C : Curve) (X : Crypto) (g : GarblerDraws) (o : OTRecv) (password : Bytes) (len index number t : Nat)
    (hlen : GoodLength len) (hpw : password.length = len) (hg : g.Valid) (ho : o.Valid) (ht : t < 8 * len)
    (hcol : SomeColourEven g.rnd (8 * len)) :
    ∃ k, Ends (readerServerV3 C X o (8 * len) t) (garblerClientV3 C X g password (List.replicate len 0) index number t)
      (k, bitsOf password) k := by
  obtain ⟨h0, hl32⟩ := good_fits hlen
  obtain ⟨-, hn', hD⟩ := goodLength hlen
  rw [Nat.mul_comm 8 len] at hn' hD ht hcol ⊢
  obtain ⟨z, K, gc, gc', d, H⟩ := spy3 X.toEnv g.rnd g.ord hg.ord (n := len * 8) (t := t) (by omega) hn' (by omega) hD
    (by omega) hcol
  have ul : ∀ p : Bytes, p.length = len → (u8VecToBoolVec p).length = len * 8 := fun p h => by rw [unpack_length, h, Nat.mul_comm]
  have hzl : (List.replicate len (0 : Byte)).length = len := by simp
  have hfl : (List.replicate (len * 8) false).length = len * 8 := by simp
  obtain ⟨hst, hrd⟩ := H.spy _ _ _ (ul _ hzl) hfl (ul password hpw)
  refine ⟨K, Ends.swap ?_⟩
  have hz := H.length
  have hgb := H.garbled
  have pl : ∀ (off : Nat) (p : List Bool), off + len * 8 ≤ z.length → p.length = len * 8 →
      (pick ((z.drop off).take (len * 8)) p).length = len * 8 := by
    intro off p ho hp
    rw [pick_length (by rw [hp]; simp; omega)]; simp; omega
  unfold garblerClientV3 readerServerV3
  dsimp only
  rw [hpw]
  rw [buildCircuitV2_ok X.dbg hn' (by omega)] at hgb ⊢
  rw [okb] at hgb
  rw [liftM_ok, ret_bind, hgb, liftM_ok, ret_bind, bitsUpTo_ok hpw, liftM_ok, ret_bind]
  dsimp only
  rw [labelsAt_ok (by rw [ul _ hpw]; omega), liftM_ok, ret_bind, ul _ hpw, sendP_bind, recvP_bind]
  refine .sendRecv ?_
  rw [H.sent, liftM_ok, ret_bind, sendP_bind, recvP_bind]
  refine .sendRecv ?_
  rw [deserialize_ok wires_rt ⟨by rw [pl _ _ (by omega) (ul _ hpw)]; omega, fun w hw => binary_fits (pick_mem H.binary _ w hw)⟩, liftM_ok,
    ret_bind, labelPairs_ok (by omega), liftM_ok, ret_bind]
  refine .bind (otChosen C X hg.ot ho h0 (by omega) (by simp; omega) hfl) ?_
  rw [idxR_ok (a := z[0]) (List.getElem?_eq_getElem (by omega)), liftM_ok, ret_bind, encodeRows_ok X.dbg (by omega) (by omega),
    liftM_ok, ret_bind, sendP_bind, recvP_bind]
  refine .sendRecv ?_
  rw [payloadToEncoding_ok X.dbg (pick_mem H.binary _) (pl _ _ (by omega) hfl), liftM_ok, ret_bind,
    bytesToEncoding_ok X.dbg (pick_mem H.binary _) (pl 0 _ (by omega) (ul _ hzl)), liftM_ok, ret_bind, H.key]
  rw [List.drop_zero, List.take_of_length_le (l := z.drop (len * 8 * 2)) (by simp; omega), hst, liftM_ok, ret_bind, hrd ht,
    liftM_ok, ret_bind]
  have hx : xorBits (xorBits (u8VecToBoolVec (List.replicate len 0)) (List.replicate (len * 8) false)) (u8VecToBoolVec password) =
      bitsOf password := by
    rw [← bitsOf_unpack]
    have l1 := ul _ hzl
    have l2 := ul _ hpw
    have hb : ∀ i (h : i < (u8VecToBoolVec (List.replicate len (0 : Byte))).length),
        (u8VecToBoolVec (List.replicate len (0 : Byte)))[i] = false := by
      intro i h
      have := unpack_bitAt (List.replicate len (0 : Byte)) i
      rw [List.getD_eq_getElem?_getD, List.getElem?_eq_getElem h] at this
      simp only [Option.getD_some] at this
      rw [this]
      unfold bitAt
      rw [List.getD_eq_getElem?_getD, List.getElem?_replicate]
      split <;> simp
    generalize u8VecToBoolVec (List.replicate len (0 : Byte)) = zs at l1 hb
    apply List.ext_getElem
    · simp [xorBits, l1, l2]
    · intro i h1 h2
      simp [xorBits, hb]
  rw [hx]
  exact .ret _ _

end FP
