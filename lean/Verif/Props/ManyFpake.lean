import Verif.Proof.ManyFpake
import Verif.Props.Fpake
import Verif.Proof.Witness
/-
C32, C33, C41: the one-of-many key exchanges of src/many_fpake.rs.
-/
namespace FP.Props
open Spec

theorem drawMask_length (rand : Nat → Byte) (len : Nat) : (drawMask rand len).length = len := by simp [drawMask]

theorem good_fits {len : Nat} (h : GoodLength len) : 0 < len ∧ len < 2 ^ 32 := by
  unfold GoodLength at h; omega

theorem Database.map {passwords : List Bytes} {len : Nat} (h : Database passwords len) {mask : Bytes}
    (hm : mask.length = len) : Database (passwords.map (xorB mask)) len :=
  ⟨by simpa using h.power, by simpa using h.count, by
    intro p hp
    obtain ⟨q, hq, rfl⟩ := List.mem_map.mp hp
    rw [xorB_length (by rw [hm, h.lengths q hq]), h.lengths q hq]⟩

/-! ### C32: the fourth implementation -/

/-- The messages of the fourth implementation, given the two directions. -/
theorem many_conn (C : Curve) (X : Crypto) (s : ManyDraws) (c : SingleDraws) (passwords : List Bytes) (password : Bytes)
    (given : Bytes) (len index ts tc : Nat) (hdb : Database passwords len) (h0 : 0 < len) (hl32 : len < 2 ^ 32)
    (hi : index < passwords.length) (hm : s.many.Valid X.dbg passwords.length)
    (hgiven : ∀ m : Bytes, m.length = len → xorBytesInplace X.dbg m given = .ok (xorB m password)) {a a' b b' : WireBytes}
    (h1 : Ends (HalfKey.garbler C X s.g (drawMask s.mask len) ts)
      (HalfKey.evaluator C X c.ot (xorB (xorB (drawMask s.mask len) passwords[index]) password)) a a')
    (h2 : Ends (HalfKey.evaluator C X s.ot (drawMask s.mask len))
      (HalfKey.garbler C X c.g (xorB (xorB (drawMask s.mask len) passwords[index]) password) tc) b b') :
    Ends (mfpakeMany C X s passwords ts) (mfpakeSingle C X c given index passwords.length tc)
      (combine a b) (combine a' b') := by
  have hmask := drawMask_length s.mask len
  generalize hmm : drawMask s.mask len = mask at hmask h1 h2
  have hil : passwords[index].length = len := hdb.lengths _ (List.getElem_mem hi)
  have hxl : (xorB mask passwords[index]).length = len := by rw [xorB_length (by omega), hil]
  obtain ⟨domain, d1, d2, hmany⟩ := manyRun_ends C X (base := c.many) (Database.map hdb hmask) (by simpa using hm)
    (index := index) (by simpa using hi) h0 hl32
  rw [List.length_map] at d1 d2
  rw [List.getElem_map] at hmany
  unfold mfpakeMany mfpakeSingle
  have h00 : passwords[0].length = len := hdb.lengths _ (List.getElem_mem (by omega))
  rw [idxR_ok (a := passwords[0]) (List.getElem?_eq_getElem (by omega)), liftM_ok, ret_bind]
  dsimp only
  rw [h00, hmm, maskPasswords_ok X.dbg hmask hdb.lengths, liftM_ok, ret_bind, d1, liftM_ok, ret_bind, d2, liftM_ok, ret_bind]
  refine .bind hmany ?_
  rw [hgiven _ hxl, liftM_ok, ret_bind]
  exact .bind h1 (.bind h2 (.ret _ _))

/-- What the two parties of the fourth implementation compute: the server's two halves `a`, `b` and the
client's `a'`, `b'`. -/
theorem many_ends (C : Curve) (X : Crypto) (s : ManyDraws) (c : SingleDraws) (passwords : List Bytes) (password : Bytes)
    (given : Bytes) (len index ts tc : Nat) (hdb : Database passwords len) (hlen : GoodLength len) (hpw : password.length = len)
    (hi : index < passwords.length) (hm : s.many.Valid X.dbg passwords.length) (hsg : s.g.Valid) (hso : s.ot.Valid)
    (hcg : c.g.Valid) (hco : c.ot.Valid) (hts : ts < 65535) (htc : tc < 65535)
    (hgiven : ∀ m : Bytes, m.length = len → xorBytesInplace X.dbg m given = .ok (xorB m password)) :
    ∃ a a' b b', Ends (mfpakeMany C X s passwords ts) (mfpakeSingle C X c given index passwords.length tc)
        (combine a b) (combine a' b') ∧
      (bitDistance passwords[index] password ≤ ts → a = a') ∧ (bitDistance passwords[index] password ≤ tc → b = b') ∧
      (ts < bitDistance passwords[index] password →
        NoOutputCollision X.toEnv s.g.rnd (buildCircuit X.dbg (8 * len) ts) → a ≠ a') ∧
      (tc < bitDistance passwords[index] password →
        NoOutputCollision X.toEnv c.g.rnd (buildCircuit X.dbg (8 * len) tc) → b ≠ b') := by
  obtain ⟨h0, hl32⟩ := good_fits hlen
  have hmask := drawMask_length s.mask len
  generalize hmm : drawMask s.mask len = mask at hmask
  have hil : passwords[index].length = len := hdb.lengths _ (List.getElem_mem hi)
  have hxl : (xorB mask passwords[index]).length = len := by rw [xorB_length (by omega), hil]
  obtain ⟨a, a', b, b', h1, h2, h3, h4, h5, h6⟩ := both_ends C X s.g c.g s.ot c.ot hsg hcg hso hco mask
    (xorB (xorB mask passwords[index]) password) ts tc (by rw [xorB_length (by omega), hpw, hmask]) (by rw [hmask]; exact hlen)
    hts htc
  rw [distance_masked (by omega) (by omega), hmask] at h5 h6
  rw [distance_masked (by omega) (by omega)] at h3 h4
  have hbc : bitDistance password passwords[index] = bitDistance passwords[index] password :=
    bitDistance_comm _ _ (by omega)
  rw [hbc] at h3 h4 h5 h6
  subst hmm
  exact ⟨a, a', b, b', many_conn C X s c passwords password given len index ts tc hdb h0 hl32 hi hm hgiven h1 h2, h3, h4, h5, h6⟩

/-- C32: the server holding a database and a client holding an index and a password that differs from
the indexed one in at most both thresholds derive the same key, on every schedule, whatever the other
passwords are. -/
theorem C32_same_key_partial (C : Curve) (X : Crypto) (s : ManyDraws) (c : SingleDraws) (passwords : List Bytes)
    (password : Bytes) (len index ts tc : Nat) (hdb : Database passwords len) (hlen : GoodLength len)
    (hpw : password.length = len) (hi : index < passwords.length) (hm : s.many.Valid X.dbg passwords.length)
    (hsg : s.g.Valid) (hso : s.ot.Valid) (hcg : c.g.Valid) (hco : c.ot.Valid) (hts : ts < 65535) (htc : tc < 65535)
    (h1 : bitDistance passwords[index] password ≤ ts) (h2 : bitDistance passwords[index] password ≤ tc) :
    ∃ key, Completes (mfpakeMany C X s passwords ts) (mfpakeSingle C X c password index passwords.length tc) key key := by
  obtain ⟨a, a', b, b', h, ha, hb, -, -⟩ := many_ends C X s c passwords password password len index ts tc hdb hlen hpw hi hm
    hsg hso hcg hco hts htc fun m hl => xorBytesInplace_ok X.dbg (by omega)
  rw [← ha h1, ← hb h2] at h
  exact ⟨_, h.completes⟩

example := C32_same_key_partial Witness.curve (Witness.crypto true) Witness.manyDraws Witness.singleDraws
    Witness.passwords Witness.password 2 1 1 1 (by meets) (by meets) (by meets) (by meets) (by meets) (by meets)
    (by meets) (by meets) (by meets) (by meets) (by meets) (by meets) (by meets)

/-- C32: if the client's password is beyond the threshold in exactly one direction the keys differ,
unless output labels collide. -/
theorem C32_distant_partial (C : Curve) (X : Crypto) (s : ManyDraws) (c : SingleDraws) (passwords : List Bytes)
    (password : Bytes) (len index ts tc : Nat) (hdb : Database passwords len) (hlen : GoodLength len)
    (hpw : password.length = len) (hi : index < passwords.length) (hm : s.many.Valid X.dbg passwords.length)
    (hsg : s.g.Valid) (hso : s.ot.Valid) (hcg : c.g.Valid) (hco : c.ot.Valid) (hts : ts < 65535) (htc : tc < 65535) :
    ∃ key key', Completes (mfpakeMany C X s passwords ts) (mfpakeSingle C X c password index passwords.length tc) key key' ∧
      (ts < bitDistance passwords[index] password → bitDistance passwords[index] password ≤ tc →
        NoOutputCollision X.toEnv s.g.rnd (buildCircuit X.dbg (8 * len) ts) → key ≠ key') ∧
      (bitDistance passwords[index] password ≤ ts → tc < bitDistance passwords[index] password →
        NoOutputCollision X.toEnv c.g.rnd (buildCircuit X.dbg (8 * len) tc) → key ≠ key') := by
  obtain ⟨a, a', b, b', h, ha, hb, ha', hb'⟩ := many_ends C X s c passwords password password len index ts tc hdb hlen hpw hi hm
    hsg hso hcg hco hts htc fun m hl => xorBytesInplace_ok X.dbg (by omega)
  refine ⟨_, _, h.completes, ?_, ?_⟩
  · intro h1 h2 hnc heq
    have hb := hb h2
    subst hb
    rw [C12_combine_comm a b, C12_combine_comm a' b] at heq
    exact ha' h1 hnc (C12_combine_inj _ _ _ heq)
  · intro h1 h2 hnc heq
    have ha := ha h1
    subst ha
    exact hb' h2 hnc (C12_combine_inj _ _ _ heq)

example := C32_distant_partial Witness.curve (Witness.crypto true) Witness.manyDraws Witness.singleDraws
    Witness.passwords Witness.password 2 1 1 1 (by meets) (by meets) (by meets) (by meets) (by meets) (by meets)
    (by meets) (by meets) (by meets) (by meets) (by meets)

/-- C32 is false of a release build for passwords longer than the stored ones: everything after the
length of the stored passwords is ignored, so that a password with arbitrary bytes appended is accepted
like the password. -/
theorem C32_fails_longer_release (C : Curve) (X : Crypto) (s : ManyDraws) (c : SingleDraws) (passwords : List Bytes)
    (password extra : Bytes) (len index ts tc : Nat) (hdbg : X.dbg = false) (hdb : Database passwords len)
    (hlen : GoodLength len) (hpw : password.length = len) (hi : index < passwords.length)
    (hm : s.many.Valid X.dbg passwords.length) (hsg : s.g.Valid) (hso : s.ot.Valid) (hcg : c.g.Valid) (hco : c.ot.Valid)
    (hts : ts < 65535) (htc : tc < 65535) (h1 : bitDistance passwords[index] password ≤ ts)
    (h2 : bitDistance passwords[index] password ≤ tc) :
    ∃ key, Completes (mfpakeMany C X s passwords ts)
      (mfpakeSingle C X c (password ++ extra) index passwords.length tc) key key := by
  obtain ⟨a, a', b, b', h, ha, hb, -, -⟩ := many_ends C X s c passwords password (password ++ extra) len index ts tc hdb
    hlen hpw hi hm hsg hso hcg hco hts htc fun m hl => by
      rw [hdbg, xorBytesInplace_release (by simp; omega)]
      refine congrArg Except.ok ?_
      unfold xorB
      conv_lhs => rw [← List.append_nil m]
      rw [List.zipWith_append (by omega), List.zipWith_nil_left, List.append_nil]
  rw [← ha h1, ← hb h2] at h
  exact ⟨_, h.completes⟩

example := C32_fails_longer_release Witness.curve (Witness.crypto false) Witness.manyDraws Witness.singleDraws
    Witness.passwords Witness.password [1, 2, 3] 2 1 1 1 rfl (by meets) (by meets) (by meets) (by meets) (by meets)
    (by meets) (by meets) (by meets) (by meets) (by meets) (by meets) (by meets) (by meets)

/-- C32, other lengths: with a password shorter than the stored ones, and in a debug build with one of
any other length, the exchange never completes: the client panics. -/
theorem C32_lengths_differ (C : Curve) (X : Crypto) (s : ManyDraws) (c : SingleDraws) (passwords : List Bytes)
    (password : Bytes) (len index ts tc : Nat) (hdb : Database passwords len) (hlen : GoodLength len)
    (hpw : password.length < len ∨ (X.dbg = true ∧ password.length ≠ len)) (hi : index < passwords.length)
    (hm : s.many.Valid X.dbg passwords.length) (k k' : WireBytes) :
    ¬ Completes (mfpakeMany C X s passwords ts) (mfpakeSingle C X c password index passwords.length tc) k k' := by
  obtain ⟨h0, hl32⟩ := good_fits hlen
  have hmask := drawMask_length s.mask len
  generalize hmm : drawMask s.mask len = mask at hmask
  have hil : passwords[index].length = len := hdb.lengths _ (List.getElem_mem hi)
  have hxl : (xorB mask passwords[index]).length = len := by rw [xorB_length (by omega), hil]
  obtain ⟨domain, d1, d2, hmany⟩ := manyRun_ends C X (base := c.many) (Database.map hdb hmask) (by simpa using hm)
    (index := index) (by simpa using hi) h0 hl32
  rw [List.length_map] at d1 d2
  rw [List.getElem_map] at hmany
  unfold mfpakeMany mfpakeSingle
  have h00 : passwords[0].length = len := hdb.lengths _ (List.getElem_mem (by omega))
  rw [idxR_ok (a := passwords[0]) (List.getElem?_eq_getElem (by omega)), liftM_ok, ret_bind]
  dsimp only
  rw [h00, hmm, maskPasswords_ok X.dbg hmask hdb.lengths, liftM_ok, ret_bind, d1, liftM_ok, ret_bind, d2, liftM_ok, ret_bind]
  intro hc
  have := hc.after hmany
  have hx : xorBytesInplace X.dbg (xorB mask passwords[index]) password = .error .panic := by
    rcases hpw with h | ⟨h, h'⟩
    · exact xorBytesInplace_short X.dbg (by omega)
    · unfold xorBytesInplace debugAssertR assertR
      rw [h, if_neg (by simp; omega)]
      rfl
  rw [hx] at this
  exact not_completes_right this

example := C32_lengths_differ Witness.curve (Witness.crypto true) Witness.manyDraws Witness.singleDraws Witness.passwords
    [3, 4, 5] 2 1 1 1 (by meets) (by meets) (.inr ⟨rfl, by decide⟩) (by meets) (by meets) (Witness.bytes 1) (Witness.bytes 1)

/-! ### C33: the third implementation -/

theorem otChosen (C : Curve) (X : Crypto) {s : OTSend} {r : OTRecv} (hs : s.Valid) (hr : r.Valid) {z : List (Wire × Wire)}
    {bits : List Bool} {len : Nat} (hlen : 0 < len) (hfit : len < 2 ^ 60) (hz : z.length = len * 8) (hb : bits.length = len * 8) :
    Ends (s.run C X (bytePairs z)) (r.run C X bits) () ((pick z bits).map Wire.bytes) := by
  rw [← chosen_bytePairs]
  refine ((ot_correct C X hs hr (n := len * 8) (by omega) (by omega) (by omega)) (bytePairs z) bits (by simp [bytePairs, hz]) hb ?_).ends
  intro m hm
  obtain ⟨w, -, rfl⟩ := List.mem_map.mp hm
  simp [Wire.bytes]

theorem pick_mem {z : List (Wire × Wire)} {a b : Nat} (h : ∀ p ∈ z, p.1.domain = .binary ∧ p.2.domain = .binary)
    (bits : List Bool) : ∀ w ∈ pick ((z.drop a).take b) bits, w.domain = .binary :=
  pick_binary (fun p hp => h p (List.mem_of_mem_drop (List.mem_of_mem_take hp))) bits

/-- The messages when the server garbles, given what garbling and evaluating give. -/
theorem serverV3_conn (C : Curve) (X : Crypto) (s : ServerDraws) (c : ClientDraws) (passwords : List Bytes) (password : Bytes)
    (len index t : Nat) (hdb : Database passwords len) (h0 : 0 < len) (hl32 : len < 2 ^ 32) (hpw : password.length = len)
    (hi : index < passwords.length) (hm : s.many.Valid X.dbg passwords.length) (hsg : s.g.Valid) (hs2 : s.ot2.Valid)
    (hco : c.ot.Valid) (hco2 : c.ot2.Valid) {circ : Circuit} {z : List (Wire × Wire)} {K K' : WireBytes}
    {gc gc' : GarbledCircuit} {d : DecodingKey}
    (H : Held3 X.toEnv s.g.rnd s.g.ord (len * 8) t circ z K gc gc' d)
    (hK' : evaluatedKey X.toEnv gc' (pick (z.take (len * 8)) (u8VecToBoolVec password) ++
      pick ((z.drop (len * 8)).take (len * 8)) (u8VecToBoolVec (drawMask s.mask len)) ++
      pick (z.drop (len * 8 * 2)) (u8VecToBoolVec (xorB (drawMask s.mask len) passwords[index]))) = .ok K') :
    Ends (garblerServerV3 C X s passwords t) (evaluatorClientV3 C X c password passwords.length index)
      (K, drawMask s.mask len) (K', xorB (drawMask s.mask len) passwords[index]) := by
  have hmask := drawMask_length s.mask len
  generalize hmm : drawMask s.mask len = mask at hmask hK' ⊢
  have hil : passwords[index].length = len := hdb.lengths _ (List.getElem_mem hi)
  have hxl : (xorB mask passwords[index]).length = len := by rw [xorB_length (by omega), hil]
  have ul : ∀ p : Bytes, p.length = len → (u8VecToBoolVec p).length = len * 8 := fun p h => by rw [unpack_length, h, Nat.mul_comm]
  obtain ⟨domain, d1, d2, hmany⟩ := manyRun_ends C X (base := c.many) (Database.map hdb hmask) (by simpa using hm)
    (index := index) (by simpa using hi) h0 hl32
  rw [List.length_map] at d1 d2
  rw [List.getElem_map] at hmany
  have hz := H.length
  unfold garblerServerV3 evaluatorClientV3
  have h00 : passwords[0].length = len := hdb.lengths _ (List.getElem_mem (by omega))
  rw [idxR_ok (a := passwords[0]) (List.getElem?_eq_getElem (by omega)), liftM_ok, ret_bind]
  dsimp only
  rw [h00, hmm, hpw]
  rw [H.built, liftM_ok, ret_bind, H.garbled, liftM_ok, ret_bind]
  dsimp only
  rw [sendP_bind, recvP_bind]
  refine .sendRecv ?_
  rw [labelPairs_ok (by omega), liftM_ok, ret_bind, H.sent, liftM_ok, ret_bind, bitsUpTo_ok hpw, liftM_ok, ret_bind]
  refine .bind (otChosen C X hsg.ot hco h0 (by omega) (by simp; omega) (ul _ hpw)) ?_
  rw [encodeRows_ok X.dbg (by omega) (by omega), liftM_ok, ret_bind, sendP_bind, recvP_bind]
  refine .sendRecv ?_
  rw [d1, liftM_ok, ret_bind, maskPasswords_ok X.dbg hmask hdb.lengths, liftM_ok, ret_bind, d2, liftM_ok, ret_bind]
  refine .bind hmany ?_
  rw [labelPairs_ok (by omega), liftM_ok, ret_bind, bitsUpTo_ok hxl, liftM_ok, ret_bind]
  refine .bind (otChosen C X hs2 hco2 h0 (by omega) (by simp; omega) (ul _ hxl)) ?_
  have pl : ∀ (off : Nat) (p : Bytes), off + len * 8 ≤ z.length → p.length = len →
      (pick ((z.drop off).take (len * 8)) (u8VecToBoolVec p)).length = len * 8 := by
    intro off p ho hp
    rw [pick_length (by rw [ul p hp]; simp; omega)]; simp; omega
  have hp3 := pl (len * 8 * 2) _ (by omega) hxl
  rw [idxR_ok (a := (pick ((z.drop (len * 8 * 2)).take (len * 8)) (u8VecToBoolVec (xorB mask passwords[index])))[0].bytes)
    (by rw [List.getElem?_map, List.getElem?_eq_getElem (by omega)]; rfl), liftM_ok, ret_bind]
  have hw32 : ∀ w : Wire, w.bytes.length = 32 := by intro w; simp [Wire.bytes]
  rw [hw32, payloadToEncoding_ok X.dbg (pick_mem H.binary _) (pl 0 _ (by omega) hpw), liftM_ok, ret_bind,
    bytesToEncoding_ok X.dbg (pick_mem H.binary _) (pl _ _ (by omega) hmask), liftM_ok, ret_bind,
    payloadToEncoding_ok X.dbg (pick_mem H.binary _) hp3, liftM_ok, ret_bind, H.key, liftM_ok, ret_bind]
  rw [List.drop_zero, List.take_of_length_le (l := z.drop (len * 8 * 2)) (by simp; omega), hK', liftM_ok, ret_bind]
  exact .ret _ _

/-- The same in terms of the passwords, for every length for which label arithmetic is right. -/
theorem serverV3_mod (C : Curve) (X : Crypto) (s : ServerDraws) (c : ClientDraws) (passwords : List Bytes) (password : Bytes)
    (len index t : Nat) (hdb : Database passwords len) (h0 : 0 < len) (hl32 : len < 2 ^ 32)
    (hD : GoodDomain (8 * len % 65536 + 1)) (hpw : password.length = len)
    (hi : index < passwords.length) (hm : s.many.Valid X.dbg passwords.length) (hsg : s.g.Valid) (hs2 : s.ot2.Valid)
    (hco : c.ot.Valid) (hco2 : c.ot2.Valid) (ht : t < 65535) :
    ∃ k k', Ends (garblerServerV3 C X s passwords t)
        (evaluatorClientV3 C X c password passwords.length index) (k, drawMask s.mask len)
          (k', xorB (drawMask s.mask len) passwords[index]) ∧
      (bitDistance passwords[index] password % (8 * len % 65536 + 1) ≤ t → k = k') ∧
      (t < bitDistance passwords[index] password % (8 * len % 65536 + 1) →
        NoOutputCollision X.toEnv s.g.rnd (buildCircuitV2 X.dbg (8 * len) t) → k ≠ k') := by
  have hmask := drawMask_length s.mask len
  have hil : passwords[index].length = len := hdb.lengths _ (List.getElem_mem hi)
  have hxl : (xorB (drawMask s.mask len) passwords[index]).length = len := by rw [xorB_length (by omega), hil]
  rw [Nat.mul_comm 8 len] at hD ⊢
  have ul : ∀ p : Bytes, p.length = len → (u8VecToBoolVec p).length = len * 8 := fun p h => by rw [unpack_length, h, Nat.mul_comm]
  obtain ⟨z, K, gc, gc', d, H, hev⟩ := half3 X.toEnv s.g.rnd s.g.ord hsg.ord (n := len * 8) (t := t)
    (D := len * 8 % 65536 + 1) (by omega) (by omega)
    (buildCircuitV2_eq (addR_ok X.dbg (by unfold GoodDomain at hD; omega)) (addR_ok X.dbg (by omega))) hD ht
  obtain ⟨K', hK', h1, h2⟩ := hev _ _ _ (ul password hpw) (ul _ hmask) (ul _ hxl)
  rw [mask_weight (by omega) (by omega), bitDistance_comm _ _ (by omega)] at h1 h2
  exact ⟨K, K', serverV3_conn C X s c passwords password len index t hdb h0 hl32 hpw hi hm hsg hs2 hco hco2 H hK',
    fun h => (h1 h).symm, fun h hc => (h2 h hc).symm⟩

/-- Below the modulus nothing is reduced. -/
theorem good_mod {len : Nat} (h : GoodLength len) {p q : Bytes} (hp : p.length = len) :
    8 * len % 65536 = 8 * len ∧ GoodDomain (8 * len % 65536 + 1) ∧ bitDistance p q % (8 * len % 65536 + 1) = bitDistance p q := by
  have h1 : 8 * len % 65536 = 8 * len := Nat.mod_eq_of_lt (by unfold GoodLength at h; omega)
  rw [h1]
  exact ⟨rfl, (goodLength h).2.2, Nat.mod_eq_of_lt (by have := distance_le p q; omega)⟩

theorem serverV3_ends (C : Curve) (X : Crypto) (s : ServerDraws) (c : ClientDraws) (passwords : List Bytes) (password : Bytes)
    (len index t : Nat) (hdb : Database passwords len) (hlen : GoodLength len) (hpw : password.length = len)
    (hi : index < passwords.length) (hm : s.many.Valid X.dbg passwords.length) (hsg : s.g.Valid) (hs2 : s.ot2.Valid)
    (hco : c.ot.Valid) (hco2 : c.ot2.Valid) (ht : t < 65535) :
    ∃ k k' mask, mask.length = len ∧ Ends (garblerServerV3 C X s passwords t)
        (evaluatorClientV3 C X c password passwords.length index) (k, mask) (k', xorB mask passwords[index]) ∧
      (bitDistance passwords[index] password ≤ t → k = k') ∧
      (t < bitDistance passwords[index] password →
        NoOutputCollision X.toEnv s.g.rnd (buildCircuitV2 X.dbg (8 * len) t) → k ≠ k') := by
  obtain ⟨h0, hl32⟩ := good_fits hlen
  obtain ⟨-, g2, g3⟩ := good_mod hlen (q := password) (hdb.lengths _ (List.getElem_mem hi))
  obtain ⟨k, k', he, h⟩ := serverV3_mod C X s c passwords password len index t hdb h0 hl32 g2 hpw hi hm hsg hs2 hco hco2 ht
  rw [g3] at h
  exact ⟨k, k', _, drawMask_length s.mask len, he, h⟩

/-- The messages when the client garbles, given what garbling and evaluating give. -/
theorem clientV3_conn (C : Curve) (X : Crypto) (g : GarblerDraws) (o : OTRecv) (passwords : List Bytes)
    (password mask : Bytes) (len index number t : Nat) (hdb : ∀ p ∈ passwords, p.length = len) (h0 : 0 < len)
    (hl32 : len < 2 ^ 32) (hpw : password.length = len) (hmask : mask.length = len) (hi : index < passwords.length)
    (hg : g.Valid) (ho : o.Valid) {circ : Circuit} {z : List (Wire × Wire)} {K K' : WireBytes}
    {gc gc' : GarbledCircuit} {d : DecodingKey} (H : Held3 X.toEnv g.rnd g.ord (len * 8) t circ z K gc gc' d)
    (hK' : evaluatedKey X.toEnv gc' (pick (z.take (len * 8)) (u8VecToBoolVec (xorB mask passwords[index])) ++
      pick ((z.drop (len * 8)).take (len * 8)) (u8VecToBoolVec mask) ++
      pick (z.drop (len * 8 * 2)) (u8VecToBoolVec password)) = .ok K') :
    Ends (evaluatorServerV3 C X o passwords mask)
      (garblerClientV3 C X g password (xorB mask passwords[index]) index number t) K' K := by
  have hil : passwords[index].length = len := hdb _ (List.getElem_mem hi)
  have hxl : (xorB mask passwords[index]).length = len := by rw [xorB_length (by omega), hil]
  have ul : ∀ p : Bytes, p.length = len → (u8VecToBoolVec p).length = len * 8 := fun p h => by rw [unpack_length, h, Nat.mul_comm]
  refine Ends.swap ?_
  have hz := H.length
  have pl : ∀ (off : Nat) (p : Bytes), off + len * 8 ≤ z.length → p.length = len →
      (pick ((z.drop off).take (len * 8)) (u8VecToBoolVec p)).length = len * 8 := by
    intro off p ho hp
    rw [pick_length (by rw [ul p hp]; simp; omega)]; simp; omega
  unfold garblerClientV3 evaluatorServerV3
  have h00 : passwords[0].length = len := hdb _ (List.getElem_mem (by omega))
  rw [idxR_ok (a := passwords[0]) (List.getElem?_eq_getElem (by omega)), liftM_ok, ret_bind]
  dsimp only
  rw [h00, hpw]
  rw [H.built, liftM_ok, ret_bind, H.garbled, liftM_ok, ret_bind, bitsUpTo_ok hpw, liftM_ok, ret_bind]
  dsimp only
  rw [labelsAt_ok (by rw [ul _ hpw]; omega), liftM_ok, ret_bind, ul _ hpw, sendP_bind, recvP_bind]
  refine .sendRecv ?_
  rw [H.sent, liftM_ok, ret_bind, sendP_bind, recvP_bind]
  refine .sendRecv ?_
  rw [deserialize_ok wires_rt ⟨by rw [pl _ _ (by omega) hpw]; omega, fun w hw => binary_fits (pick_mem H.binary _ w hw)⟩, liftM_ok,
    ret_bind, labelPairs_ok (by omega), liftM_ok, ret_bind, bitsUpTo_ok hmask, liftM_ok, ret_bind]
  refine .bind (otChosen C X hg.ot ho h0 (by omega) (by simp; omega) (ul _ hmask)) ?_
  rw [idxR_ok (a := z[0]) (List.getElem?_eq_getElem (by omega)), liftM_ok, ret_bind, encodeRows_ok X.dbg (by omega) (by omega),
    liftM_ok, ret_bind, sendP_bind, recvP_bind]
  refine .sendRecv ?_
  have hp3 := pl (len * 8) _ (by omega) hmask
  rw [idxR_ok (a := (pick ((z.drop (len * 8)).take (len * 8)) (u8VecToBoolVec mask))[0].bytes)
    (by rw [List.getElem?_map, List.getElem?_eq_getElem (by omega)]; rfl), liftM_ok, ret_bind]
  have hw32 : ∀ w : Wire, w.bytes.length = 32 := by intro w; simp [Wire.bytes]
  rw [hw32, payloadToEncoding_ok X.dbg (pick_mem H.binary _) hp3, liftM_ok, ret_bind,
    bytesToEncoding_ok X.dbg (pick_mem H.binary _) (pl 0 _ (by omega) hxl), liftM_ok, ret_bind, H.key]
  rw [List.drop_zero, List.take_of_length_le (l := z.drop (len * 8 * 2)) (by simp; omega), hK']
  exact .ret _ _

/-- The same in terms of the passwords, for every length for which label arithmetic is right. -/
theorem clientV3_mod (C : Curve) (X : Crypto) (g : GarblerDraws) (o : OTRecv) (passwords : List Bytes)
    (password mask : Bytes) (len index number t : Nat) (hdb : ∀ p ∈ passwords, p.length = len) (h0 : 0 < len)
    (hl32 : len < 2 ^ 32) (hD : GoodDomain (8 * len % 65536 + 1))
    (hpw : password.length = len) (hmask : mask.length = len) (hi : index < passwords.length) (hg : g.Valid) (ho : o.Valid)
    (ht : t < 65535) :
    ∃ k k', Ends (evaluatorServerV3 C X o passwords mask)
        (garblerClientV3 C X g password (xorB mask passwords[index]) index number t) k k' ∧
      (bitDistance passwords[index] password % (8 * len % 65536 + 1) ≤ t → k = k') ∧
      (t < bitDistance passwords[index] password % (8 * len % 65536 + 1) →
        NoOutputCollision X.toEnv g.rnd (buildCircuitV2 X.dbg (8 * len) t) → k ≠ k') := by
  have hil : passwords[index].length = len := hdb _ (List.getElem_mem hi)
  have hxl : (xorB mask passwords[index]).length = len := by rw [xorB_length (by omega), hil]
  rw [Nat.mul_comm 8 len] at hD ⊢
  have ul : ∀ p : Bytes, p.length = len → (u8VecToBoolVec p).length = len * 8 := fun p h => by rw [unpack_length, h, Nat.mul_comm]
  obtain ⟨z, K, gc, gc', d, H, hev⟩ := half3 X.toEnv g.rnd g.ord hg.ord (n := len * 8) (t := t)
    (D := len * 8 % 65536 + 1) (by omega) (by omega)
    (buildCircuitV2_eq (addR_ok X.dbg (by unfold GoodDomain at hD; omega)) (addR_ok X.dbg (by omega))) hD ht
  obtain ⟨K', hK', h1, h2⟩ := hev _ _ _ (ul _ hxl) (ul mask hmask) (ul password hpw)
  rw [mask_weight' (by omega) (by omega)] at h1 h2
  exact ⟨K', K, clientV3_conn C X g o passwords password mask len index number t hdb h0 hl32 hpw hmask hi hg ho H hK', h1, h2⟩

theorem clientV3_ends (C : Curve) (X : Crypto) (g : GarblerDraws) (o : OTRecv) (passwords : List Bytes)
    (password mask : Bytes) (len index number t : Nat) (hdb : ∀ p ∈ passwords, p.length = len) (hlen : GoodLength len)
    (hpw : password.length = len) (hmask : mask.length = len) (hi : index < passwords.length) (hg : g.Valid) (ho : o.Valid)
    (ht : t < 65535) :
    ∃ k k', Ends (evaluatorServerV3 C X o passwords mask)
        (garblerClientV3 C X g password (xorB mask passwords[index]) index number t) k k' ∧
      (bitDistance passwords[index] password ≤ t → k = k') ∧
      (t < bitDistance passwords[index] password →
        NoOutputCollision X.toEnv g.rnd (buildCircuitV2 X.dbg (8 * len) t) → k ≠ k') := by
  obtain ⟨h0, hl32⟩ := good_fits hlen
  obtain ⟨-, g2, g3⟩ := good_mod hlen (q := password) (hdb _ (List.getElem_mem hi))
  obtain ⟨k, k', he, h⟩ := clientV3_mod C X g o passwords password mask len index number t hdb h0 hl32 g2 hpw hmask hi hg ho ht
  rw [g3] at h
  exact ⟨k, k', he, h⟩

/-- C33, server garbling: both parties finish, the client obtains the indexed password masked with the
very mask returned by the server, and the half keys are equal if the client's password is within the
threshold of the indexed one, and different if it is not and output labels do not collide. -/
theorem C33_server_garbles_partial (C : Curve) (X : Crypto) (s : ServerDraws) (c : ClientDraws) (passwords : List Bytes)
    (password : Bytes) (len index t : Nat) (hdb : Database passwords len) (hlen : GoodLength len)
    (hpw : password.length = len) (hi : index < passwords.length) (hm : s.many.Valid X.dbg passwords.length)
    (hsg : s.g.Valid) (hs2 : s.ot2.Valid) (hco : c.ot.Valid) (hco2 : c.ot2.Valid) (ht : t < 65535) :
    ∃ k k' mask masked, mask.length = len ∧ masked = List.zipWith (· ^^^ ·) mask passwords[index] ∧
      Completes (garblerServerV3 C X s passwords t) (evaluatorClientV3 C X c password passwords.length index)
        (k, mask) (k', masked) ∧
      (bitDistance passwords[index] password ≤ t → k = k') ∧
      (t < bitDistance passwords[index] password →
        NoOutputCollision X.toEnv s.g.rnd (buildCircuitV2 X.dbg (8 * len) t) → k ≠ k') := by
  obtain ⟨k, k', mask, h1, h2, h3⟩ := serverV3_ends C X s c passwords password len index t hdb hlen hpw hi hm hsg hs2 hco hco2 ht
  exact ⟨k, k', mask, _, h1, rfl, h2.completes, h3⟩

example := C33_server_garbles_partial Witness.curve (Witness.crypto true) Witness.serverDraws Witness.clientDraws
    Witness.passwords Witness.password 2 1 1 (by meets) (by meets) (by meets) (by meets) (by meets) (by meets)
    (by meets) (by meets) (by meets) (by meets)

/-- C33, client garbling: with the mask and the masked password of the first half, the same holds of
the second half keys. -/
theorem C33_client_garbles_partial (C : Curve) (X : Crypto) (g : GarblerDraws) (o : OTRecv) (passwords : List Bytes)
    (password mask masked : Bytes) (len index number t : Nat) (hdb : ∀ p ∈ passwords, p.length = len)
    (hlen : GoodLength len) (hpw : password.length = len) (hmask : mask.length = len) (hi : index < passwords.length)
    (hmm : masked = List.zipWith (· ^^^ ·) mask passwords[index]) (hg : g.Valid) (ho : o.Valid) (ht : t < 65535) :
    ∃ k k', Completes (evaluatorServerV3 C X o passwords mask) (garblerClientV3 C X g password masked index number t) k k' ∧
      (bitDistance passwords[index] password ≤ t → k = k') ∧
      (t < bitDistance passwords[index] password →
        NoOutputCollision X.toEnv g.rnd (buildCircuitV2 X.dbg (8 * len) t) → k ≠ k') := by
  obtain ⟨k, k', h2, h3⟩ := clientV3_ends C X g o passwords password mask len index number t hdb hlen hpw hmask hi hg ho ht
  subst hmm
  exact ⟨k, k', h2.completes, h3⟩

example := C33_client_garbles_partial Witness.curve (Witness.crypto true) Witness.g Witness.recv Witness.passwords
    Witness.password [9, 8] [10, 12] 2 1 4 1 (by meets) (by meets) (by meets) (by meets) (by meets) (by meets) (by meets)
    (by meets) (by meets)

/-- C33, the whole exchange in the order in which it is used: the server garbles, then evaluates with its
mask; the client evaluates, then garbles with the masked password it obtained; the combined keys are
equal within both thresholds. -/
theorem C33_same_key_partial (C : Curve) (X : Crypto) (s : ServerDraws) (c : ClientDraws) (g : GarblerDraws) (o : OTRecv)
    (passwords : List Bytes) (password : Bytes) (len index ts tc : Nat) (hdb : Database passwords len)
    (hlen : GoodLength len) (hpw : password.length = len) (hi : index < passwords.length)
    (hm : s.many.Valid X.dbg passwords.length) (hsg : s.g.Valid) (hs2 : s.ot2.Valid) (hco : c.ot.Valid)
    (hco2 : c.ot2.Valid) (hg : g.Valid) (ho : o.Valid) (hts : ts < 65535) (htc : tc < 65535)
    (h1 : bitDistance passwords[index] password ≤ ts) (h2 : bitDistance passwords[index] password ≤ tc) :
    ∃ key, Completes
      (do let r ← garblerServerV3 C X s passwords ts
          let k ← evaluatorServerV3 C X o passwords r.2
          return combine r.1 k)
      (do let r ← evaluatorClientV3 C X c password passwords.length index
          let k ← garblerClientV3 C X g password r.2 index passwords.length tc
          return combine r.1 k) key key := by
  obtain ⟨k, k', mask, hmask, e1, e2, -⟩ :=
    serverV3_ends C X s c passwords password len index ts hdb hlen hpw hi hm hsg hs2 hco hco2 hts
  obtain ⟨k2, k2', e3, e4, -⟩ := clientV3_ends C X g o passwords password mask len index passwords.length tc hdb.lengths hlen hpw
    hmask hi hg ho htc
  have := e2 h1
  subst this
  have := e4 h2
  subst this
  exact ⟨combine k k2, Ends.completes (.bind e1 (.bind e3 (.ret _ _)))⟩

example := C33_same_key_partial Witness.curve (Witness.crypto true) Witness.serverDraws Witness.clientDraws Witness.g
    Witness.recv Witness.passwords Witness.password 2 1 1 1 (by meets) (by meets) (by meets) (by meets) (by meets)
    (by meets) (by meets) (by meets) (by meets) (by meets) (by meets) (by meets) (by meets) (by meets) (by meets)

/-! ### C41: masking -/

/-- C41: for every stored password `p` and every string `m` of its length there is exactly one mask for
which the masked database entry is `m`: every masked value is equally likely. -/
theorem C41_masking_bijective (dbg : Bool) (passwords : List Bytes) (len i : Nat) (hdb : ∀ p ∈ passwords, p.length = len)
    (hi : i < passwords.length) (m : Bytes) (hm : m.length = len) :
    ∃ mask : Bytes, (mask.length = len ∧ ∃ masked, maskPasswords dbg mask len passwords = .ok masked ∧ masked[i]? = some m) ∧
      ∀ mask' : Bytes, mask'.length = len →
        (∃ masked, maskPasswords dbg mask' len passwords = .ok masked ∧ masked[i]? = some m) → mask' = mask := by
  have hil : passwords[i].length = len := hdb _ (List.getElem_mem hi)
  have hinv : ∀ a b : Bytes, a.length = b.length → xorB (xorB a b) b = a := by
    intro a b h
    apply List.ext_getElem
    · simp [xorB]; omega
    · intro j h1 h2
      simp [xorB, BitVec.xor_assoc]
  have hl : (xorB m passwords[i]).length = len := by rw [xorB_length (by omega), hil]
  refine ⟨xorB m passwords[i], ⟨hl, _, maskPasswords_ok dbg hl hdb, ?_⟩, ?_⟩
  · rw [List.getElem?_map, List.getElem?_eq_getElem hi, Option.map_some, hinv _ _ (by omega)]
  · intro mask' hm' ⟨masked, h1, h2⟩
    rw [maskPasswords_ok dbg hm' hdb] at h1
    cases h1
    rw [List.getElem?_map, List.getElem?_eq_getElem hi, Option.map_some, Option.some.injEq] at h2
    rw [← h2, hinv _ _ (by omega)]

example := C41_masking_bijective true Witness.passwords 2 1 (by meets) (by meets) [3, 4] (by meets)

/-- C41 from the bytes of the server's generator: for every stored password and every string `m` of its length there is
exactly one sequence of `len` random bytes for which the masked entry is `m`. -/
theorem C41_drawn (dbg : Bool) (passwords : List Bytes) (len i : Nat) (hdb : ∀ p ∈ passwords, p.length = len)
    (hi : i < passwords.length) (m : Bytes) (hm : m.length = len) :
    ∃ rand : Nat → Byte, (∃ masked, maskPasswords dbg (drawMask rand len) len passwords = .ok masked ∧ masked[i]? = some m) ∧
      ∀ rand' : Nat → Byte, (∃ masked, maskPasswords dbg (drawMask rand' len) len passwords = .ok masked ∧ masked[i]? = some m) →
        ∀ k < len, rand' k = rand k := by
  obtain ⟨mask, ⟨h1, h2⟩, h3⟩ := C41_masking_bijective dbg passwords len i hdb hi m hm
  have e : drawMask (fun k => mask.getD k 0) len = mask := by
    apply List.ext_getElem
    · simp [drawMask, h1]
    · intro k hk hk'
      simp [drawMask, hk']
  refine ⟨fun k => mask.getD k 0, by rw [e]; exact h2, fun rand' h k hk => ?_⟩
  have := h3 _ (drawMask_length _ _) h
  rw [← this]
  simp [drawMask, hk]

example := C41_drawn true Witness.passwords 2 1 (by meets) (by meets) [3, 4] (by meets)

/-- C41: xoring the mask into a masked entry gives the password back; here for the whole database. -/
theorem C41_unmask (dbg : Bool) (passwords : List Bytes) (len : Nat) (hdb : ∀ p ∈ passwords, p.length = len)
    (mask : Bytes) (hm : mask.length = len) :
    ∃ masked, maskPasswords dbg mask len passwords = .ok masked ∧ maskPasswords dbg mask len masked = .ok passwords := by
  refine ⟨_, maskPasswords_ok dbg hm hdb, ?_⟩
  rw [maskPasswords_ok dbg hm (by
    intro p hp
    obtain ⟨q, hq, rfl⟩ := List.mem_map.mp hp
    rw [xorB_length (by rw [hm, hdb q hq]), hdb q hq]), List.map_map]
  refine congrArg Except.ok ?_
  refine (List.map_congr_left fun p hp => ?_).trans (List.map_id _)
  have := hdb p hp
  apply List.ext_getElem
  · simp [xorB]; omega
  · intro j h1 h2
    simp [xorB, ← BitVec.xor_assoc]

example := C41_unmask true Witness.passwords 2 (by meets) [9, 8] (by meets)

/-- C41 is about a single entry: two entries masked with the same mask reveal the difference of the
passwords, exactly. -/
theorem C41_two_entries_leak (dbg : Bool) (passwords : List Bytes) (len i j : Nat) (hdb : ∀ p ∈ passwords, p.length = len)
    (hi : i < passwords.length) (hj : j < passwords.length) (mask : Bytes) (hm : mask.length = len) :
    ∃ masked x y, maskPasswords dbg mask len passwords = .ok masked ∧ masked[i]? = some x ∧ masked[j]? = some y ∧
      List.zipWith (· ^^^ ·) x y = List.zipWith (· ^^^ ·) passwords[i] passwords[j] := by
  refine ⟨_, xorB mask passwords[i], xorB mask passwords[j], maskPasswords_ok dbg hm hdb, ?_, ?_, ?_⟩
  · rw [List.getElem?_map, List.getElem?_eq_getElem hi, Option.map_some]
  · rw [List.getElem?_map, List.getElem?_eq_getElem hj, Option.map_some]
  · have h1 : passwords[i].length = len := hdb _ (List.getElem_mem hi)
    have h2 : passwords[j].length = len := hdb _ (List.getElem_mem hj)
    apply List.ext_getElem
    · simp [xorB]; omega
    · intro k hk1 hk2
      simp only [xorB, List.getElem_zipWith]
      generalize mask[k]'_ = x
      generalize passwords[i][k]'_ = y
      generalize passwords[j][k]'_ = w
      rw [BitVec.xor_comm x y, BitVec.xor_assoc, ← BitVec.xor_assoc x x w, BitVec.xor_self, BitVec.zero_xor]

example := C41_two_entries_leak true Witness.passwords 2 1 2 (by meets) (by meets) (by meets) [9, 8] (by meets)

/-! ### The hypotheses can be met -/

example : Database [[1, 2], [3, 4], [5, 6], [7, 8]] 2 :=
  ⟨⟨2, rfl⟩, by decide, by decide⟩

/-- Draws that can occur, for the database above. -/
example (dbg : Bool) : (⟨1, [0], fun _ => (Vector.replicate 32 1, Vector.replicate 32 2), fun i => i + 1⟩ : ManySend).Valid dbg 4 := by
  refine ⟨by decide, ?_, .inl (by decide)⟩
  exact List.Perm.refl _

example : GoodLength 2 ∧ bitDistance [3, 4] [3, 5] = 1 := by decide

end FP.Props
