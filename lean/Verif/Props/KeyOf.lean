import Verif.Proof.KeyOf
import Verif.Proof.Witness
/-
C88: what the keys of a session depend on.
-/
namespace FP.Props
open Spec

/-- C88, one direction of the two-party exchange: the hash, the labels the garbler draws, the length and the threshold
determine two values.  The garbler's key is always the first; the evaluator's is the first if the passwords are close
and the second if they are not.  Nothing else matters: not the passwords, not the other draws of either party. -/
theorem C88_half (E : Env) (rnd : GarbleRand) (len t : Nat) (hlen : GoodLength len) (ht : t < 65535) :
    ∃ yes no : WireBytes, (NoOutputCollision E rnd (buildCircuit E.dbg (8 * len) t) → yes ≠ no) ∧
      ∀ (C : Curve) (X : Crypto) (g : GarblerDraws) (o : OTRecv), X.toEnv = E → g.rnd = rnd → g.Valid → o.Valid →
        ∀ p q : Bytes, p.length = len → q.length = len →
        Completes (HalfKey.garbler C X g p t) (HalfKey.evaluator C X o q) yes (if bitDistance p q ≤ t then yes else no) := by
  obtain ⟨yes, no, h, h'⟩ := half_two E rnd len t hlen ht
  exact ⟨yes, no, h, fun C X g o h1 h2 h3 h4 p q h5 h6 => (h' C X g o h1 h2 h3 h4 p q h5 h6).completes⟩

example := C88_half (toyEnv true) Witness.rand 2 1 (by meets) (by meets)

/-- C88, the two-party exchange: the labels of both parties determine four values, of which the two keys are combined. -/
theorem C88_exchange (E : Env) (rnd rnd' : GarbleRand) (len t t' : Nat) (hlen : GoodLength len) (ht : t < 65535)
    (ht' : t' < 65535) :
    ∃ yes no yes' no' : WireBytes, (NoOutputCollision E rnd (buildCircuit E.dbg (8 * len) t) → yes ≠ no) ∧
      (NoOutputCollision E rnd' (buildCircuit E.dbg (8 * len) t') → yes' ≠ no') ∧
      ∀ (C : Curve) (X : Crypto) (g g' : GarblerDraws) (o o' : OTRecv), X.toEnv = E → g.rnd = rnd → g'.rnd = rnd' →
        g.Valid → g'.Valid → o.Valid → o'.Valid → ∀ p q : Bytes, p.length = len → q.length = len →
        Completes (fpakeFirst C X g o p t) (fpakeSecond C X o' g' q t')
          (combine yes (if bitDistance p q ≤ t' then yes' else no'))
          (combine yes' (if bitDistance p q ≤ t then yes else no)) := by
  obtain ⟨yes, no, h, e⟩ := half_two E rnd len t hlen ht
  obtain ⟨yes', no', h', e'⟩ := half_two E rnd' len t' hlen ht'
  refine ⟨yes, no, yes', no', h, h', fun C X g g' o o' hX hg hg' v1 v2 v3 v4 p q hp hq => ?_⟩
  have a := e C X g o' hX hg v1 v4 p q hp hq
  have b := (e' C X g' o hX hg' v2 v3 q p hq hp).swap
  rw [bitDistance_comm q p (by omega)] at b
  exact Ends.completes (.bind a (.bind b (.ret _ _)))

example := C88_exchange (toyEnv true) Witness.rand Witness.rand' 2 1 1 (by meets) (by meets) (by meets)

/-- C88, fourth implementation: the keys are those of the two-party exchange with the same labels.  They do not depend
on the other entries of the database, on how many there are, on the index or on the mask. -/
theorem C88_v4 (E : Env) (rnd rnd' : GarbleRand) (len ts tc : Nat) (hlen : GoodLength len) (hts : ts < 65535)
    (htc : tc < 65535) :
    ∃ yes no yes' no' : WireBytes, (NoOutputCollision E rnd (buildCircuit E.dbg (8 * len) ts) → yes ≠ no) ∧
      (NoOutputCollision E rnd' (buildCircuit E.dbg (8 * len) tc) → yes' ≠ no') ∧
      ∀ (C : Curve) (X : Crypto) (s : ManyDraws) (c : SingleDraws) (passwords : List Bytes) (password : Bytes) (index : Nat)
        (_ : Database passwords len) (hi : index < passwords.length), X.toEnv = E → s.g.rnd = rnd → c.g.rnd = rnd' →
        password.length = len → s.many.Valid X.dbg passwords.length → s.g.Valid → s.ot.Valid → c.g.Valid → c.ot.Valid →
        Completes (mfpakeMany C X s passwords ts) (mfpakeSingle C X c password index passwords.length tc)
          (combine yes (if bitDistance passwords[index] password ≤ tc then yes' else no'))
          (combine (if bitDistance passwords[index] password ≤ ts then yes else no) yes') := by
  obtain ⟨yes, no, h, e⟩ := half_two E rnd len ts hlen hts
  obtain ⟨yes', no', h', e'⟩ := half_two E rnd' len tc hlen htc
  refine ⟨yes, no, yes', no', h, h', fun C X s c ps pw index hdb hi hX hg hg' hpw hm v1 v2 v3 v4 => ?_⟩
  obtain ⟨h0, hl32⟩ := good_fits hlen
  have hmask := drawMask_length s.mask len
  have hil : ps[index].length = len := hdb.lengths _ (List.getElem_mem hi)
  have hxl : (xorB (drawMask s.mask len) ps[index]).length = len := by rw [xorB_length (by omega), hil]
  have hyl : (xorB (xorB (drawMask s.mask len) ps[index]) pw).length = len := by rw [xorB_length (by omega), hpw]
  have a := e C X s.g c.ot hX hg v1 v4 _ _ hmask hyl
  have b := (e' C X c.g s.ot hX hg' v3 v2 _ _ hyl hmask).swap
  rw [bitDistance_comm _ _ (by omega)] at b
  rw [distance_masked (by omega) (by omega), bitDistance_comm _ _ (by omega)] at a b
  exact (many_conn C X s c ps pw pw len index ts tc hdb h0 hl32 hi hm (fun m hl => xorBytesInplace_ok X.dbg (by omega))
    a b).completes

example := C88_v4 (toyEnv true) Witness.rand Witness.rand' 2 1 1 (by meets) (by meets) (by meets)

/-- C88, third implementation, server garbling: the half keys depend only on the labels and on closeness; the mask and
the masked password the parties return beside them do not touch them. -/
theorem C88_v3_server (E : Env) (rnd : GarbleRand) (len t : Nat) (hlen : GoodLength len) (ht : t < 65535) :
    ∃ yes no : WireBytes, (NoOutputCollision E rnd (buildCircuitV2 E.dbg (8 * len) t) → yes ≠ no) ∧
      ∀ (C : Curve) (X : Crypto) (s : ServerDraws) (c : ClientDraws) (passwords : List Bytes) (password : Bytes) (index : Nat)
        (_ : Database passwords len) (hi : index < passwords.length), X.toEnv = E → s.g.rnd = rnd →
        password.length = len → s.many.Valid X.dbg passwords.length → s.g.Valid → s.ot2.Valid → c.ot.Valid → c.ot2.Valid →
        ∃ mask : Bytes, mask.length = len ∧
        Completes (garblerServerV3 C X s passwords t) (evaluatorClientV3 C X c password passwords.length index)
          (yes, mask)
          (if bitDistance passwords[index] password ≤ t then yes else no, List.zipWith (· ^^^ ·) mask passwords[index]) := by
  obtain ⟨h0, hl32⟩ := good_fits hlen
  obtain ⟨-, g1, g2⟩ := goodLength hlen
  rw [Nat.mul_comm 8] at g1 g2 ⊢
  obtain ⟨z, K, K0, gc, d, hne, H⟩ := half3_values E rnd (n := len * 8) (t := t) (by omega) (by omega)
    (buildCircuitV2_ok E.dbg g1 ht) g2 ht
  refine ⟨K, K0, hne, ?_⟩
  rintro C X s c ps pw index hdb hi rfl rfl hpw hm v1 v2 v3 v4
  have hmask := drawMask_length s.mask len
  have hil : ps[index].length = len := hdb.lengths _ (List.getElem_mem hi)
  have hxl : (xorB (drawMask s.mask len) ps[index]).length = len := by rw [xorB_length (by omega), hil]
  have ul : ∀ p : Bytes, p.length = len → (u8VecToBoolVec p).length = len * 8 := fun p h => by rw [unpack_length, h, Nat.mul_comm]
  obtain ⟨gc', H1, H2⟩ := H s.g.ord v1.ord
  have H2 := H2 _ _ _ (ul pw hpw) (ul _ hmask) (ul _ hxl)
  rw [mask_weight (by omega) (by omega), bitDistance_comm _ _ (by omega), Nat.mod_eq_of_lt (by have := distance_le ps[index] pw; omega)] at H2
  exact ⟨_, hmask, (serverV3_conn C X s c ps pw len index t hdb h0 hl32 hpw hi hm v1 v2 v3 v4 H1 H2).completes⟩

example := C88_v3_server (toyEnv true) Witness.rand 2 1 (by meets) (by meets)

/-- C88, third implementation, client garbling. -/
theorem C88_v3_client (E : Env) (rnd : GarbleRand) (len t : Nat) (hlen : GoodLength len) (ht : t < 65535) :
    ∃ yes no : WireBytes, (NoOutputCollision E rnd (buildCircuitV2 E.dbg (8 * len) t) → yes ≠ no) ∧
      ∀ (C : Curve) (X : Crypto) (g : GarblerDraws) (o : OTRecv) (passwords : List Bytes) (password mask : Bytes)
        (index number : Nat) (_ : ∀ p ∈ passwords, p.length = len) (hi : index < passwords.length), X.toEnv = E →
        g.rnd = rnd → password.length = len → mask.length = len → g.Valid → o.Valid →
        Completes (evaluatorServerV3 C X o passwords mask)
          (garblerClientV3 C X g password (List.zipWith (· ^^^ ·) mask passwords[index]) index number t)
          (if bitDistance passwords[index] password ≤ t then yes else no) yes := by
  obtain ⟨h0, hl32⟩ := good_fits hlen
  obtain ⟨-, g1, g2⟩ := goodLength hlen
  rw [Nat.mul_comm 8] at g1 g2 ⊢
  obtain ⟨z, K, K0, gc, d, hne, H⟩ := half3_values E rnd (n := len * 8) (t := t) (by omega) (by omega)
    (buildCircuitV2_ok E.dbg g1 ht) g2 ht
  refine ⟨K, K0, hne, ?_⟩
  rintro C X g o ps pw mask index number hdb hi rfl rfl hpw hmask v1 v2
  have hil : ps[index].length = len := hdb _ (List.getElem_mem hi)
  have hxl : (xorB mask ps[index]).length = len := by rw [xorB_length (by omega), hil]
  have ul : ∀ p : Bytes, p.length = len → (u8VecToBoolVec p).length = len * 8 := fun p h => by rw [unpack_length, h, Nat.mul_comm]
  obtain ⟨gc', H1, H2⟩ := H g.ord v1.ord
  have H2 := H2 _ _ _ (ul _ hxl) (ul _ hmask) (ul pw hpw)
  rw [mask_weight' (by omega) (by omega), Nat.mod_eq_of_lt (by have := distance_le ps[index] pw; omega)] at H2
  exact (clientV3_conn C X g o ps pw mask len index number t hdb h0 hl32 hpw hmask hi v1 v2 H1 H2).completes

example := C88_v3_client (toyEnv true) Witness.rand 2 1 (by meets) (by meets)

/-- C88, second implementation, server garbling. -/
theorem C88_v2_server (E : Env) (rnd : GarbleRand) (len t : Nat) (hlen : GoodLength len) (ht : t < 65535) :
    ∃ yes no : WireBytes, (NoOutputCollision E rnd (buildCircuitV2 E.dbg (8 * len) t) → yes ≠ no) ∧
      ∀ (C : Curve) (X : Crypto) (s : ServerDraws) (c : ClientDraws) (passwords : List Bytes) (password : Bytes) (index : Nat)
        (_ : Database passwords len) (hi : index < passwords.length), X.toEnv = E → s.g.rnd = rnd →
        password.length = len → s.many.Valid X.dbg passwords.length → s.g.Valid → s.ot2.Valid → c.ot.Valid → c.ot2.Valid →
        Completes (garblerServerV2 C X s passwords t) (evaluatorClientV2 C X c password passwords.length index)
          yes (if bitDistance passwords[index] password ≤ t then yes else no) := by
  obtain ⟨yes, no, hne, H⟩ := C88_v3_server E rnd len t hlen ht
  refine ⟨yes, no, hne, fun C X s c ps pw index hdb hi hX hr hpw hm v1 v2 v3 v4 => ?_⟩
  obtain ⟨mask, -, h⟩ := H C X s c ps pw index hdb hi hX hr hpw hm v1 v2 v3 v4
  rw [garblerServerV2_eq, evaluatorClientV2_eq]
  exact Ends.completes (.bind h.ends (.ret _ _))

example := C88_v2_server (toyEnv true) Witness.rand 2 1 (by meets) (by meets)

/-- C88, second implementation, client garbling. -/
theorem C88_v2_client (E : Env) (rnd : GarbleRand) (len t : Nat) (hlen : GoodLength len) (ht : t < 65535) :
    ∃ yes no : WireBytes, (NoOutputCollision E rnd (buildCircuitV2 E.dbg (8 * len) t) → yes ≠ no) ∧
      ∀ (C : Curve) (X : Crypto) (g : ClientGarbler2) (s : ServerEvaluator2) (passwords : List Bytes) (password : Bytes)
        (index : Nat) (_ : Database passwords len) (hi : index < passwords.length), X.toEnv = E →
        g.g.rnd = rnd → password.length = len → s.many.Valid X.dbg passwords.length → g.g.Valid → s.ot.Valid →
        Completes (evaluatorServerV2 C X s passwords) (garblerClientV2 C X g password index passwords.length t)
          (if bitDistance passwords[index] password ≤ t then yes else no) yes := by
  obtain ⟨h0, hl32⟩ := good_fits hlen
  obtain ⟨-, g1, g2⟩ := goodLength hlen
  rw [Nat.mul_comm 8] at g1 g2 ⊢
  obtain ⟨z, K, K0, gc, d, hne, H⟩ := half3_values E rnd (n := len * 8) (t := t) (by omega) (by omega)
    (buildCircuitV2_ok E.dbg g1 ht) g2 ht
  refine ⟨K, K0, hne, ?_⟩
  rintro C X g s ps pw index hdb hi rfl rfl hpw hm v1 v2
  have hmask := drawMask_length s.mask len
  have hil : ps[index].length = len := hdb.lengths _ (List.getElem_mem hi)
  have hxl : (xorB (drawMask s.mask len) ps[index]).length = len := by rw [xorB_length (by omega), hil]
  have ul : ∀ p : Bytes, p.length = len → (u8VecToBoolVec p).length = len * 8 := fun p h => by rw [unpack_length, h, Nat.mul_comm]
  obtain ⟨gc', H1, H2⟩ := H g.g.ord v1.ord
  have H2 := H2 _ _ _ (ul _ hxl) (ul _ hmask) (ul pw hpw)
  rw [mask_weight' (by omega) (by omega), Nat.mod_eq_of_lt (by have := distance_le ps[index] pw; omega)] at H2
  exact (clientV2_conn C X g s ps pw len index t hdb h0 hl32 hpw hi hm v1 v2 H1 H2).completes

example := C88_v2_client (toyEnv true) Witness.rand 2 1 (by meets) (by meets)

/-- C88, first implementation, server garbling. -/
theorem C88_v1_server (E : Env) (rnd : GarbleRand) (len t : Nat) (hlen : GoodLength len) (ht : t < 65535) :
    ∃ yes no : WireBytes, (NoOutputCollision E rnd (buildCircuit E.dbg (8 * len) t) → yes ≠ no) ∧
      ∀ (C : Curve) (X : Crypto) (s : ServerDraws1) (c : ClientDraws1) (passwords : List Bytes) (password : Bytes) (index : Nat)
        (_ : Database passwords len) (hi : index < passwords.length), X.toEnv = E → s.g.rnd = rnd →
        password.length = len → s.many.Valid X.dbg passwords.length → s.g.Valid → c.ot.Valid →
        Completes (garblerServerV1 C X s passwords t) (evaluatorClientV1 C X c password passwords.length index)
          yes (if bitDistance passwords[index] password ≤ t then yes else no) := by
  obtain ⟨h0, hl32⟩ := good_fits hlen
  obtain ⟨-, g1, g2⟩ := goodLength hlen
  rw [Nat.mul_comm 8] at g1 g2 ⊢
  obtain ⟨z, K, K0, gc, d, hne, H⟩ := half2_values E rnd (n := len * 8) (t := t) (by omega) (by omega)
    (buildCircuit_ok E.dbg g1 ht) g2 ht
  refine ⟨K, K0, hne, ?_⟩
  rintro C X s c ps pw index hdb hi rfl rfl hpw hm v1 v2
  have hil : ps[index].length = len := hdb.lengths _ (List.getElem_mem hi)
  have ul : ∀ p : Bytes, p.length = len → (u8VecToBoolVec p).length = len * 8 := fun p h => by rw [unpack_length, h, Nat.mul_comm]
  obtain ⟨gc', H1, H2⟩ := H s.g.ord v1.ord
  have H2 := H2 _ _ (ul pw hpw) (ul _ hil)
  rw [bitDistance_eq _ _ (by omega), bitDistance_comm _ _ (by omega),
    Nat.mod_eq_of_lt (by have := distance_le ps[index] pw; omega)] at H2
  exact (serverV1_conn C X s c ps pw len index t hdb h0 (by unfold GoodLength at hlen; omega) hpw hi hm v1 v2 H1 H2).completes

example := C88_v1_server (toyEnv true) Witness.rand 2 1 (by meets) (by meets)

/-- C88, first implementation, client garbling: the blinding strings do not matter either. -/
theorem C88_v1_client (E : Env) (rnd : GarbleRand) (len t : Nat) (hlen : GoodLength len) (ht : t < 65535) :
    ∃ yes no : WireBytes, (NoOutputCollision E rnd (buildCircuit E.dbg (8 * len) t) → yes ≠ no) ∧
      ∀ (C : Curve) (X : Crypto) (g : ClientGarbler1) (o : OTRecv) (passwords : List Bytes) (password : Bytes) (index : Nat)
        (_ : ∀ p ∈ passwords, p.length = len) (hi : index < passwords.length), X.toEnv = E → g.g.rnd = rnd →
        (X.dbg = true → 2 ≤ passwords.length) → passwords.length < 2 ^ 32 →
        password.length = len → g.g.Valid → o.Valid →
        Completes (evaluatorServerV1 C X o passwords) (garblerClientV1 C X g password index passwords.length t)
          (if bitDistance passwords[index] password ≤ t then yes else no) yes := by
  obtain ⟨h0, hl32⟩ := good_fits hlen
  obtain ⟨-, g1, g2⟩ := goodLength hlen
  rw [Nat.mul_comm 8] at g1 g2 ⊢
  obtain ⟨z, K, K0, gc, d, hne, H⟩ := half2_values E rnd (n := len * 8) (t := t) (by omega) (by omega)
    (buildCircuit_ok E.dbg g1 ht) g2 ht
  refine ⟨K, K0, hne, ?_⟩
  rintro C X g o ps pw index hdb hi rfl rfl hc hc' hpw v1 v2
  have hil : ps[index].length = len := hdb _ (List.getElem_mem hi)
  have ul : ∀ p : Bytes, p.length = len → (u8VecToBoolVec p).length = len * 8 := fun p h => by rw [unpack_length, h, Nat.mul_comm]
  obtain ⟨gc', H1, H2⟩ := H g.g.ord v1.ord
  have H2 := H2 _ _ (ul pw hpw) (ul _ hil)
  rw [bitDistance_eq _ _ (by omega), bitDistance_comm _ _ (by omega),
    Nat.mod_eq_of_lt (by have := distance_le ps[index] pw; omega)] at H2
  exact (clientV1_conn C X g o ps pw len index t hdb h0 (by unfold GoodLength at hlen; omega) hc hc' hpw hi v1 v2 H1 H2).completes

example := C88_v1_client (toyEnv true) Witness.rand 2 1 (by meets) (by meets)

/-- C88, what it means: two sessions of the fourth implementation whose parties draw the same labels end with the same
two keys as soon as both pairs of passwords are close, or both are beyond both thresholds, although the databases, their
sizes, the indices, the passwords, the masks and every other draw may differ. -/
theorem C88_v4_same (C : Curve) (X : Crypto) (s s' : ManyDraws) (c c' : SingleDraws) (passwords passwords' : List Bytes)
    (password password' : Bytes) (len index index' ts tc : Nat) (hlen : GoodLength len) (hts : ts < 65535) (htc : tc < 65535)
    (hdb : Database passwords len) (hdb' : Database passwords' len) (hi : index < passwords.length)
    (hi' : index' < passwords'.length) (hpw : password.length = len) (hpw' : password'.length = len)
    (hm : s.many.Valid X.dbg passwords.length) (hm' : s'.many.Valid X.dbg passwords'.length)
    (hs : s.g.Valid ∧ s.ot.Valid ∧ c.g.Valid ∧ c.ot.Valid) (hs' : s'.g.Valid ∧ s'.ot.Valid ∧ c'.g.Valid ∧ c'.ot.Valid)
    (hrs : s'.g.rnd = s.g.rnd) (hrc : c'.g.rnd = c.g.rnd)
    (h1 : bitDistance passwords[index] password ≤ ts ↔ bitDistance passwords'[index'] password' ≤ ts)
    (h2 : bitDistance passwords[index] password ≤ tc ↔ bitDistance passwords'[index'] password' ≤ tc) :
    ∃ k k', Completes (mfpakeMany C X s passwords ts) (mfpakeSingle C X c password index passwords.length tc) k k' ∧
      Completes (mfpakeMany C X s' passwords' ts) (mfpakeSingle C X c' password' index' passwords'.length tc) k k' := by
  obtain ⟨yes, no, yes', no', -, -, H⟩ := C88_v4 X.toEnv s.g.rnd c.g.rnd len ts tc hlen hts htc
  refine ⟨_, _, H C X s c passwords password index hdb hi rfl rfl rfl hpw hm hs.1 hs.2.1 hs.2.2.1 hs.2.2.2, ?_⟩
  have := H C X s' c' passwords' password' index' hdb' hi' rfl hrs hrc hpw' hm' hs'.1 hs'.2.1 hs'.2.2.1 hs'.2.2.2
  simp only [← h1, ← h2] at this
  exact this

example := C88_v4_same Witness.curve (Witness.crypto true) Witness.manyDraws Witness.manyDraws Witness.singleDraws
    Witness.singleDraws Witness.passwords Witness.passwords Witness.password [3, 4] 2 1 1 1 1 (by meets) (by meets)
    (by meets) (by meets) (by meets) (by meets) (by meets) (by meets) (by meets) (by meets) (by meets) (by meets)
    (by meets) (by meets) (by meets) (by meets) (by meets)

/-- Two sessions as `C88_v4_same` compares them: different databases, indices and passwords, equally close. -/
example : bitDistance [[1#8], [2#8]][0] [3#8] ≤ 1 ↔ bitDistance [[9#8], [7#8], [0#8], [255#8]][3] [254#8] ≤ 1 := by
  decide

/-- The parties of one direction, with draws that occur and passwords at distance two. -/
example (C : Curve) (X : Crypto) (rnd : GarbleRand) : ∃ yes no : WireBytes, ∀ (g : GarblerDraws) (o : OTRecv), g.rnd = rnd →
    g.Valid → o.Valid →
    Completes (HalfKey.garbler C X g [3#8] 1) (HalfKey.evaluator C X o [0#8]) yes no ∧
    Completes (HalfKey.garbler C X g [3#8] 1) (HalfKey.evaluator C X o [2#8]) yes yes := by
  obtain ⟨yes, no, -, H⟩ := C88_half X.toEnv rnd 1 1 (by unfold GoodLength; decide) (by decide)
  exact ⟨yes, no, fun g o hr hg ho => ⟨H C X g o rfl hr hg ho [3#8] [0#8] rfl rfl, H C X g o rfl hr hg ho [3#8] [2#8] rfl rfl⟩⟩

end FP.Props
