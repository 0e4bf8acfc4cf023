import Verif.Props.Fresh
import Verif.Proof.FreshMany
import Verif.Proof.Witness
/-
C89 for the implementations with many passwords.
-/
namespace FP.Props
open Spec

/-- C89, fourth implementation: the server does the same, apart from the key it returns, whatever the hash function is
at inputs of 42 bytes. -/
theorem C89_v4_server (C : Curve) (X : Crypto) (sha' : Bytes → WireBytes) (h : AgreeBut42 X.sha256 sha') (r : ManyDraws)
    (passwords : List Bytes) (t : Nat) :
    Forget (mfpakeMany C (rehash X sha') r passwords t) = Forget (mfpakeMany C X r passwords t) :=
  mfpakeMany_re h C r passwords t

example := C89_v4_server Witness.curve (Witness.crypto true) Witness.hash' (by meets) Witness.manyDraws
    Witness.passwords 1

/-- C89, fourth implementation: so does the client in a debug build.  (A release build does not check the lengths of
what it takes as keys of the 1-out-of-n transfer, so that a server can make it hash an input of 42 bytes.) -/
theorem C89_v4_client (C : Curve) (X : Crypto) (hdbg : X.dbg = true) (sha' : Bytes → WireBytes) (h : AgreeBut42 X.sha256 sha')
    (r : SingleDraws) (password : Bytes) (index number t : Nat) :
    Forget (mfpakeSingle C (rehash X sha') r password index number t) = Forget (mfpakeSingle C X r password index number t) :=
  mfpakeSingle_re h hdbg C r password index number t

example := C89_v4_client Witness.curve (Witness.crypto true) (by meets) Witness.hash' (by meets) Witness.singleDraws
    Witness.password 1 4 1

/-- C89, third implementation: the four parties. -/
theorem C89_v3_parties (C : Curve) (X : Crypto) (sha' : Bytes → WireBytes) (h : AgreeBut42 X.sha256 sha') :
    (∀ r passwords t, Forget (garblerServerV3 C (rehash X sha') r passwords t) = Forget (garblerServerV3 C X r passwords t)) ∧
    (X.dbg = true → ∀ r password number index, Forget (evaluatorClientV3 C (rehash X sha') r password number index) =
      Forget (evaluatorClientV3 C X r password number index)) ∧
    (∀ r password masked index number t, Forget (garblerClientV3 C (rehash X sha') r password masked index number t) =
      Forget (garblerClientV3 C X r password masked index number t)) ∧
    ∀ r passwords mask, Forget (evaluatorServerV3 C (rehash X sha') r passwords mask) =
      Forget (evaluatorServerV3 C X r passwords mask) :=
  ⟨fun r ps t => garblerServerV3_re h C r ps t, fun hd r pw number index => evaluatorClientV3_re h hd C r pw number index,
    fun r pw m index number t => garblerClientV3_re h C r pw m index number t, fun r ps m => evaluatorServerV3_re h C r ps m⟩

example := C89_v3_parties Witness.curve (Witness.crypto true) Witness.hash' (by meets)

/-- C89, second implementation: the four parties. -/
theorem C89_v2_parties (C : Curve) (X : Crypto) (sha' : Bytes → WireBytes) (h : AgreeBut42 X.sha256 sha') :
    (∀ r passwords t, Forget (garblerServerV2 C (rehash X sha') r passwords t) = Forget (garblerServerV2 C X r passwords t)) ∧
    (X.dbg = true → ∀ r password number index, Forget (evaluatorClientV2 C (rehash X sha') r password number index) =
      Forget (evaluatorClientV2 C X r password number index)) ∧
    (X.dbg = true → ∀ r password index number t, Forget (garblerClientV2 C (rehash X sha') r password index number t) =
      Forget (garblerClientV2 C X r password index number t)) ∧
    ∀ r passwords, Forget (evaluatorServerV2 C (rehash X sha') r passwords) = Forget (evaluatorServerV2 C X r passwords) :=
  ⟨fun r ps t => garblerServerV2_re h C r ps t, fun hd r pw number index => evaluatorClientV2_re h hd C r pw number index,
    fun hd r pw index number t => garblerClientV2_re h hd C r pw index number t, fun r ps => evaluatorServerV2_re h C r ps⟩

example := C89_v2_parties Witness.curve (Witness.crypto true) Witness.hash' (by meets)

/-- C89, first implementation: the four parties. -/
theorem C89_v1_parties (C : Curve) (X : Crypto) (sha' : Bytes → WireBytes) (h : AgreeBut42 X.sha256 sha') :
    (∀ r passwords t, Forget (garblerServerV1 C (rehash X sha') r passwords t) = Forget (garblerServerV1 C X r passwords t)) ∧
    (X.dbg = true → ∀ r password number index, Forget (evaluatorClientV1 C (rehash X sha') r password number index) =
      Forget (evaluatorClientV1 C X r password number index)) ∧
    (∀ r password index number t, Forget (garblerClientV1 C (rehash X sha') r password index number t) =
      Forget (garblerClientV1 C X r password index number t)) ∧
    ∀ r passwords, Forget (evaluatorServerV1 C (rehash X sha') r passwords) = Forget (evaluatorServerV1 C X r passwords) :=
  ⟨fun r ps t => garblerServerV1_re h C r ps t, fun hd r pw number index => evaluatorClientV1_re h hd C r pw number index,
    fun r pw index number t => garblerClientV1_re h C r pw index number t, fun r ps => evaluatorServerV1_re h C r ps⟩

example := C89_v1_parties Witness.curve (Witness.crypto true) Witness.hash' (by meets)

/-- C89, third implementation, server garbling: the keys are the values of the hash function at two different inputs of 42 bytes that the labels
drawn determine, for all hash functions that differ from the given one only at inputs of 42 bytes. -/
theorem C89_v3_server (X : Crypto) (rnd : GarbleRand) (len t : Nat) (hlen : GoodLength len) (ht : t < 65535) :
    ∃ a b : Bytes, (a.length = 42 ∧ b.length = 42 ∧ a ≠ b) ∧ ∀ sha', AgreeBut42 X.sha256 sha' →
      ∀ (C : Curve) (s : ServerDraws) (c : ClientDraws) (passwords : List Bytes) (password : Bytes) (index : Nat)
        (_ : Database passwords len) (hi : index < passwords.length), s.g.rnd = rnd →
        password.length = len → s.many.Valid X.dbg passwords.length → s.g.Valid → s.ot2.Valid → c.ot.Valid → c.ot2.Valid →
        ∃ mask : Bytes, mask.length = len ∧
        Completes (garblerServerV3 C (rehash X sha') s passwords t) (evaluatorClientV3 C (rehash X sha') c password passwords.length index)
          (sha' a, mask)
          (if bitDistance passwords[index] password ≤ t then sha' a else sha' b, List.zipWith (· ^^^ ·) mask passwords[index]) := by
  obtain ⟨h0, hl32⟩ := good_fits hlen
  obtain ⟨-, g1, g2⟩ := goodLength hlen
  rw [Nat.mul_comm 8] at g1 g2
  obtain ⟨a, b, hab, H⟩ := half3_points X rnd (n := len * 8) (t := t) (by omega) (by omega)
    (buildCircuitV2_ok X.dbg g1 ht) g2 ht
  refine ⟨a, b, hab, fun sha' h => ?_⟩
  obtain ⟨z, gc, d, H⟩ := H sha' h
  rintro C s c ps pw index hdb hi rfl hpw hm v1 v2 v3 v4
  have hmask := drawMask_length s.mask len
  have hil : ps[index].length = len := hdb.lengths _ (List.getElem_mem hi)
  have hxl : (xorB (drawMask s.mask len) ps[index]).length = len := by rw [xorB_length (by omega), hil]
  have ul : ∀ p : Bytes, p.length = len → (u8VecToBoolVec p).length = len * 8 := fun p h => by rw [unpack_length, h, Nat.mul_comm]
  obtain ⟨gc', H1, H2⟩ := H s.g.ord v1.ord
  have H2 := H2 _ _ _ (ul pw hpw) (ul _ hmask) (ul _ hxl)
  rw [mask_weight (by omega) (by omega), bitDistance_comm _ _ (by omega), Nat.mod_eq_of_lt (by have := distance_le ps[index] pw; omega)] at H2
  exact ⟨_, hmask, (serverV3_conn C (rehash X sha') s c ps pw len index t hdb h0 hl32 hpw hi hm v1 v2 v3 v4 H1 H2).completes⟩

example := C89_v3_server (Witness.crypto true) Witness.rand 2 1 (by meets) (by meets)

/-- C89, third implementation, client garbling: the keys are the values of the hash function at two different inputs of 42 bytes that the labels
drawn determine, for all hash functions that differ from the given one only at inputs of 42 bytes. -/
theorem C89_v3_client (X : Crypto) (rnd : GarbleRand) (len t : Nat) (hlen : GoodLength len) (ht : t < 65535) :
    ∃ a b : Bytes, (a.length = 42 ∧ b.length = 42 ∧ a ≠ b) ∧ ∀ sha', AgreeBut42 X.sha256 sha' →
      ∀ (C : Curve) (g : GarblerDraws) (o : OTRecv) (passwords : List Bytes) (password mask : Bytes)
        (index number : Nat) (_ : ∀ p ∈ passwords, p.length = len) (hi : index < passwords.length),
        g.rnd = rnd → password.length = len → mask.length = len → g.Valid → o.Valid →
        Completes (evaluatorServerV3 C (rehash X sha') o passwords mask)
          (garblerClientV3 C (rehash X sha') g password (List.zipWith (· ^^^ ·) mask passwords[index]) index number t)
          (if bitDistance passwords[index] password ≤ t then sha' a else sha' b) (sha' a) := by
  obtain ⟨h0, hl32⟩ := good_fits hlen
  obtain ⟨-, g1, g2⟩ := goodLength hlen
  rw [Nat.mul_comm 8] at g1 g2
  obtain ⟨a, b, hab, H⟩ := half3_points X rnd (n := len * 8) (t := t) (by omega) (by omega)
    (buildCircuitV2_ok X.dbg g1 ht) g2 ht
  refine ⟨a, b, hab, fun sha' h => ?_⟩
  obtain ⟨z, gc, d, H⟩ := H sha' h
  rintro C g o ps pw mask index number hdb hi rfl hpw hmask v1 v2
  have hil : ps[index].length = len := hdb _ (List.getElem_mem hi)
  have hxl : (xorB mask ps[index]).length = len := by rw [xorB_length (by omega), hil]
  have ul : ∀ p : Bytes, p.length = len → (u8VecToBoolVec p).length = len * 8 := fun p h => by rw [unpack_length, h, Nat.mul_comm]
  obtain ⟨gc', H1, H2⟩ := H g.ord v1.ord
  have H2 := H2 _ _ _ (ul _ hxl) (ul _ hmask) (ul pw hpw)
  rw [mask_weight' (by omega) (by omega), Nat.mod_eq_of_lt (by have := distance_le ps[index] pw; omega)] at H2
  exact (clientV3_conn C (rehash X sha') g o ps pw mask len index number t hdb h0 hl32 hpw hmask hi v1 v2 H1 H2).completes

example := C89_v3_client (Witness.crypto true) Witness.rand 2 1 (by meets) (by meets)

/-- C89, second implementation, server garbling: the keys are the values of the hash function at two different inputs of 42 bytes that the labels
drawn determine, for all hash functions that differ from the given one only at inputs of 42 bytes. -/
theorem C89_v2_server (X : Crypto) (rnd : GarbleRand) (len t : Nat) (hlen : GoodLength len) (ht : t < 65535) :
    ∃ a b : Bytes, (a.length = 42 ∧ b.length = 42 ∧ a ≠ b) ∧ ∀ sha', AgreeBut42 X.sha256 sha' →
      ∀ (C : Curve) (s : ServerDraws) (c : ClientDraws) (passwords : List Bytes) (password : Bytes) (index : Nat)
        (_ : Database passwords len) (hi : index < passwords.length), s.g.rnd = rnd →
        password.length = len → s.many.Valid X.dbg passwords.length → s.g.Valid → s.ot2.Valid → c.ot.Valid → c.ot2.Valid →
        Completes (garblerServerV2 C (rehash X sha') s passwords t) (evaluatorClientV2 C (rehash X sha') c password passwords.length index)
          (sha' a) (if bitDistance passwords[index] password ≤ t then sha' a else sha' b) := by
  obtain ⟨a, b, hab, H⟩ := C89_v3_server X rnd len t hlen ht
  refine ⟨a, b, hab, fun sha' h C s c ps pw index hdb hi hr hpw hm v1 v2 v3 v4 => ?_⟩
  obtain ⟨mask, -, h⟩ := H sha' h C s c ps pw index hdb hi hr hpw hm v1 v2 v3 v4
  rw [garblerServerV2_eq, evaluatorClientV2_eq]
  exact Ends.completes (.bind h.ends (.ret _ _))

example := C89_v2_server (Witness.crypto true) Witness.rand 2 1 (by meets) (by meets)

/-- C89, second implementation, client garbling: the keys are the values of the hash function at two different inputs of 42 bytes that the labels
drawn determine, for all hash functions that differ from the given one only at inputs of 42 bytes. -/
theorem C89_v2_client (X : Crypto) (rnd : GarbleRand) (len t : Nat) (hlen : GoodLength len) (ht : t < 65535) :
    ∃ a b : Bytes, (a.length = 42 ∧ b.length = 42 ∧ a ≠ b) ∧ ∀ sha', AgreeBut42 X.sha256 sha' →
      ∀ (C : Curve) (g : ClientGarbler2) (s : ServerEvaluator2) (passwords : List Bytes) (password : Bytes)
        (index : Nat) (_ : Database passwords len) (hi : index < passwords.length),
        g.g.rnd = rnd → password.length = len → s.many.Valid X.dbg passwords.length → g.g.Valid → s.ot.Valid →
        Completes (evaluatorServerV2 C (rehash X sha') s passwords) (garblerClientV2 C (rehash X sha') g password index passwords.length t)
          (if bitDistance passwords[index] password ≤ t then sha' a else sha' b) (sha' a) := by
  obtain ⟨h0, hl32⟩ := good_fits hlen
  obtain ⟨-, g1, g2⟩ := goodLength hlen
  rw [Nat.mul_comm 8] at g1 g2
  obtain ⟨a, b, hab, H⟩ := half3_points X rnd (n := len * 8) (t := t) (by omega) (by omega)
    (buildCircuitV2_ok X.dbg g1 ht) g2 ht
  refine ⟨a, b, hab, fun sha' h => ?_⟩
  obtain ⟨z, gc, d, H⟩ := H sha' h
  rintro C g s ps pw index hdb hi rfl hpw hm v1 v2
  have hmask := drawMask_length s.mask len
  have hil : ps[index].length = len := hdb.lengths _ (List.getElem_mem hi)
  have hxl : (xorB (drawMask s.mask len) ps[index]).length = len := by rw [xorB_length (by omega), hil]
  have ul : ∀ p : Bytes, p.length = len → (u8VecToBoolVec p).length = len * 8 := fun p h => by rw [unpack_length, h, Nat.mul_comm]
  obtain ⟨gc', H1, H2⟩ := H g.g.ord v1.ord
  have H2 := H2 _ _ _ (ul _ hxl) (ul _ hmask) (ul pw hpw)
  rw [mask_weight' (by omega) (by omega), Nat.mod_eq_of_lt (by have := distance_le ps[index] pw; omega)] at H2
  exact (clientV2_conn C (rehash X sha') g s ps pw len index t hdb h0 hl32 hpw hi hm v1 v2 H1 H2).completes

example := C89_v2_client (Witness.crypto true) Witness.rand 2 1 (by meets) (by meets)

/-- C89, first implementation, server garbling: the keys are the values of the hash function at two different inputs of 42 bytes that the labels
drawn determine, for all hash functions that differ from the given one only at inputs of 42 bytes. -/
theorem C89_v1_server (X : Crypto) (rnd : GarbleRand) (len t : Nat) (hlen : GoodLength len) (ht : t < 65535) :
    ∃ a b : Bytes, (a.length = 42 ∧ b.length = 42 ∧ a ≠ b) ∧ ∀ sha', AgreeBut42 X.sha256 sha' →
      ∀ (C : Curve) (s : ServerDraws1) (c : ClientDraws1) (passwords : List Bytes) (password : Bytes) (index : Nat)
        (_ : Database passwords len) (hi : index < passwords.length), s.g.rnd = rnd →
        password.length = len → s.many.Valid X.dbg passwords.length → s.g.Valid → c.ot.Valid →
        Completes (garblerServerV1 C (rehash X sha') s passwords t) (evaluatorClientV1 C (rehash X sha') c password passwords.length index)
          (sha' a) (if bitDistance passwords[index] password ≤ t then sha' a else sha' b) := by
  obtain ⟨h0, hl32⟩ := good_fits hlen
  obtain ⟨-, g1, g2⟩ := goodLength hlen
  rw [Nat.mul_comm 8] at g1 g2
  obtain ⟨a, b, hab, H⟩ := half2_points X rnd (n := len * 8) (t := t) (by omega) (by omega)
    (buildCircuit_ok X.dbg g1 ht) g2 ht
  refine ⟨a, b, hab, fun sha' h => ?_⟩
  obtain ⟨z, gc, d, H⟩ := H sha' h
  rintro C s c ps pw index hdb hi rfl hpw hm v1 v2
  have hil : ps[index].length = len := hdb.lengths _ (List.getElem_mem hi)
  have ul : ∀ p : Bytes, p.length = len → (u8VecToBoolVec p).length = len * 8 := fun p h => by rw [unpack_length, h, Nat.mul_comm]
  obtain ⟨gc', H1, H2⟩ := H s.g.ord v1.ord
  have H2 := H2 _ _ (ul pw hpw) (ul _ hil)
  rw [bitDistance_eq _ _ (by omega), bitDistance_comm _ _ (by omega),
    Nat.mod_eq_of_lt (by have := distance_le ps[index] pw; omega)] at H2
  exact (serverV1_conn C (rehash X sha') s c ps pw len index t hdb h0 (by unfold GoodLength at hlen; omega) hpw hi hm v1 v2 H1 H2).completes

example := C89_v1_server (Witness.crypto true) Witness.rand 2 1 (by meets) (by meets)

/-- C89, first implementation, client garbling: the keys are the values of the hash function at two different inputs of 42 bytes that the labels
drawn determine, for all hash functions that differ from the given one only at inputs of 42 bytes. -/
theorem C89_v1_client (X : Crypto) (rnd : GarbleRand) (len t : Nat) (hlen : GoodLength len) (ht : t < 65535) :
    ∃ a b : Bytes, (a.length = 42 ∧ b.length = 42 ∧ a ≠ b) ∧ ∀ sha', AgreeBut42 X.sha256 sha' →
      ∀ (C : Curve) (g : ClientGarbler1) (o : OTRecv) (passwords : List Bytes) (password : Bytes) (index : Nat)
        (_ : ∀ p ∈ passwords, p.length = len) (hi : index < passwords.length), g.g.rnd = rnd →
        (X.dbg = true → 2 ≤ passwords.length) → passwords.length < 2 ^ 32 →
        password.length = len → g.g.Valid → o.Valid →
        Completes (evaluatorServerV1 C (rehash X sha') o passwords) (garblerClientV1 C (rehash X sha') g password index passwords.length t)
          (if bitDistance passwords[index] password ≤ t then sha' a else sha' b) (sha' a) := by
  obtain ⟨h0, hl32⟩ := good_fits hlen
  obtain ⟨-, g1, g2⟩ := goodLength hlen
  rw [Nat.mul_comm 8] at g1 g2
  obtain ⟨a, b, hab, H⟩ := half2_points X rnd (n := len * 8) (t := t) (by omega) (by omega)
    (buildCircuit_ok X.dbg g1 ht) g2 ht
  refine ⟨a, b, hab, fun sha' h => ?_⟩
  obtain ⟨z, gc, d, H⟩ := H sha' h
  rintro C g o ps pw index hdb hi rfl hc hc' hpw v1 v2
  have hil : ps[index].length = len := hdb _ (List.getElem_mem hi)
  have ul : ∀ p : Bytes, p.length = len → (u8VecToBoolVec p).length = len * 8 := fun p h => by rw [unpack_length, h, Nat.mul_comm]
  obtain ⟨gc', H1, H2⟩ := H g.g.ord v1.ord
  have H2 := H2 _ _ (ul pw hpw) (ul _ hil)
  rw [bitDistance_eq _ _ (by omega), bitDistance_comm _ _ (by omega),
    Nat.mod_eq_of_lt (by have := distance_le ps[index] pw; omega)] at H2
  exact (clientV1_conn C (rehash X sha') g o ps pw len index t hdb h0 (by unfold GoodLength at hlen; omega) hc hc' hpw hi v1 v2 H1 H2).completes

example := C89_v1_client (Witness.crypto true) Witness.rand 2 1 (by meets) (by meets)

/-- C89, fourth implementation: four inputs, and both keys combined from the values there. -/
theorem C89_v4 (X : Crypto) (rnd rnd' : GarbleRand) (len ts tc : Nat) (hlen : GoodLength len) (hts : ts < 65535)
    (htc : tc < 65535) :
    ∃ a b a' b' : Bytes, (a.length = 42 ∧ b.length = 42 ∧ a ≠ b) ∧ (a'.length = 42 ∧ b'.length = 42 ∧ a' ≠ b') ∧
      ∀ sha', AgreeBut42 X.sha256 sha' →
      ∀ (C : Curve) (s : ManyDraws) (c : SingleDraws) (passwords : List Bytes) (password : Bytes) (index : Nat)
        (_ : Database passwords len) (hi : index < passwords.length), s.g.rnd = rnd → c.g.rnd = rnd' →
        password.length = len → s.many.Valid X.dbg passwords.length → s.g.Valid → s.ot.Valid → c.g.Valid → c.ot.Valid →
        Completes (mfpakeMany C (rehash X sha') s passwords ts)
          (mfpakeSingle C (rehash X sha') c password index passwords.length tc)
          (combine (sha' a) (if bitDistance passwords[index] password ≤ tc then sha' a' else sha' b'))
          (combine (if bitDistance passwords[index] password ≤ ts then sha' a else sha' b) (sha' a')) := by
  obtain ⟨a, b, h1, h2, h3, e⟩ := points_ends X rnd len ts hlen hts
  obtain ⟨a', b', h1', h2', h3', e'⟩ := points_ends X rnd' len tc hlen htc
  refine ⟨a, b, a', b', ⟨h1, h2, h3⟩, ⟨h1', h2', h3'⟩, fun sha' h C s c ps pw index hdb hi hg hg' hpw hm v1 v2 v3 v4 => ?_⟩
  obtain ⟨h0, hl32⟩ := good_fits hlen
  have hmask := drawMask_length s.mask len
  have hil : ps[index].length = len := hdb.lengths _ (List.getElem_mem hi)
  have hxl : (xorB (drawMask s.mask len) ps[index]).length = len := by rw [xorB_length (by omega), hil]
  have hyl : (xorB (xorB (drawMask s.mask len) ps[index]) pw).length = len := by rw [xorB_length (by omega), hpw]
  have u := e sha' h C s.g c.ot hg v1 v4 _ _ hmask hyl
  have v := (e' sha' h C c.g s.ot hg' v3 v2 _ _ hyl hmask).swap
  rw [bitDistance_comm _ _ (by omega)] at v
  rw [distance_masked (by omega) (by omega), bitDistance_comm _ _ (by omega)] at u v
  exact (many_conn C (rehash X sha') s c ps pw pw len index ts tc hdb h0 hl32 hi hm
    (fun m hl => xorBytesInplace_ok X.dbg (by omega)) u v).completes

example := C89_v4 (Witness.crypto true) Witness.rand Witness.rand' 2 1 1 (by meets) (by meets) (by meets)

/-- C89, fourth implementation with close passwords: either every key is possible, whatever is exchanged, or, if the
same label was drawn for the output in both directions, the key is zero. -/
theorem C89_v4_any_key (C : Curve) (X : Crypto) (s : ManyDraws) (c : SingleDraws) (passwords : List Bytes) (password : Bytes)
    (len index ts tc : Nat) (hlen : GoodLength len) (hts : ts < 65535) (htc : tc < 65535) (hdb : Database passwords len)
    (hi : index < passwords.length) (hpw : password.length = len) (hm : s.many.Valid X.dbg passwords.length)
    (hs : s.g.Valid ∧ s.ot.Valid) (hc : c.g.Valid ∧ c.ot.Valid)
    (h1 : bitDistance passwords[index] password ≤ ts) (h2 : bitDistance passwords[index] password ≤ tc) :
    (∀ k : WireBytes, ∃ sha', AgreeBut42 X.sha256 sha' ∧
      Forget (mfpakeMany C (rehash X sha') s passwords ts) = Forget (mfpakeMany C X s passwords ts) ∧
      (X.dbg = true → Forget (mfpakeSingle C (rehash X sha') c password index passwords.length tc) =
        Forget (mfpakeSingle C X c password index passwords.length tc)) ∧
      Completes (mfpakeMany C (rehash X sha') s passwords ts)
        (mfpakeSingle C (rehash X sha') c password index passwords.length tc) k k) ∨
    ∀ sha', AgreeBut42 X.sha256 sha' →
      Completes (mfpakeMany C (rehash X sha') s passwords ts)
        (mfpakeSingle C (rehash X sha') c password index passwords.length tc)
        (Vector.replicate 32 0) (Vector.replicate 32 0) := by
  obtain ⟨a, b, a', b', ⟨ha, hb, hab⟩, ⟨ha', hb', hab'⟩, H⟩ := C89_v4 X s.g.rnd c.g.rnd len ts tc hlen hts htc
  by_cases e : a = a'
  · refine .inr fun sha' h => ?_
    have := H sha' h C s c passwords password index hdb hi rfl rfl hpw hm hs.1 hs.2 hc.1 hc.2
    rw [if_pos h1, if_pos h2, ← e, combine_self] at this
    exact this
  · refine .inl fun k => ?_
    obtain ⟨sha', h, e1, e2⟩ := set_two X.sha256 ha ha' e (X.sha256 a) (combine (X.sha256 a) k)
    refine ⟨sha', h, C89_v4_server C X sha' h s passwords ts, fun hd => C89_v4_client C X hd sha' h c password index _ tc, ?_⟩
    have := H sha' h C s c passwords password index hdb hi rfl rfl hpw hm hs.1 hs.2 hc.1 hc.2
    rw [if_pos h1, if_pos h2, e1, e2, combine_cancel] at this
    exact this

example := C89_v4_any_key Witness.curve (Witness.crypto true) Witness.manyDraws Witness.singleDraws Witness.passwords
    Witness.password 2 1 1 1 (by meets) (by meets) (by meets) (by meets) (by meets) (by meets) (by meets) (by meets)
    (by meets) (by meets) (by meets)

/-- C89, why not in release builds: a server may put a key of any length into the 1-out-of-n transfer, for example one of
38 bytes, and a client that asks for the first entry xors what it is sent with a stream that depends on the hash of the
four zero bytes and this key. -/
theorem C89_fails_release (C : Curve) (X : Crypto) (hrel : X.dbg = false) (a b : Nat → Nat) (key y : Bytes) (len : Nat)
    (hk : key.length < 2 ^ 64) (hy : y.length = 2 * len) :
    Completes (sendP y >>= fun _ => coSender C X a [(key, key)]) (manyRecv C X b 0 1) ()
      (List.zipWith (· ^^^ ·) (y.take len) (X.fill (X.sha256 ([0, 0, 0, 0] ++ key)) len)) := by
  unfold manyRecv manyReceiver
  refine Ends.completes ?_
  rw [show manyChoices X.dbg 0 1 = .ok [false] by rw [hrel]; rfl, liftM_ok, ret_bind]
  refine .sendRecv ?_
  show Ends (coSender C X a [(key, key)]) (coReceiver C X b [false] >>= fun messages => _) _ _
  refine Ends.bindR (co_ends C X a b [(key, key)] [false] rfl (show 1 < 2 ^ 64 by decide) (by simpa using hk)) ?_
  rw [hrel]
  have hkeys : manyKeys false (chosen [(key, key)] [false]) 1 = .ok [key] := rfl
  rw [hkeys, liftM_ok, ret_bind]
  have hl : y.length / 2 = len := by omega
  have hun : manyUnmask X [key] 0 1 y = .ok (xorB (y.take len) (fk X key 0 len)) := by
    unfold manyUnmask
    rw [show shlOneR X.dbg 64 1 = .ok 2 from rfl, okb, hl]
    dsimp only
    rw [vectorRow_ok (n := 1) (by omega) (by decide), okb, show row y len 0 = y.take len by simp [row]]
    simp only [List.range_one, List.foldlM_cons, List.foldlM_nil]
    rw [idxR_ok (a := key) rfl, okb, xorBytesInplace_ok X.dbg (by simp [fk, Crypto.fill]; omega), okb]
    rfl
  rw [hun, liftM_ok]
  rfl

example := C89_fails_release Witness.curve (Witness.crypto false) (by meets) (· + 3) (· + 2) [3, 4, 9] [1, 7, 8, 2] 2
    (by meets) (by meets)

/-- A hash function that differs from a given one only at 42 bytes, and does differ. -/
example (sha : Bytes → WireBytes) (k : WireBytes) : ∃ sha', AgreeBut42 sha sha' ∧ sha' (List.replicate 42 7#8) = k := by
  obtain ⟨sha', h, e, -⟩ := set_two sha (a := List.replicate 42 7#8) (b := List.replicate 42 8#8) rfl rfl (by decide) k k
  exact ⟨sha', h, e⟩

end FP.Props
