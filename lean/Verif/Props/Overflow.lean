import Verif.Proof.Overflow
import Verif.Proof.Secrecy
import Verif.Props.Fpake
import Verif.Props.ManyFpake
import Verif.Props.Legacy
import Verif.Proof.Witness
/-
C29, C30: the password lengths for which the key exchange does what it is supposed to.
-/
namespace FP.Props
open Spec

theorem bad_of_not_good {len : Nat} (h : ¬ GoodDomain (8 * len % 65536 + 1)) : BadDomain (8 * len % 65536 + 1) := by
  unfold GoodDomain at h; unfold BadDomain; omega

/-- One direction with the hash and the draws of Proof/Overflow.lean. -/
theorem wrap_ends (C : Curve) (X : Crypto) (ord : MapOrder) (s : OTSend) (o : OTRecv) (hord : ord.Valid) (hs : s.Valid)
    (ho : o.Valid) (p : Bytes) (t : Nat) (hfit : p.length < 2 ^ 58) (hbad : BadDomain (8 * p.length % 65536 + 1))
    (ht : t < 65535) (hX : X.toEnv = wrapEnv (8 * p.length % 65536 + 1)) (m : Bool) :
    ∃ k k', Ends (HalfKey.garbler C X ⟨wrapRand (markAt m (8 * p.length)), ord, s⟩ p t) (HalfKey.evaluator C X o p) k k' ∧
      (m = false → k = k') ∧ (m = true → k ≠ k') := by
  have hp : 0 < p.length := by unfold BadDomain at hbad; omega
  obtain ⟨run, z, d, K, hr, hg, hzl, hzb, hK, hev⟩ := wrap_thr (D := 8 * p.length % 65536 + 1) (T := t + 1)
    (n := 8 * p.length) hbad (by omega) (by omega) m
  obtain ⟨K', hK', h0, h1⟩ := hev (u8VecToBoolVec p) (unpack_length p)
  have hb : buildCircuit X.toEnv.dbg (8 * p.length) t = .ok (thrCircuit (8 * p.length) (8 * p.length % 65536 + 1) (t + 1)) :=
    buildCircuit_eq (addR_ok _ (by unfold BadDomain at hbad; omega)) (addR_ok _ (by omega))
  rw [← hX] at hr hg hK'
  refine ⟨K, K', ?_, fun h => (h0 h).symm, fun h => (h1 h).symm⟩
  exact half_conn X.toEnv _ ord hord p p t (8 * p.length) _ _ rfl rfl (by omega) hb (by unfold BadDomain at hbad; omega)
    (by omega) (ot_correct C X hs ho (by omega) (by omega) (by omega)) hr hg hzl hzb hK hK'

/-- The primitives with another hash, in a release build. -/
def withHash (X : Crypto) (E : Env) : Crypto := { X with toEnv := E }

/-- C29 is false of the code for every password of 16 to 31 bytes, of 4096 to 8191 bytes, and of every
longer length whose bit count modulo 65536 falls into the same ranges, whatever the threshold: sums of
label digits wrap around at the machine word, and there are a hash and draws with which a password does
not even agree with itself. -/
theorem C29_fails_bad_length (C : Curve) (X : Crypto) (ord : MapOrder) (s : OTSend) (o : OTRecv) (hord : ord.Valid)
    (hs : s.Valid) (ho : o.Valid) (p : Bytes) (t : Nat) (hp : 0 < p.length) (hfit : p.length < 2 ^ 58)
    (hbad : ¬ GoodDomain (8 * p.length % 65536 + 1)) (ht : t < 65535) :
    ∃ (sha : Bytes → WireBytes) (rnd : GarbleRand) (k k' : WireBytes),
      Completes (HalfKey.garbler C (withHash X ⟨false, sha⟩) ⟨rnd, ord, s⟩ p t)
        (HalfKey.evaluator C (withHash X ⟨false, sha⟩) o p) k k' ∧ k ≠ k' := by
  obtain ⟨k, k', he, -, h⟩ := wrap_ends C (withHash X (wrapEnv (8 * p.length % 65536 + 1))) ord s o hord hs ho p t hfit
    (bad_of_not_good hbad) ht rfl true
  exact ⟨_, _, k, k', he.completes, h rfl⟩

example := C29_fails_bad_length Witness.curve (Witness.crypto true) Witness.order Witness.send Witness.recv (by meets)
    (by meets) (by meets) (List.replicate 16 7) 1 (by meets) (by meets) (by meets) (by meets)

/-! ### Exactly the good lengths -/

/-- Draws that can occur. -/
def someSend : OTSend := ⟨false, 1, List.range, Vector.replicate 32 0, Vector.replicate 16 0, fun _ => 0⟩

def someRecv : OTRecv := ⟨false, 1, List.range, List.range, Vector.replicate 32 0, Vector.replicate 256 false,
  Vector.replicate 128 (Vector.replicate 32 0), Vector.replicate 128 (Vector.replicate 32 0), fun _ => 0⟩

theorem someSend_valid : someSend.Valid := ⟨Nat.one_pos, fun _ => List.Perm.refl _⟩

theorem someRecv_valid : someRecv.Valid := ⟨Nat.one_pos, fun _ => List.Perm.refl _, fun _ => List.Perm.refl _⟩

theorem someOrder_valid : someOrder.Valid :=
  ⟨fun m => (exists_iteration m).choose_spec, fun m => (exists_iteration m).choose_spec⟩

noncomputable def someDraws (rnd : GarbleRand) : GarblerDraws := ⟨rnd, someOrder, someSend⟩

theorem someDraws_valid (rnd : GarbleRand) : (someDraws rnd).Valid := ⟨someOrder_valid, someSend_valid⟩

/-- Primitives with a given hash. -/
def someCrypto (E : Env) : Crypto := { toEnv := E, chacha20 := fun _ _ => 0, chacha8 := fun _ _ => 0 }

theorem garbler_panics_max (C : Curve) (X : Crypto) (g : GarblerDraws) (p : Bytes) (hX : X.dbg = true) :
    HalfKey.garbler C X g p 65535 = .fail .panic := by
  unfold HalfKey.garbler halfGarbler
  dsimp only
  rw [unpack_length]
  have : buildCircuit X.dbg (8 * p.length) 65535 = .error .panic := by
    unfold buildCircuit
    rw [addR_ok X.dbg (by omega), okb, hX]
    rfl
  rw [this]
  rfl

theorem count_below (N d : Nat) : (List.range N).countP (fun i => decide (i < d)) = min N d := by
  induction N with
  | zero => simp
  | succ N ih =>
    rw [List.range_succ, List.countP_append, ih]
    by_cases h : N < d
    · simp [h]; omega
    · simp [h]; omega

/-- Passwords at every distance exist. -/
theorem at_distance (len d : Nat) (hd : d ≤ 8 * len) : ∃ p q : Bytes, p.length = len ∧ q.length = len ∧ bitDistance p q = d := by
  obtain ⟨p, hp, hpb⟩ := packed_exists len (fun _ => false)
  obtain ⟨q, hq, hqb⟩ := packed_exists len (fun i => decide (i < d))
  refine ⟨p, q, hp, hq, ?_⟩
  unfold bitDistance
  rw [hp]
  have : ∀ i ∈ List.range (8 * len), ((bitAt p i != bitAt q i) = true ↔ (decide (i < d)) = true) := by
    intro i hi
    rw [hpb i (List.mem_range.mp hi), hqb i (List.mem_range.mp hi)]
    simp
  rw [List.countP_congr this, count_below]
  omega

theorem good_length_iff {len : Nat} (hl : len < 8192) : GoodLength len ↔ 0 < len ∧ GoodDomain (8 * len % 65536 + 1) := by
  unfold GoodLength GoodDomain; omega

/-- C29: the statement holds in full for exactly the lengths 1 to 15 and 32 to 4095 bytes, and the
thresholds below 65535. -/
theorem C29_exact (C : Curve) (len t : Nat) (hlen : len < 2 ^ 58) (ht : t ≤ 65535) :
    HalfKeysOK C len t ↔ GoodLength len ∧ t < 65535 := by
  constructor
  · intro h
    have ht' : t < 65535 := by
      refine Decidable.by_contra fun hc => ?_
      have : t = 65535 := by omega
      subst this
      obtain ⟨k, k', hk, -⟩ := h (someCrypto (toyEnv true)) (someDraws (wrapRand (markAt true 0))) someRecv (someDraws_valid _)
        someRecv_valid (List.replicate len 0) (List.replicate len 0) (by simp) (by simp)
      rw [garbler_panics_max _ _ _ _ rfl] at hk
      exact not_completes_left hk
    refine ⟨?_, ht'⟩
    have hpos : 0 < len := by
      refine Nat.pos_of_ne_zero fun hc => ?_
      subst hc
      obtain ⟨k, k', hk, -⟩ := h (someCrypto (toyEnv true)) (someDraws (wrapRand (markAt true 0))) someRecv (someDraws_valid _)
        someRecv_valid [] [] rfl rfl
      rw [C29_fails_empty] at hk
      exact not_completes_left hk
    have hgood : GoodDomain (8 * len % 65536 + 1) := by
      refine Decidable.by_contra fun hc => ?_
      have hl : (List.replicate len (0 : Byte)).length = len := by simp
      obtain ⟨sha, rnd, k, k', hk, hne⟩ := C29_fails_bad_length C (someCrypto (toyEnv false)) someOrder someSend someRecv
        someOrder_valid someSend_valid someRecv_valid (List.replicate len 0) t (by omega) (by omega) (by rw [hl]; exact hc) ht'
      obtain ⟨j, j', hj, he, -⟩ := h _ (someDraws rnd) someRecv (someDraws_valid _) someRecv_valid _ _ hl hl
      obtain ⟨rfl, rfl⟩ := hk.unique hj
      exact hne (he (by simp [bitDistance]))
    by_cases hl : len < 8192
    · exact (good_length_iff hl).mpr ⟨hpos, hgood⟩
    · exfalso
      obtain ⟨d, hd, hdt, hdm⟩ : ∃ d, d ≤ 8 * len ∧ t < d ∧ d % (8 * len % 65536 + 1) ≤ t := by
        by_cases htd : t < 8 * len % 65536 + 1
        · exact ⟨8 * len % 65536 + 1, by omega, htd, by rw [Nat.mod_self]; omega⟩
        · exact ⟨8 * len, Nat.le_refl _, by omega, by
            have := Nat.mod_lt (8 * len) (show 0 < 8 * len % 65536 + 1 by omega); omega⟩
      obtain ⟨p, q, hp, hq, hdist⟩ := at_distance len d hd
      obtain ⟨k, k', hk, he, -⟩ := C29_long_passwords C (someCrypto (toyEnv true)) (someDraws (wrapRand (markAt true 0))) someRecv
        (someDraws_valid _) someRecv_valid p q t (by omega) (by omega) (by omega) (by rw [hp]; exact hgood) ht'
      obtain ⟨j, j', hj, -, hne⟩ := h (someCrypto (toyEnv true)) (someDraws (wrapRand (markAt true 0))) someRecv
        (someDraws_valid _) someRecv_valid p q hp hq
      obtain ⟨rfl, rfl⟩ := hk.unique hj
      exact hne (by omega) (fun _ run _ _ => toy_noCollision true run) (he (by rw [hdist, hp]; exact hdm))
  · rintro ⟨hgood, ht'⟩ X g o hg ho p q hp hq
    subst hp
    exact C29_half_keys_partial C X g o hg ho p q t hq hgood ht'

example := C29_exact Witness.curve 2 1 (by meets) (by meets)

/-- One direction with close passwords of any length for which label arithmetic is right. -/
theorem half_same (C : Curve) (X : Crypto) (g : GarblerDraws) (o : OTRecv) (hg : g.Valid) (ho : o.Valid) (p q : Bytes)
    (t : Nat) (hl : q.length = p.length) (hp : 0 < p.length) (hfit : p.length < 2 ^ 58)
    (hgood : GoodDomain (8 * p.length % 65536 + 1)) (ht : t < 65535) (hd : bitDistance p q ≤ t) :
    ∃ k, Ends (HalfKey.garbler C X g p t) (HalfKey.evaluator C X o q) k k := by
  have hb : buildCircuit X.dbg (8 * p.length) t = .ok (thrCircuit (8 * p.length) (8 * p.length % 65536 + 1) (t + 1)) :=
    buildCircuit_eq (addR_ok X.dbg (by unfold GoodDomain at hgood; omega)) (addR_ok X.dbg (by omega))
  obtain ⟨k, k', he, h1, -⟩ := half_exact C X g o hg ho p q t _ _ hl hp (by omega) hb hgood (by omega)
  have := h1 (by have := Nat.mod_le (bitDistance p q) (8 * p.length % 65536 + 1); omega)
  subst this
  exact ⟨k, he⟩

/-- C30 is false of the code for the same lengths: two parties with the *same* password can end up with
different keys. -/
theorem C30_fails_bad_length (C : Curve) (X : Crypto) (ord1 ord2 : MapOrder) (s1 s2 : OTSend) (o1 o2 : OTRecv)
    (hord1 : ord1.Valid) (hord2 : ord2.Valid) (hs1 : s1.Valid) (hs2 : s2.Valid) (ho1 : o1.Valid) (ho2 : o2.Valid)
    (p : Bytes) (t1 t2 : Nat) (hp : 0 < p.length) (hfit : p.length < 2 ^ 58)
    (hbad : ¬ GoodDomain (8 * p.length % 65536 + 1)) (ht1 : t1 < 65535) (ht2 : t2 < 65535) :
    ∃ (sha : Bytes → WireBytes) (rnd1 rnd2 : GarbleRand) (key key' : WireBytes),
      Completes (fpakeFirst C (withHash X ⟨false, sha⟩) ⟨rnd1, ord1, s1⟩ o1 p t1)
        (fpakeSecond C (withHash X ⟨false, sha⟩) o2 ⟨rnd2, ord2, s2⟩ p t2) key key' ∧ key ≠ key' := by
  obtain ⟨a, a', h1, -, hne⟩ := wrap_ends C (withHash X (wrapEnv (8 * p.length % 65536 + 1))) ord1 s1 o2 hord1 hs1 ho2 p t1
    hfit (bad_of_not_good hbad) ht1 rfl true
  obtain ⟨b, b', h2, heq, -⟩ := wrap_ends C (withHash X (wrapEnv (8 * p.length % 65536 + 1))) ord2 s2 o1 hord2 hs2 ho1 p t2
    hfit (bad_of_not_good hbad) ht2 rfl false
  have := heq rfl
  subst this
  refine ⟨wrapHash (8 * p.length % 65536 + 1), wrapRand (markAt true (8 * p.length)), wrapRand (markAt false (8 * p.length)), combine a b, combine b a', Ends.completes ?_, fun he => hne rfl ?_⟩
  · unfold fpakeFirst fpakeSecond
    exact .bind h1 (.bind h2.swap (.ret _ _))
  · rw [C12_combine_comm a b] at he
    exact C12_combine_inj _ _ _ he

example := C30_fails_bad_length Witness.curve (Witness.crypto true) Witness.order Witness.order Witness.send
    Witness.send Witness.recv Witness.recv (by meets) (by meets) (by meets) (by meets) (by meets) (by meets) (List.replicate 16 7) 1 2
    (by meets) (by meets) (by meets) (by meets) (by meets)

/-- C30: close passwords always give the same key for exactly the lengths for which labels modulo the
truncated number of bits plus one are added correctly. -/
theorem C30_exact (C : Curve) (len t1 t2 : Nat) (hlen : len < 2 ^ 58) (ht1 : t1 ≤ 65535) (ht2 : t2 ≤ 65535) :
    SameKeyOK C len t1 t2 ↔ 0 < len ∧ GoodDomain (8 * len % 65536 + 1) ∧ t1 < 65535 ∧ t2 < 65535 := by
  constructor
  · intro h
    have hzero : ∀ q : Bytes, bitDistance q q = 0 := by intro q; simp [bitDistance]
    have hl : (List.replicate len (0 : Byte)).length = len := by simp
    have hpos : 0 < len := by
      refine Nat.pos_of_ne_zero fun hc => ?_
      subst hc
      obtain ⟨k, hk⟩ := h (someCrypto (toyEnv true)) (someDraws (wrapRand (markAt true 0))) (someDraws (wrapRand (markAt true 0)))
        someRecv someRecv (someDraws_valid _) (someDraws_valid _) someRecv_valid someRecv_valid [] [] rfl rfl
        (Nat.zero_le _) (Nat.zero_le _)
      unfold fpakeFirst at hk
      rw [C29_fails_empty] at hk
      exact not_completes_left hk
    have ht1' : t1 < 65535 := by
      refine Decidable.by_contra fun hc => ?_
      have : t1 = 65535 := by omega
      subst this
      obtain ⟨k, hk⟩ := h (someCrypto (toyEnv true)) (someDraws (wrapRand (markAt true 0))) (someDraws (wrapRand (markAt true 0)))
        someRecv someRecv (someDraws_valid _) (someDraws_valid _) someRecv_valid someRecv_valid _ _ hl hl
        (by rw [hzero]; omega) (by rw [hzero]; omega)
      unfold fpakeFirst at hk
      rw [garbler_panics_max _ _ _ _ rfl] at hk
      exact not_completes_left hk
    have hgood : ∀ t2', t2' < 65535 → t2' = t2 → GoodDomain (8 * len % 65536 + 1) := by
      intro t2' ht2' ht2e
      subst ht2e
      refine Decidable.by_contra fun hc => ?_
      obtain ⟨sha, rnd1, rnd2, k, k', hk, hne⟩ := C30_fails_bad_length C (someCrypto (toyEnv false)) someOrder someOrder
        someSend someSend someRecv someRecv someOrder_valid someOrder_valid someSend_valid someSend_valid someRecv_valid
        someRecv_valid (List.replicate len 0) t1 t2' (by omega) (by omega) (by rw [hl]; exact hc) ht1' ht2'
      obtain ⟨j, hj⟩ := h _ (someDraws rnd1) (someDraws rnd2) someRecv someRecv (someDraws_valid _) (someDraws_valid _)
        someRecv_valid someRecv_valid _ _ hl hl (by rw [hzero]; omega) (by rw [hzero]; omega)
      obtain ⟨rfl, rfl⟩ := hk.unique hj
      exact hne rfl
    have ht2' : t2 < 65535 := by
      refine Decidable.by_contra fun hc => ?_
      have : t2 = 65535 := by omega
      subst this
      obtain ⟨k, hk⟩ := h (someCrypto (toyEnv true)) (someDraws (wrapRand (markAt true 0))) (someDraws (wrapRand (markAt true 0)))
        someRecv someRecv (someDraws_valid _) (someDraws_valid _) someRecv_valid someRecv_valid _ _ hl hl
        (by rw [hzero]; omega) (by rw [hzero]; omega)
      unfold fpakeSecond at hk
      rw [garbler_panics_max _ _ _ _ rfl] at hk
      exact not_completes_right_later (fun _ => rfl) hk
    exact ⟨hpos, hgood t2 ht2' rfl, ht1', ht2'⟩
  · rintro ⟨hpos, hgood, ht1', ht2'⟩ X g1 g2 o1 o2 hg1 hg2 ho1 ho2 p q hp hq hd1 hd2
    subst hp
    obtain ⟨a, h1⟩ := half_same C X g1 o2 hg1 ho2 p q t1 hq hpos hlen hgood ht1' hd1
    obtain ⟨b, h2⟩ := half_same C X g2 o1 hg2 ho1 q p t2 hq.symm (by omega) (by omega) (by rw [hq]; exact hgood) ht2'
      (by rw [← bitDistance_comm p q hq]; exact hd2)
    refine ⟨combine a b, Ends.completes ?_⟩
    unfold fpakeFirst fpakeSecond
    exact h1.bind (h2.swap.bind (by rw [C12_combine_comm b a]; exact .ret _ _))

example := C30_exact Witness.curve 2 1 2 (by meets) (by meets) (by meets)

/-! ### The hypotheses can be met -/

example : ¬ GoodDomain (8 * 16 % 65536 + 1) := by decide

example : ¬ GoodDomain (8 * 5000 % 65536 + 1) := by decide

example : GoodDomain (8 * 10000 % 65536 + 1) := by decide

example : GoodLength 15 ∧ ¬ GoodLength 16 ∧ ¬ GoodLength 31 ∧ GoodLength 32 := by decide

end FP.Props
