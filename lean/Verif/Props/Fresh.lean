import Verif.Proof.Fresh
import Verif.Proof.Witness
/-
C89: the keys are values of the hash function at inputs that are used for nothing else.
-/
namespace FP.Props
open Spec

/-- C89: the garbling party of one direction does the same, apart from the key it returns, whatever the hash function is
at inputs of 42 bytes: against every peer it sends the same messages and returns, waits or fails in the same way. -/
theorem C89_garbler (C : Curve) (X : Crypto) (sha' : Bytes → WireBytes) (h : AgreeBut42 X.sha256 sha') (g : GarblerDraws)
    (p : Bytes) (t : Nat) :
    Forget (HalfKey.garbler C (rehash X sha') g p t) = Forget (HalfKey.garbler C X g p t) :=
  halfGarbler_re h C g p t

example := C89_garbler Witness.curve (Witness.crypto true) Witness.hash' (by meets) Witness.g [3, 4] 1

/-- C89: so does the evaluating party, whatever garbled circuit and labels it is sent. -/
theorem C89_evaluator (C : Curve) (X : Crypto) (sha' : Bytes → WireBytes) (h : AgreeBut42 X.sha256 sha') (o : OTRecv) (q : Bytes) :
    Forget (HalfKey.evaluator C (rehash X sha') o q) = Forget (HalfKey.evaluator C X o q) :=
  halfEvaluator_re h C o q

example := C89_evaluator Witness.curve (Witness.crypto true) Witness.hash' (by meets) Witness.recv Witness.password

/-- C89: the transfers do not use the hash function at inputs of 42 bytes at all. -/
theorem C89_transfers (C : Curve) (X : Crypto) (sha' : Bytes → WireBytes) (h : AgreeBut42 X.sha256 sha') (s : OTSend) (r : OTRecv) :
    s.run C (rehash X sha') = s.run C X ∧ r.run C (rehash X sha') = r.run C X :=
  ⟨sendRun_re h C s, recvRun_re h C r⟩

example := C89_transfers Witness.curve (Witness.crypto true) Witness.hash' (by meets) Witness.send Witness.recv

theorem points_ends (X : Crypto) (rnd : GarbleRand) (len t : Nat) (hlen : GoodLength len) (ht : t < 65535) :
    ∃ a b : Bytes, a.length = 42 ∧ b.length = 42 ∧ a ≠ b ∧ ∀ sha', AgreeBut42 X.sha256 sha' →
      ∀ (C : Curve) (g : GarblerDraws) (o : OTRecv), g.rnd = rnd → g.Valid → o.Valid →
        ∀ p q : Bytes, p.length = len → q.length = len →
        Ends (HalfKey.garbler C (rehash X sha') g p t) (HalfKey.evaluator C (rehash X sha') o q)
          (sha' a) (if bitDistance p q ≤ t then sha' a else sha' b) := by
  obtain ⟨h0, h1, h2⟩ := goodLength hlen
  obtain ⟨a, b, ha, hb, hab, H⟩ := half_points X rnd
    (thr_typedD (n := 8 * len) (T := t + 1) (by omega) good2 h2)
    (by intro d hd; exact (List.mem_replicate.mp hd).2) (by show 0 < 8 * len * 2; omega) rfl (thr_last (8 * len) _ (t + 1))
  refine ⟨a, b, ha, hb, hab, ?_⟩
  rintro sha' h C g o rfl hg ho p q hp hq
  obtain ⟨run, z, d, hrun, hgb, hzl, hzb, hK, hev⟩ := H sha' h
  change z.length = 8 * len * 2 at hzl
  have hbuild : buildCircuit (rehash X sha').dbg (8 * len) t = _ := buildCircuit_ok X.dbg h1 ht
  have hpl : (u8VecToBoolVec p).length = 8 * len := by rw [unpack_length, hp]
  have hql : (u8VecToBoolVec q).length = 8 * len := by rw [unpack_length, hq]
  obtain ⟨k1, k0⟩ := hev (u8VecToBoolVec p ++ u8VecToBoolVec q) (by
    rw [List.length_append, hpl, hql]; show 8 * len + 8 * len = 8 * len * 2; omega)
  rw [meaning_thr hpl hql, weight_mod, ← hamming_eq_weight, bitDistance_eq p q (by omega),
    Nat.mod_eq_of_lt (by have := distance_le p q; omega)] at k1 k0
  refine half_conn (rehash X sha').toEnv g.rnd g.ord hg.ord p q t (8 * len) _ _ (by omega) (by omega) (by omega) hbuild
    (by omega) (by omega) (ot_correct C (rehash X sha') hg.ot ho (by omega) (by omega) (by omega)) hrun hgb hzl hzb hK ?_
  split
  · exact k1 (by rw [if_pos (by omega)])
  · exact k0 (by rw [if_neg (by omega)])

/-- C89, one direction: the labels the garbler draws determine two different inputs of 42 bytes.  The keys are the values
of the hash function there, for all hash functions that differ from the given one only at inputs of 42 bytes. -/
theorem C89_half (X : Crypto) (rnd : GarbleRand) (len t : Nat) (hlen : GoodLength len) (ht : t < 65535) :
    ∃ a b : Bytes, a.length = 42 ∧ b.length = 42 ∧ a ≠ b ∧ ∀ sha', AgreeBut42 X.sha256 sha' →
      ∀ (C : Curve) (g : GarblerDraws) (o : OTRecv), g.rnd = rnd → g.Valid → o.Valid →
        ∀ p q : Bytes, p.length = len → q.length = len →
        Completes (HalfKey.garbler C (rehash X sha') g p t) (HalfKey.evaluator C (rehash X sha') o q)
          (sha' a) (if bitDistance p q ≤ t then sha' a else sha' b) := by
  obtain ⟨a, b, ha, hb, hab, H⟩ := points_ends X rnd len t hlen ht
  exact ⟨a, b, ha, hb, hab, fun sha' h C g o hr hg ho p q hp hq => (H sha' h C g o hr hg ho p q hp hq).completes⟩

example := C89_half (Witness.crypto true) Witness.rand 2 1 (by meets) (by meets)

theorem set_two (sha : Bytes → WireBytes) {a b : Bytes} (ha : a.length = 42) (hb : b.length = 42) (hab : a ≠ b) (k k' : WireBytes) :
    ∃ sha', AgreeBut42 sha sha' ∧ sha' a = k ∧ sha' b = k' := by
  refine ⟨fun m => if m = a then k else if m = b then k' else sha m, fun m hm => ?_, if_pos rfl, ?_⟩
  · show (if m = a then k else if m = b then k' else sha m) = sha m
    rw [if_neg (by rintro rfl; exact hm ha), if_neg (by rintro rfl; exact hm hb)]
  · show (if b = a then k else if b = b then k' else sha b) = k'
    rw [if_neg (Ne.symm hab), if_pos rfl]

/-- C89, one direction: whatever is exchanged, every pair of keys is possible.  For any two values there is a hash
function with which both parties do the same as with the given one, except that beyond the threshold the garbling party
obtains the first and the evaluating party the second. -/
theorem C89_any_keys (C : Curve) (X : Crypto) (g : GarblerDraws) (o : OTRecv) (hg : g.Valid) (ho : o.Valid) (p q : Bytes) (t : Nat)
    (hlen : GoodLength p.length) (hl : q.length = p.length) (ht : t < 65535) (k k' : WireBytes)
    (hd : bitDistance p q ≤ t → k' = k) :
    ∃ sha', AgreeBut42 X.sha256 sha' ∧
      Forget (HalfKey.garbler C (rehash X sha') g p t) = Forget (HalfKey.garbler C X g p t) ∧
      Forget (HalfKey.evaluator C (rehash X sha') o q) = Forget (HalfKey.evaluator C X o q) ∧
      Completes (HalfKey.garbler C (rehash X sha') g p t) (HalfKey.evaluator C (rehash X sha') o q) k k' := by
  obtain ⟨a, b, ha, hb, hab, H⟩ := C89_half X g.rnd p.length t hlen ht
  obtain ⟨sha', h, e1, e2⟩ := set_two X.sha256 ha hb hab k k'
  refine ⟨sha', h, C89_garbler C X _ h g p t, C89_evaluator C X _ h o q, ?_⟩
  have := H sha' h C g o rfl hg ho p q rfl hl
  rw [e1, e2] at this
  split at this
  · rename_i hc
    rw [hd hc]
    exact this
  · exact this

example := C89_any_keys Witness.curve (Witness.crypto true) Witness.g Witness.recv (by meets) (by meets) [3, 4]
    Witness.password 1 (by meets) (by meets) (by meets) (Witness.bytes 1) (Witness.bytes 1) (by meets)

/-- C89, the two-party exchange: four inputs, and both keys combined from the values there. -/
theorem C89_exchange (X : Crypto) (rnd rnd' : GarbleRand) (len t t' : Nat) (hlen : GoodLength len) (ht : t < 65535)
    (ht' : t' < 65535) :
    ∃ a b a' b' : Bytes, (a.length = 42 ∧ b.length = 42 ∧ a ≠ b) ∧ (a'.length = 42 ∧ b'.length = 42 ∧ a' ≠ b') ∧
      ∀ sha', AgreeBut42 X.sha256 sha' →
      ∀ (C : Curve) (g g' : GarblerDraws) (o o' : OTRecv), g.rnd = rnd → g'.rnd = rnd' →
        g.Valid → g'.Valid → o.Valid → o'.Valid → ∀ p q : Bytes, p.length = len → q.length = len →
        Completes (fpakeFirst C (rehash X sha') g o p t) (fpakeSecond C (rehash X sha') o' g' q t')
          (combine (sha' a) (if bitDistance p q ≤ t' then sha' a' else sha' b'))
          (combine (sha' a') (if bitDistance p q ≤ t then sha' a else sha' b)) := by
  obtain ⟨a, b, ha, hb, hab, H⟩ := points_ends X rnd len t hlen ht
  obtain ⟨a', b', ha', hb', hab', H'⟩ := points_ends X rnd' len t' hlen ht'
  refine ⟨a, b, a', b', ⟨ha, hb, hab⟩, ⟨ha', hb', hab'⟩, fun sha' h C g g' o o' hr hr' v1 v2 v3 v4 p q hp hq => ?_⟩
  have e := H sha' h C g o' hr v1 v4 p q hp hq
  have e' := (H' sha' h C g' o hr' v2 v3 q p hq hp).swap
  rw [bitDistance_comm q p (by omega)] at e'
  exact Ends.completes (.bind e (.bind e' (.ret _ _)))

example := C89_exchange (Witness.crypto true) Witness.rand Witness.rand' 2 1 1 (by meets) (by meets) (by meets)

/-- C89: the party that starts does the same whatever the hash function is at inputs of 42 bytes. -/
theorem C89_first (C : Curve) (X : Crypto) (sha' : Bytes → WireBytes) (h : AgreeBut42 X.sha256 sha') (g : GarblerDraws) (o : OTRecv)
    (p : Bytes) (t : Nat) : Forget (fpakeFirst C (rehash X sha') g o p t) = Forget (fpakeFirst C X g o p t) := by
  unfold fpakeFirst
  exact forget_bind (C89_garbler C X sha' h g p t) fun _ _ => forget_bind (C89_evaluator C X sha' h o p) fun _ _ => forget_pure _ _

example := C89_first Witness.curve (Witness.crypto true) Witness.hash' (by meets) Witness.g Witness.recv [3, 4] 1

/-- C89: so does the other. -/
theorem C89_second (C : Curve) (X : Crypto) (sha' : Bytes → WireBytes) (h : AgreeBut42 X.sha256 sha') (g : GarblerDraws) (o : OTRecv)
    (p : Bytes) (t : Nat) : Forget (fpakeSecond C (rehash X sha') o g p t) = Forget (fpakeSecond C X o g p t) := by
  unfold fpakeSecond
  exact forget_bind (C89_evaluator C X sha' h o p) fun _ _ => forget_bind (C89_garbler C X sha' h g p t) fun _ _ => forget_pure _ _

example := C89_second Witness.curve (Witness.crypto true) Witness.hash' (by meets) Witness.g Witness.recv [3, 4] 1

theorem combine_self (k : WireBytes) : combine k k = Vector.replicate 32 0 := by
  unfold combine xor32
  ext i hi
  simp

theorem combine_cancel (k k' : WireBytes) : combine k' (combine k' k) = k := by
  unfold combine xor32
  ext i hi
  simp [← BitVec.xor_assoc]

theorem combine_swap (k k' : WireBytes) : combine k k' = combine k' k := by
  unfold combine xor32
  ext i hi
  simp [BitVec.xor_comm]

/-- C89, the two-party exchange with close passwords: either every key is possible, whatever is exchanged, or, if the
same label was drawn for the output in both directions, the key is zero. -/
theorem C89_any_key (C : Curve) (X : Crypto) (g g' : GarblerDraws) (o o' : OTRecv) (hg : g.Valid) (hg' : g'.Valid) (ho : o.Valid)
    (ho' : o'.Valid) (p q : Bytes) (t t' : Nat) (hlen : GoodLength p.length) (hl : q.length = p.length) (ht : t < 65535)
    (ht' : t' < 65535) (h1 : bitDistance p q ≤ t) (h2 : bitDistance p q ≤ t') :
    (∀ k : WireBytes, ∃ sha', AgreeBut42 X.sha256 sha' ∧
      Forget (fpakeFirst C (rehash X sha') g o p t) = Forget (fpakeFirst C X g o p t) ∧
      Forget (fpakeSecond C (rehash X sha') o' g' q t') = Forget (fpakeSecond C X o' g' q t') ∧
      Completes (fpakeFirst C (rehash X sha') g o p t) (fpakeSecond C (rehash X sha') o' g' q t') k k) ∨
    ∀ sha', AgreeBut42 X.sha256 sha' →
      Completes (fpakeFirst C (rehash X sha') g o p t) (fpakeSecond C (rehash X sha') o' g' q t')
        (Vector.replicate 32 0) (Vector.replicate 32 0) := by
  obtain ⟨a, b, a', b', ⟨ha, hb, hab⟩, ⟨ha', hb', hab'⟩, H⟩ := C89_exchange X g.rnd g'.rnd p.length t t' hlen ht ht'
  by_cases e : a = a'
  · refine .inr fun sha' h => ?_
    have := H sha' h C g g' o o' rfl rfl hg hg' ho ho' p q rfl hl
    rw [if_pos h1, if_pos h2, ← e, combine_self] at this
    exact this
  · refine .inl fun k => ?_
    obtain ⟨sha', h, e1, e2⟩ := set_two X.sha256 ha ha' e (X.sha256 a) (combine (X.sha256 a) k)
    refine ⟨sha', h, C89_first C X sha' h g o p t, C89_second C X sha' h g' o' q t', ?_⟩
    have := H sha' h C g g' o o' rfl rfl hg hg' ho ho' p q rfl hl
    rw [if_pos h1, if_pos h2, e1, e2, combine_cancel, combine_swap, combine_cancel] at this
    exact this

example := C89_any_key Witness.curve (Witness.crypto true) Witness.g Witness.g' Witness.recv Witness.recv (by meets)
    (by meets) (by meets) (by meets) [3, 4] Witness.password 1 1 (by meets) (by meets) (by meets) (by meets) (by meets)
    (by meets)

/-- C89: two parties that draw the same labels and use the same threshold end with the key zero if their passwords are
close, whatever the hash function. -/
theorem C89_same_draws (C : Curve) (X : Crypto) (g g' : GarblerDraws) (o o' : OTRecv) (hg : g.Valid) (hg' : g'.Valid) (ho : o.Valid)
    (ho' : o'.Valid) (p q : Bytes) (t : Nat) (hlen : GoodLength p.length) (hl : q.length = p.length) (ht : t < 65535)
    (h1 : bitDistance p q ≤ t) (hsame : g'.rnd = g.rnd) :
    Completes (fpakeFirst C X g o p t) (fpakeSecond C X o' g' q t) (Vector.replicate 32 0) (Vector.replicate 32 0) := by
  obtain ⟨a, b, -, -, -, H⟩ := points_ends X g.rnd p.length t hlen ht
  have h : AgreeBut42 X.sha256 X.sha256 := fun _ _ => rfl
  have e := H _ h C g o' rfl hg ho' p q rfl hl
  have e' := (H _ h C g' o hsame hg' ho q p hl rfl).swap
  rw [bitDistance_comm q p hl.symm] at e'
  rw [if_pos h1] at e e'
  rw [← combine_self (X.sha256 a)]
  exact Ends.completes (.bind e (.bind e' (.ret _ _)))

example := C89_same_draws Witness.curve (Witness.crypto true) Witness.g Witness.g Witness.recv Witness.recv (by meets)
    (by meets) (by meets) (by meets) [3, 4] Witness.password 1 (by meets) (by meets) (by meets) (by meets) rfl

end FP.Props
