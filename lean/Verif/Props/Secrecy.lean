import Verif.Proof.Secrecy
/-
C53: what the sender of an OT extension learns about the receiver's choices.
-/
namespace FP.Props
open Spec

attribute [local irreducible] Spec.modulus

/-! ### The newer extension -/

/-- C53, src/ot/apricot.rs, the whole exchange against an arbitrary sender.  Fix the messages `inp` the
sender sends, its secret `delta`, and two lists of choices of the same length.  If the coefficients of the
bonus rows can make up for the difference of the choices, there is a bijection (an involution) of stream
generators which changes no stream but those of the seeds that this sender does not receive, and a bijection
(an involution) of the bonus bits, under which the receiver with one list sends exactly what the
receiver with the other list sends.  So for random bonus bits and random unknown streams, what the sender
sees is equally likely for both. -/
theorem C53_apricot_hidden (X : Crypto) (arm : Bool) (cores : Nat) (sched1 sched2 : Nat → List Nat) (coin : WireBytes)
    (seed0 seed1 : Vector WireBytes 128) (delta : Bytes)
    (choices choices' : List Bool) (inp : List Bytes) (h8 : choices.length % 8 = 0)
    (hlen : choices'.length = choices.length) (hc : 0 < cores) (hs : ∀ n, IsOrder n (sched1 n)) (hd : delta.length = 16)
    (hA : HiddenApart delta (seedAt seed0) (seedAt seed1) (agreed coin (inp.getD 1 [])))
    (hcomp : Compensated (chi (X.fill (agreed coin (inp.getD 1 [])) (16 * (choices.length + 256))))
      choices.length (choices.length + 256) (fun j => choices.getD j false) (fun j => choices'.getD j false)) :
    ∃ (Φ : (WireBytes → Nat → Byte) → (WireBytes → Nat → Byte)) (B : Vector Bool 256 → Vector Bool 256),
      (∀ f, Φ (Φ f) = f) ∧ (∀ b, B (B b) = b) ∧ (∀ f, SameKnown delta (seedAt seed0) (seedAt seed1) f (Φ f)) ∧
      ∀ f, f (agreed coin (inp.getD 1 [])) = X.chacha20 (agreed coin (inp.getD 1 [])) →
        ∀ (inner : List (Bytes × Bytes) → Proc Unit) bonus,
        ((apricotReceiver { X with chacha20 := Φ f } arm cores sched1 sched2 coin (B bonus) seed0 seed1 inner
            choices').against inp).1 =
        ((apricotReceiver { X with chacha20 := f } arm cores sched1 sched2 coin bonus seed0 seed1 inner
            choices).against inp).1 := by
  obtain ⟨w, hw⟩ : ∃ w, choices.length + 256 = 8 * w := ⟨choices.length / 8 + 32, by omega⟩
  rw [hw] at hcomp
  obtain ⟨e, he, hz⟩ := compensated_shift (by omega) hcomp
  obtain ⟨E, hE, hEb⟩ := packed_exists w e
  refine ⟨rehide delta (seedAt seed0) (seedAt seed1) (fun k => E.getD k 0),
    fun b => Vector.ofFn fun k => b[k] ^^ e (choices.length + k), fun f => rehide_invol .., ?_, fun f => rehide_known delta _ _ _ f, ?_⟩
  · intro b
    ext k hk
    simp
  · intro f hf inner bonus
    have hfill : ({ X with chacha20 := f } : Crypto).fill (agreed coin (inp.getD 1 [])) (16 * (8 * w)) =
        X.fill (agreed coin (inp.getD 1 [])) (16 * (8 * w)) := fill_same (X := X) (f := X.chacha20) hf
    have hB : (Vector.ofFn fun k : Fin 256 => bonus[k] ^^ e (choices.length + k)).toList =
        (List.range 256).map fun k => bonus.toList.getD k false ^^ e (choices.length + k) := by
      apply List.ext_getElem
      · simp
      · intro k h1 h2
        have hk : k < 256 := by simpa using h2
        simp [hk]
    rcases receiver_reach X arm cores sched1 sched2 coin seed0 seed1 inner choices.length h8 inp with
      ⟨pre, ms, rest, h⟩ | ⟨pre, h⟩
    · rw [h _ _ _ hlen, h _ _ _ rfl, hB]
      refine congrArg (pre ++ ·) ?_
      exact receiver_same X arm cores sched1 sched2 _ (seedAt seed0) (seedAt seed1) delta choices choices' bonus.toList ms w
        e E hw hlen (by simp) hc hs hd hA hE hEb he f (by rw [hfill]; exact hz) rest
    · rw [h _ _ _ hlen, h _ _ _ rfl]

/-- C53, when the bonus rows are of use: if their coefficients generate the whole field, every two lists of
choices look the same. -/
theorem C53_apricot_spanning (X : Crypto) (arm : Bool) (cores : Nat) (sched1 sched2 : Nat → List Nat) (coin : WireBytes)
    (seed0 seed1 : Vector WireBytes 128) (delta : Bytes)
    (choices choices' : List Bool) (inp : List Bytes) (h8 : choices.length % 8 = 0)
    (hlen : choices'.length = choices.length) (hc : 0 < cores) (hs : ∀ n, IsOrder n (sched1 n)) (hd : delta.length = 16)
    (hA : HiddenApart delta (seedAt seed0) (seedAt seed1) (agreed coin (inp.getD 1 [])))
    (hsp : Spanning (chi (X.fill (agreed coin (inp.getD 1 [])) (16 * (choices.length + 256))))
      choices.length (choices.length + 256)) :
    ∃ (Φ : (WireBytes → Nat → Byte) → (WireBytes → Nat → Byte)) (B : Vector Bool 256 → Vector Bool 256),
      (∀ f, Φ (Φ f) = f) ∧ (∀ b, B (B b) = b) ∧ (∀ f, SameKnown delta (seedAt seed0) (seedAt seed1) f (Φ f)) ∧
      ∀ f, f (agreed coin (inp.getD 1 [])) = X.chacha20 (agreed coin (inp.getD 1 [])) →
        ∀ (inner : List (Bytes × Bytes) → Proc Unit) bonus,
        ((apricotReceiver { X with chacha20 := Φ f } arm cores sched1 sched2 coin (B bonus) seed0 seed1 inner
            choices').against inp).1 =
        ((apricotReceiver { X with chacha20 := f } arm cores sched1 sched2 coin bonus seed0 seed1 inner
            choices).against inp).1 :=
  C53_apricot_hidden X arm cores sched1 sched2 coin seed0 seed1 delta choices choices' inp h8 hlen hc hs hd hA
    (hsp _)

/-- C53, exactly when: after the bootstrap, the messages that a receiver with `choices` sends can also come
from a receiver with `choices'`, other bonus bits and other streams of the seeds the sender does not have,
if and only if the coefficients of the bonus rows can make up for the difference.  Otherwise the sender can
tell the two lists apart. -/
theorem C53_apricot_exact (X : Crypto) (arm : Bool) (cores : Nat) (sched1 sched2 : Nat → List Nat) (seed : WireBytes)
    (s0 s1 : Nat → WireBytes) (delta : Bytes) (bonus choices choices' : List Bool) (ms : Nat)
    (h8 : choices.length % 8 = 0) (hlen : choices'.length = choices.length) (hb : bonus.length = 256) (hc : 0 < cores)
    (hs : ∀ n, IsOrder n (sched1 n)) (hd : delta.length = 16) (hA : HiddenApart delta s0 s1 seed) :
    (∃ (f : WireBytes → Nat → Byte) (bonus' : List Bool), SameKnown delta s0 s1 X.chacha20 f ∧ bonus'.length = 256 ∧
      ∀ inp, ((apricotReceiverExtend { X with chacha20 := f } arm cores sched1 sched2 seed
            ((List.range 128).map fun i => (s0 i).toList) ((List.range 128).map fun i => (s1 i).toList)
            bonus' choices' ms).against inp).1 =
          ((apricotReceiverExtend X arm cores sched1 sched2 seed
            ((List.range 128).map fun i => (s0 i).toList) ((List.range 128).map fun i => (s1 i).toList)
            bonus choices ms).against inp).1) ↔
    Compensated (chi (X.fill seed (16 * (choices.length + 256)))) choices.length (choices.length + 256)
      (fun j => choices.getD j false) (fun j => choices'.getD j false) := by
  obtain ⟨w, hw⟩ : ∃ w, choices.length + 256 = 8 * w := ⟨choices.length / 8 + 32, by omega⟩
  rw [hw]
  constructor
  · rintro ⟨f, bonus', hk, hb', h⟩
    have hfs : f seed = X.chacha20 seed := hk seed fun i hi he => hA.agreed i hi he.symm
    have hfill : ({ X with chacha20 := f } : Crypto).fill seed (16 * (8 * w)) = X.fill seed (16 * (8 * w)) :=
      fill_same (X := X) (f := X.chacha20) hfs
    obtain ⟨p, t, x, ts, -, -, -, h3, -, h5⟩ := receiverExtend_sent X arm cores sched1 sched2 seed s0 s1 bonus choices ms w
      hw hb hc hs
    obtain ⟨p', t', x', ts', -, -, -, h3', -, h5'⟩ := receiverExtend_sent { X with chacha20 := f } arm cores sched1 sched2 seed
      s0 s1 bonus' choices' ms w (by omega) hb' hc hs
    have := h []
    rw [h5, h5'] at this
    simp only [List.cons.injEq, and_true] at this
    obtain ⟨-, hx, -⟩ := this
    subst hx
    rw [hfill, h3] at h3'
    obtain ⟨e, he⟩ := compensated_of_sums (n := choices.length) (x := fun j => (choices ++ bonus).getD j false)
      (x' := fun j => (choices' ++ bonus').getD j false) (by omega) h3'
    refine ⟨e, ?_⟩
    rw [← he]
    refine Finset.sum_congr rfl fun j hj => ?_
    have hj : j < choices.length := by simpa using hj
    have e1 : (choices ++ bonus).getD j false = choices.getD j false := by
      rw [List.getD_eq_getElem?_getD, List.getD_eq_getElem?_getD, List.getElem?_append_left hj]
    have e2 : (choices' ++ bonus').getD j false = choices'.getD j false := by
      rw [List.getD_eq_getElem?_getD, List.getD_eq_getElem?_getD, List.getElem?_append_left (by omega)]
    simp only [e1, e2]
  · intro hcomp
    obtain ⟨e, he, hz⟩ := compensated_shift (by omega) hcomp
    obtain ⟨E, hE, hEb⟩ := packed_exists w e
    refine ⟨rehide delta s0 s1 (fun k => E.getD k 0) X.chacha20,
      (List.range 256).map fun k => bonus.getD k false ^^ e (choices.length + k), rehide_known delta s0 s1 _ _, by simp, fun inp => ?_⟩
    exact receiver_same X arm cores sched1 sched2 seed s0 s1 delta choices choices' bonus ms w e E hw hlen hb hc hs hd hA
      hE hEb he X.chacha20 hz inp

/-! ### The older extension -/

/-- C53, src/ot/apricot_classic.rs, after the bootstrap and against an arbitrary sender, whose first message
after the bootstrap is its contribution to the coin flip.  As for the newer extension: if the coefficients of
the bonus rows can make up for the difference of the choices, a bijection of the unknown streams and one of
the bonus bits turn what the receiver sends with one list of choices into what it sends with the other. -/
theorem C53_classic_hidden (X : Crypto) (arch : Arch) (coin seed : WireBytes)
    (s0 s1 : Nat → WireBytes) (delta : Bytes)
    (choices choices' : List Bool) (inp : List Bytes) (h8 : choices.length % 8 = 0)
    (hlen : choices'.length = choices.length) (hd : delta.length = 16) (hseed : seed = agreed coin (inp.getD 0 []))
    (hA : HiddenApart delta s0 s1 seed)
    (hcomp : Compensated (coeff (X.chacha20 seed))
      choices.length (choices.length + 192) (fun j => choices.getD j false) (fun j => choices'.getD j false)) :
    ∃ (Φ : (WireBytes → Nat → Byte) → (WireBytes → Nat → Byte)) (B : Vector Bool 192 → Vector Bool 192),
      (∀ f, Φ (Φ f) = f) ∧ (∀ b, B (B b) = b) ∧ (∀ f, SameKnown delta s0 s1 f (Φ f)) ∧
      ∀ f, f seed = X.chacha20 seed → ∀ bonus,
        ((classicReceiverExtend { X with chacha20 := Φ f } arch coin ((List.range 128).map s0) ((List.range 128).map s1)
            (B bonus).toList choices').against inp).1 =
        ((classicReceiverExtend { X with chacha20 := f } arch coin ((List.range 128).map s0) ((List.range 128).map s1)
            bonus.toList choices).against inp).1 := by
  subst hseed
  obtain ⟨w, hw⟩ : ∃ w, choices.length + 192 = 8 * w := ⟨choices.length / 8 + 24, by omega⟩
  rw [hw] at hcomp
  obtain ⟨e, he, hz⟩ := compensated_shift (by omega) hcomp
  obtain ⟨E, hE, hEb⟩ := packed_exists w e
  refine ⟨rehide delta s0 s1 (spread E),
    fun b => Vector.ofFn fun k => b[k] ^^ e (choices.length + k), fun f => rehide_invol .., ?_,
    fun f => rehide_known delta _ _ _ f, ?_⟩
  · intro b
    ext k hk
    simp
  · intro f hf bonus
    have hB : (Vector.ofFn fun k : Fin 192 => bonus[k] ^^ e (choices.length + k)).toList =
        (List.range 192).map fun k => bonus.toList.getD k false ^^ e (choices.length + k) := by
      apply List.ext_getElem
      · simp
      · intro k h1 h2
        have hk : k < 192 := by simpa using h2
        simp [hk]
    rw [hB]
    exact classic_same X arch coin s0 s1 delta choices choices' bonus.toList w e E hw hlen (by simp) hd inp hA hE hEb he f
      (by rw [hf]; exact hz)

/-- C53, src/ot/apricot_classic.rs, the whole exchange: message number `r` of the sender's messages `inp` is
its contribution to the coin flip. -/
theorem C53_classic_whole (X : Crypto) (arch : Arch) (coin : WireBytes)
    (seed0 seed1 : Vector WireBytes 128) (inner : List (Bytes × Bytes) → Proc Unit) (n : Nat) (h8 : n % 8 = 0)
    (hn8 : 8 ≤ n) (inp : List Bytes) :
    ∃ r, ∀ (delta : Bytes) (choices choices' : List Bool), choices.length = n → choices'.length = n → delta.length = 16 →
      HiddenApart delta (seedAt seed0) (seedAt seed1) (agreed coin (inp.getD r [])) →
      Compensated (coeff (X.chacha20 (agreed coin (inp.getD r [])))) n (n + 192)
        (fun j => choices.getD j false) (fun j => choices'.getD j false) →
      ∃ (Φ : (WireBytes → Nat → Byte) → (WireBytes → Nat → Byte)) (B : Vector Bool 192 → Vector Bool 192),
        (∀ f, Φ (Φ f) = f) ∧ (∀ b, B (B b) = b) ∧ (∀ f, SameKnown delta (seedAt seed0) (seedAt seed1) f (Φ f)) ∧
        ∀ f, f (agreed coin (inp.getD r [])) = X.chacha20 (agreed coin (inp.getD r [])) → ∀ bonus,
          ((classicReceiver { X with chacha20 := Φ f } arch coin (B bonus) seed0 seed1 inner choices').against inp).1 =
          ((classicReceiver { X with chacha20 := f } arch coin bonus seed0 seed1 inner choices).against inp).1 := by
  rcases classic_reach X arch coin seed0 seed1 inner n h8 hn8 inp with ⟨pre, r, h⟩ | ⟨pre, h⟩
  · refine ⟨r, fun delta choices choices' hn hn' hd hA hcomp => ?_⟩
    subst hn
    obtain ⟨Φ, B, h1, h2, h3, h4⟩ := C53_classic_hidden X arch coin (agreed coin (inp.getD r [])) (seedAt seed0)
      (seedAt seed1) delta choices choices' (inp.drop r) h8 hn' hd
      (by rw [List.getD_eq_getElem?_getD, List.getD_eq_getElem?_getD, List.getElem?_drop, Nat.add_zero]) hA hcomp
    refine ⟨Φ, B, h1, h2, h3, fun f hf bonus => ?_⟩
    rw [h _ _ _ hn', h _ _ _ rfl, h4 f hf bonus]
  · refine ⟨0, fun delta choices choices' hn hn' hd hA hcomp => ⟨id, id, fun _ => rfl, fun _ => rfl, fun f s _ => rfl,
      fun f hf bonus => ?_⟩⟩
    rw [h _ _ _ hn, h _ _ _ hn']

/-! ### The hypotheses can be met -/

/-- Seeds that are all different. -/
private def toySeed (k : Nat) : WireBytes := Vector.ofFn fun i => BitVec.ofNat 8 (k / 2 ^ (8 * i.val))

private theorem toySeed_inj {a b : Nat} (ha : a < 65536) (hb : b < 65536) (h : toySeed a = toySeed b) : a = b := by
  have h0 := congrArg (fun v : WireBytes => v[0].toNat) h
  have h1 := congrArg (fun v : WireBytes => v[1].toNat) h
  simp [toySeed] at h0 h1
  omega

example : HiddenApart (List.replicate 16 0x5a) (fun i => toySeed (2 * i)) (fun i => toySeed (2 * i + 1)) (toySeed 300) := by
  have hh : ∀ i, ∃ b < 2, hiddenSeed (List.replicate 16 0x5a) (fun i => toySeed (2 * i)) (fun i => toySeed (2 * i + 1)) i =
      toySeed (2 * i + b) ∧
      openedSeed (List.replicate 16 0x5a) (fun i => toySeed (2 * i)) (fun i => toySeed (2 * i + 1)) i =
      toySeed (2 * i + (1 - b)) := by
    intro i
    unfold hiddenSeed openedSeed
    cases bitAt (List.replicate 16 0x5a) i
    · exact ⟨1, by decide, rfl, rfl⟩
    · exact ⟨0, by decide, rfl, rfl⟩
  refine ⟨fun i hi h => ?_, fun i hi j hj h => ?_, fun i hi j hj h => ?_⟩
  · obtain ⟨b, hb, e1, -⟩ := hh i
    rw [e1] at h
    have := toySeed_inj (by omega) (by omega) h
    omega
  · obtain ⟨b, hb, e1, e1'⟩ := hh i
    obtain ⟨b', hb', -, e2⟩ := hh j
    rw [e1, e2] at h
    have := toySeed_inj (by omega) (by omega) h
    obtain rfl : i = j := by omega
    rw [e1'] at e2
    have := toySeed_inj (by omega) (by omega) e2
    omega
  · obtain ⟨b, hb, e1, -⟩ := hh i
    obtain ⟨b', hb', e2, -⟩ := hh j
    rw [e1, e2] at h
    have := toySeed_inj (by omega) (by omega) h
    omega

/-- A stream whose sixteen-byte rows from row 8 on are the units of the field. -/
private def unitStream (k : Nat) : Byte :=
  if 8 ≤ k / 16 ∧ (k / 16 - 8) / 8 = k % 16 then BitVec.ofNat 8 (2 ^ ((k / 16 - 8) % 8)) else 0

private theorem unit_bit (j i : Nat) (hi : i < 128) :
    bitAt ((List.range 16).map fun k => unitStream (16 * (8 + j) + k)) i = decide (i = j) := by
  unfold bitAt
  have h16 : i / 8 < 16 := by omega
  simp only [List.getD, List.getElem?_map, List.getElem?_range h16, Option.map_some, Option.getD_some]
  unfold unitStream
  rw [show (16 * (8 + j) + i / 8) / 16 = 8 + j by omega, show (16 * (8 + j) + i / 8) % 16 = i / 8 by omega,
    show 8 + j - 8 = j by omega]
  by_cases h : j / 8 = i / 8
  · rw [if_pos ⟨by omega, h⟩, BitVec.getLsbD_ofNat, Nat.testBit_two_pow]
    rw [Bool.eq_iff_iff]
    simp
    omega
  · rw [if_neg (fun h' => h h'.2)]
    have : i ≠ j := by rintro rfl; exact h rfl
    simp [this]

/-- With eight choices and such a stream, the coefficients of the bonus rows generate the field. -/
example (X : Crypto) (seed : WireBytes) (h : X.chacha20 seed = unitStream) :
    Spanning (chi (X.fill seed (16 * (8 + 256)))) 8 (8 + 256) := by
  have hchi : ∀ j < 128, chi (X.fill seed (16 * (8 + 256))) (8 + j) = AdjoinRoot.root modulus ^ j := by
    intro j hj
    have hrow : row (X.fill seed (16 * (8 + 256))) 16 (8 + j) = (List.range 16).map fun k => unitStream (16 * (8 + j) + k) := by
      apply List.ext_getElem
      · simp [row, Crypto.fill]; omega
      · intro k h1 h2
        have hk : k < 16 := by simpa using h2
        simp [row, Crypto.fill, h]
    unfold chi
    rw [hrow, elt_bits _ (by simp), bitsElt_congr (g := fun i => decide (i = j)) (fun i hi => unit_bit j i hi)]
    unfold bitsElt
    rw [Finset.sum_eq_single j]
    · simp
    · intro i _ hij; simp [hij]
    · intro hj'; simp at hj'; omega
  intro g
  obtain ⟨F, rfl⟩ := gf_bits g
  refine ⟨fun j => if h : j - 8 < 128 then F ⟨j - 8, h⟩ else false, ?_⟩
  unfold selected bitsElt
  rw [Finset.sum_Ico_eq_sum_range, show 8 + 256 - 8 = 128 + 128 by omega, Finset.sum_range_add]
  have h2 : (∑ j ∈ Finset.range 128, if (if h : 8 + (128 + j) - 8 < 128 then F ⟨8 + (128 + j) - 8, h⟩ else false) = true
      then chi (X.fill seed (16 * (8 + (128 + 128)))) (8 + (128 + j)) else 0) = 0 := by
    apply Finset.sum_eq_zero
    intro j hj
    rw [dif_neg (by omega)]
    simp
  rw [h2, add_zero]
  apply Finset.sum_congr rfl
  intro j hj
  have hj : j < 128 := by simpa using hj
  rw [hchi j hj]
  simp only [show 8 + j - 8 = j by omega]

end FP.Props
