import Verif.Proof.ClassicSafe
import Verif.Proof.Witness
/-
C23, C24, C25, C28, C45: the OT extension of src/ot/apricot_classic.rs.
-/
namespace FP.Props
open Spec

attribute [local irreducible] Spec.modulus

/-! ### Correctness -/

/-- C23: over every correct bootstrap transfer, for every number of pairs that is a positive multiple of
eight, messages of any lengths (also different ones within a pair), every randomness and every schedule, both
parties finish and the receiver has the chosen messages.  (`2 ^ 64`: lengths are `usize`.) -/
theorem C23_classic (X : Crypto) (archS archR : Arch) (coinS coinR : WireBytes) (delta : Vector Byte 16)
    (bonus : Vector Bool 192) (seed0 seed1 : Vector WireBytes 128)
    (innerS : List (Bytes × Bytes) → Proc Unit) (innerR : List Bool → Proc (List Bytes))
    (hinner : CorrectOT 32 128 innerS innerR) (msg : List (Bytes × Bytes)) (choices : List Bool)
    (hlen : msg.length = choices.length) (hn : 0 < msg.length) (h8 : msg.length % 8 = 0) (hfit : msg.length < 2 ^ 64)
    (hm : ∀ m ∈ msg, m.1.length < 2 ^ 64 ∧ m.2.length < 2 ^ 64) :
    Completes (classicSender X archS coinS delta innerR msg)
      (classicReceiver X archR coinR bonus seed0 seed1 innerS choices) () (chosen msg choices) :=
  (classic_ends X archS archR coinS coinR delta bonus seed0 seed1 innerS innerR hinner msg choices hn
    (Nat.dvd_of_mod_eq_zero h8) hlen hfit hm).completes

example := C23_classic (Witness.crypto true) .x86_64 .aarch64 (Witness.bytes 1) (Witness.bytes 2) Witness.send.delta
    (Vector.ofFn fun i => i.val % 3 = 1) Witness.recv.seed0 Witness.recv.seed1
    (coSender Witness.curve (Witness.crypto true) (· + 3)) (coReceiver Witness.curve (Witness.crypto true) (· + 5))
    (fun msg choices hm hc hml => (co_ends _ _ _ _ _ _ (by omega) (by omega) fun m h => by
      obtain ⟨h1, h2⟩ := hml m h; rw [h1, h2]; decide).completes)
    Witness.messages Witness.choices (by meets) (by meets) (by meets) (by meets) (by meets)

/-- C23 over the base transfer of src/ot/chou_orlandi.rs. -/
theorem C23_over_base_ot (C : Curve) (a b : Nat → Nat) (X Y : Crypto) (archS archR : Arch) (coinS coinR : WireBytes)
    (delta : Vector Byte 16) (bonus : Vector Bool 192) (seed0 seed1 : Vector WireBytes 128)
    (msg : List (Bytes × Bytes)) (choices : List Bool)
    (hlen : msg.length = choices.length) (hn : 0 < msg.length) (h8 : msg.length % 8 = 0) (hfit : msg.length < 2 ^ 64)
    (hm : ∀ m ∈ msg, m.1.length < 2 ^ 64 ∧ m.2.length < 2 ^ 64) :
    Completes (classicSender X archS coinS delta (coReceiver C Y b) msg)
      (classicReceiver X archR coinR bonus seed0 seed1 (coSender C Y a) choices) () (chosen msg choices) := by
  refine C23_classic X archS archR coinS coinR delta bonus seed0 seed1 _ _ ?_ msg choices hlen hn h8 hfit hm
  intro msg choices hm hc hml
  refine (co_ends C Y a b msg choices (by omega) (by omega) fun m h => ?_).completes
  obtain ⟨h1, h2⟩ := hml m h
  rw [h1, h2]
  decide

example := C23_over_base_ot Witness.curve (· + 3) (· + 3) (Witness.crypto true) (Witness.crypto true) .x86_64 .x86_64
    (Witness.bytes 1) (Witness.bytes 1) Witness.send.delta (Vector.ofFn fun i => i.val % 3 = 1) Witness.recv.seed0
    Witness.recv.seed0 Witness.messages Witness.choices (by meets) (by meets) (by meets) (by meets) (by meets)

/-- C23, the numbers it excludes: with any other number of pairs the sender panics before it sends anything. -/
theorem C23_other_sizes_panic (X : Crypto) (arch : Arch) (coin : WireBytes) (delta : Vector Byte 16)
    (inner : List Bool → Proc (List Bytes)) (msg : List (Bytes × Bytes)) (h : msg.length = 0 ∨ msg.length % 8 ≠ 0)
    (inp : List Bytes) :
    (classicSender X arch coin delta inner msg).against inp = ([], some (.error .panic)) := by
  unfold classicSender
  by_cases h1 : 8 ≤ msg.length
  · have e1 : assertR (decide (8 ≤ msg.length)) = .ok () := by unfold assertR; rw [if_pos (by simpa using h1)]
    have e2 : assertR (decide (msg.length % 8 = 0)) = .error .panic := by
      unfold assertR; rw [if_neg (by simp; omega)]; rfl
    rw [e1, liftM_ok, ret_bind, e2]
    rfl
  · have e1 : assertR (decide (8 ≤ msg.length)) = .error .panic := by
      unfold assertR; rw [if_neg (by simpa using h1)]; rfl
    rw [e1]
    rfl

example := C23_other_sizes_panic (Witness.crypto true) .x86_64 (Witness.bytes 1) Witness.send.delta
    (coReceiver Witness.curve (Witness.crypto true) (· + 3)) [([1], [2])] (.inr (by decide)) []

/-- C28 for this extension: a sender and a receiver with different numbers of items both fail. -/
theorem C28_classic (X : Crypto) (archS archR : Arch) (coinS coinR : WireBytes) (delta : Vector Byte 16)
    (bonus : Vector Bool 192) (seed0 seed1 : Vector WireBytes 128)
    (innerS : List (Bytes × Bytes) → Proc Unit) (innerR : List Bool → Proc (List Bytes))
    (msg : List (Bytes × Bytes)) (choices : List Bool) (h : msg.length ≠ choices.length) (hpos : 0 < msg.length)
    (h8 : msg.length % 8 = 0) (hn : msg.length < 2 ^ 64) (hn' : choices.length < 2 ^ 64) :
    BothFail (classicSender X archS coinS delta innerR msg)
      (classicReceiver X archR coinR bonus seed0 seed1 innerS choices)
      (.err .badProperties) (.err .badProperties) := by
  unfold classicSender classicReceiver
  have e1 : assertR (decide (8 ≤ msg.length)) = .ok () := by unfold assertR; rw [if_pos (by simp; omega)]
  have e2 : assertR (decide (msg.length % 8 = 0)) = .ok () := by unfold assertR; rw [if_pos (by simpa using h8)]
  rw [e1, liftM_ok, ret_bind, e2, liftM_ok, ret_bind]
  exact ((validate_fails ⟨hn, apricot_name⟩ ⟨hn', apricot_name⟩ (by simpa using h)).bind _ _).bothFail

example := C28_classic (Witness.crypto true) .x86_64 .x86_64 (Witness.bytes 1) (Witness.bytes 2)
    Witness.send.delta (Vector.ofFn fun i => i.val % 3 = 1) Witness.recv.seed0 Witness.recv.seed1
    (coSender Witness.curve (Witness.crypto true) (· + 3)) (coReceiver Witness.curve (Witness.crypto true) (· + 3))
    Witness.messages (List.replicate 16 true) (by meets) (by meets) (by meets) (by meets) (by meets)

/-! ### The correlation check -/

/-- The sender of the extension after the bootstrap, holding the seeds `s`. -/
def senderWith (X : Crypto) (arch : Arch) (coin : WireBytes) (delta : Bytes) (msg : List (Bytes × Bytes))
    (s : Nat → WireBytes) : Proc Unit :=
  classicSenderExtend X arch coin delta msg ((List.range 128).map fun i => (s i).toList)

/-- C24: against any peer that sends a usable matrix `u`, a commitment with its opening, and a first check value
of sixteen bytes, the sender goes on exactly if the second value has sixteen bytes and equals the sum of its rows
times the coefficients plus the first value times delta; otherwise it fails having sent nothing but its coin. -/
theorem C24_classic_check (X : Crypto) (arch : Arch) (coin seed : WireBytes) (delta : Bytes)
    (msg : List (Bytes × Bytes)) (s : Nat → WireBytes) (w : Nat) (hw : msg.length + 192 = 8 * w)
    (hd : delta.length = 16) (mu mx mt v : Bytes) (rest : List Bytes) (u : List Bytes) (x : Bytes)
    (hu : Codec.bytesList.deserialize mu = .ok u) (huse : Usable delta u w)
    (hseed : seed.toList = List.zipWith (· ^^^ ·) coin.toList v) (hv : v.length = 32)
    (hx : Codec.bytes.deserialize mx = .ok x) (hxl : x.length = 16) :
    ((∃ t, Codec.bytes.deserialize mt = .ok t ∧ t.length = 16 ∧
        elt t = (∑ j ∈ Finset.range (8 * w), senderRowOf (fun i => X.genBytes (s i) w) delta (rowsBit u) j *
          coeff (X.chacha20 seed) j) + elt x * elt delta) →
      ∃ d0 d1, (senderWith X arch coin delta msg s).against (mu :: (X.sha256 v).toList :: v :: mx :: mt :: rest) =
        ([coin.toList, d0, d1], some (.ok ()))) ∧
    ((¬ ∃ t, Codec.bytes.deserialize mt = .ok t ∧ t.length = 16 ∧
        elt t = (∑ j ∈ Finset.range (8 * w), senderRowOf (fun i => X.genBytes (s i) w) delta (rowsBit u) j *
          coeff (X.chacha20 seed) j) + elt x * elt delta) →
      ∃ e, (senderWith X arch coin delta msg s).against (mu :: (X.sha256 v).toList :: v :: mx :: mt :: rest) =
        ([coin.toList], some (.error (.err e))) ∧ (e = .polychromatic ∨ e = .bincode)) := by
  obtain ⟨K, eK, -, hK⟩ := clSenderExtend_eq X arch coin delta msg s w hw hd
  obtain ⟨q, hq1, hq2, hq3, hKu⟩ := hK mu u hu huse
  have hsum : (∑ j ∈ Finset.range (8 * w), elt (q.getD j []) * elt (clChiRow X seed j)) =
      ∑ j ∈ Finset.range (8 * w), senderRowOf (fun i => X.genBytes (s i) w) delta (rowsBit u) j *
        coeff (X.chacha20 seed) j := by
    apply Finset.sum_congr rfl
    intro j hj
    have hj : j < 8 * w := by simpa using hj
    rw [elt_bits _ (rect_getD hq2 (by omega))]
    have : bitsElt (bitAt (q.getD j [])) = senderRowOf (fun i => X.genBytes (s i) w) delta (rowsBit u) j :=
      bitsElt_congr fun i hi => hq3 j hj i hi
    rw [this]
    rfl
  obtain ⟨L, eL, -, hL⟩ := clFinish_eq X arch seed (8 * w) q delta msg hq1 hq2 hd (by omega)
  obtain ⟨L', eL', hbad, hL', -⟩ := hL mx x hx
  have hrun : ∀ inp, (senderWith X arch coin delta msg s).against (mu :: (X.sha256 v).toList :: v :: mx :: inp) =
      (coin.toList :: ((Proc.recv L').against inp).1, ((Proc.recv L').against inp).2) := by
    intro inp
    unfold senderWith
    rw [eK]
    show (K mu).against _ = _
    rw [hKu]
    unfold coinflipReceiver
    simp only [recvP_bind, sendP_bind, recv_bind, send_bind, Proc.against]
    rw [if_neg (by simpa using hv), if_neg (by simp), xorAt_eq _ _ (by simpa using hv.symm), ← hseed, liftM_ok, ret_bind,
      toArray32_toList, liftM_ok, ret_bind, eL]
    simp only [Proc.against]
    rw [eL']
  refine ⟨?_, ?_⟩
  · rintro ⟨t, ht, htl, hte⟩
    refine ⟨Codec.bytesList.enc (clD0 X q msg), Codec.bytesList.enc (clD1 X delta q msg), ?_⟩
    rw [hrun]
    show (coin.toList :: ((L' mt).against rest).1, ((L' mt).against rest).2) = _
    rw [(hL' hxl mt t ht).1 ⟨htl, by rw [hsum]; exact hte⟩]
    rfl
  · intro hne
    rw [hrun]
    show ∃ e, (coin.toList :: ((L' mt).against rest).1, ((L' mt).against rest).2) = _ ∧ _
    cases ht : Codec.bytes.deserialize mt with
    | ok t =>
      rw [(hL' hxl mt t ht).2 (fun h => hne ⟨t, ht, h.1, by rw [← hsum]; exact h.2⟩)]
      exact ⟨_, rfl, .inl rfl⟩
    | error e =>
      rw [hbad mt e ht]
      have : e = .err .bincode := by
        unfold Codec.deserialize at ht
        split at ht
        · cases ht
        · cases ht; rfl
      subst this
      exact ⟨_, rfl, .inr rfl⟩

/-- C24 as an equivalence. -/
theorem C24_classic_iff (X : Crypto) (arch : Arch) (coin seed : WireBytes) (delta : Bytes)
    (msg : List (Bytes × Bytes)) (s : Nat → WireBytes) (w : Nat) (hw : msg.length + 192 = 8 * w)
    (hd : delta.length = 16) (mu mx mt v : Bytes) (rest : List Bytes) (u : List Bytes) (x : Bytes)
    (hu : Codec.bytesList.deserialize mu = .ok u) (huse : Usable delta u w)
    (hseed : seed.toList = List.zipWith (· ^^^ ·) coin.toList v) (hv : v.length = 32)
    (hx : Codec.bytes.deserialize mx = .ok x) (hxl : x.length = 16) :
    ((senderWith X arch coin delta msg s).against (mu :: (X.sha256 v).toList :: v :: mx :: mt :: rest)).2 =
      some (.ok ()) ↔
    ∃ t, Codec.bytes.deserialize mt = .ok t ∧ t.length = 16 ∧
        elt t = (∑ j ∈ Finset.range (8 * w), senderRowOf (fun i => X.genBytes (s i) w) delta (rowsBit u) j *
          coeff (X.chacha20 seed) j) + elt x * elt delta := by
  obtain ⟨h1, h2⟩ := C24_classic_check X arch coin seed delta msg s w hw hd mu mx mt v rest u x hu huse hseed hv hx hxl
  constructor
  · intro h
    by_contra hne
    obtain ⟨e, he, -⟩ := h2 hne
    rw [he] at h
    simp at h
  · intro h
    obtain ⟨d0, d1, hd⟩ := h1 h
    rw [hd]

/-- C24, deviations: a receiver that adds an error matrix `E` to the matrix it should send for the choices
`c`, and then computes the check values honestly, passes exactly if the sum over the rows of
`(E_j AND delta) * chi_j` is zero.  `E i j` is the error in column `i` of row `j`. -/
theorem C24_classic_error (X : Crypto) (arch : Arch) (coin seed : WireBytes) (delta : Bytes)
    (msg : List (Bytes × Bytes)) (s0 s1 : Nat → WireBytes) (w : Nat) (hw : msg.length + 192 = 8 * w)
    (hd : delta.length = 16) (c : Nat → Bool) (E : Nat → Nat → Bool) (mu mx mt v : Bytes) (rest : List Bytes)
    (u : List Bytes) (x t : Bytes)
    (hu : Codec.bytesList.deserialize mu = .ok u) (huse : Usable delta u w)
    (hseed : seed.toList = List.zipWith (· ^^^ ·) coin.toList v) (hv : v.length = 32)
    (hx : Codec.bytes.deserialize mx = .ok x) (hxl : x.length = 16)
    (ht : Codec.bytes.deserialize mt = .ok t) (htl : t.length = 16)
    (hub : ∀ i < 128, ∀ j < 8 * w, rowsBit u i j =
      (c j ^^ bitAt (X.genBytes (s0 i) w) j ^^ bitAt (X.genBytes (s1 i) w) j ^^ E i j))
    (hxs : elt x = ∑ j ∈ Finset.range (8 * w), if c j then coeff (X.chacha20 seed) j else 0)
    (hts : elt t = ∑ j ∈ Finset.range (8 * w), bitsElt (fun i => bitAt (X.genBytes (s0 i) w) j) *
      coeff (X.chacha20 seed) j) :
    ((senderWith X arch coin delta msg fun i => if bitAt delta i then s1 i else s0 i).against
      (mu :: (X.sha256 v).toList :: v :: mx :: mt :: rest)).2 = some (.ok ()) ↔
    (∑ j ∈ Finset.range (8 * w), bitsElt (fun i => E i j && bitAt delta i) * coeff (X.chacha20 seed) j) = 0 := by
  rw [C24_classic_iff X arch coin seed delta msg _ w hw hd mu mx mt v rest u x hu huse hseed hv hx hxl]
  have hrow : ∀ j < 8 * w, senderRowOf (fun i => X.genBytes (if bitAt delta i then s1 i else s0 i) w) delta (rowsBit u) j =
      bitsElt (fun i => bitAt (X.genBytes (s0 i) w) j) + (if c j then elt delta else 0) +
        bitsElt (fun i => E i j && bitAt delta i) := by
    intro j hj
    have : (if c j then elt delta else 0) = bitsElt (fun i => c j && bitAt delta i) := by
      cases c j
      · simp [bitsElt_false]
      · simp [elt_bits delta hd]
    rw [this, ← bitsElt_xor, ← bitsElt_xor]
    refine bitsElt_congr fun i hi => ?_
    rw [hub i hi j hj]
    have hT : bitAt (X.genBytes (if bitAt delta i then s1 i else s0 i) w) j =
        if bitAt delta i then bitAt (X.genBytes (s1 i) w) j else bitAt (X.genBytes (s0 i) w) j := by split <;> rfl
    dsimp only
    rw [hT]
    cases bitAt delta i <;> cases c j <;> cases E i j <;> cases bitAt (X.genBytes (s0 i) w) j <;>
      cases bitAt (X.genBytes (s1 i) w) j <;> rfl
  have e : (∑ j ∈ Finset.range (8 * w), senderRowOf
      (fun i => X.genBytes (if bitAt delta i then s1 i else s0 i) w) delta (rowsBit u) j *
        coeff (X.chacha20 seed) j) + elt x * elt delta =
      elt t + ∑ j ∈ Finset.range (8 * w), bitsElt (fun i => E i j && bitAt delta i) *
        coeff (X.chacha20 seed) j := by
    rw [hxs, hts, Finset.sum_mul, ← Finset.sum_add_distrib, ← Finset.sum_add_distrib]
    apply Finset.sum_congr rfl
    intro j hj
    rw [hrow j (by simpa using hj)]
    cases c j
    · simp only [Bool.false_eq_true, if_false]; ring
    · simp only [if_true]
      linear_combination (elt delta * coeff (X.chacha20 seed) j) * gf_two
  rw [e]
  constructor
  · rintro ⟨t', ht', -, he⟩
    rw [ht] at ht'
    cases ht'
    exact left_eq_add.mp he
  · intro h
    exact ⟨t, ht, htl, by rw [h, add_zero]⟩

/-! ### Cheating receivers -/

/-- C25, order: the sender says nothing, in particular nothing about its coin, before it has received the whole
matrix and the commitment to the receiver's coin; then it sends its coin. -/
theorem C25_classic_order (X : Crypto) (arch : Arch) (coin : WireBytes) (delta : Bytes) (msg : List (Bytes × Bytes))
    (s : Nat → WireBytes) (w : Nat) (hw : msg.length + 192 = 8 * w) (hd : delta.length = 16) :
    (∀ inp, inp.length < 2 → ((senderWith X arch coin delta msg s).against inp).1 = []) ∧
    ∀ mu com u, Codec.bytesList.deserialize mu = .ok u → Usable delta u w →
      (senderWith X arch coin delta msg s).against [mu, com] = ([coin.toList], none) := by
  obtain ⟨K, eK, hbad, hK⟩ := clSenderExtend_eq X arch coin delta msg s w hw hd
  have hsent : ∀ mu com u, Codec.bytesList.deserialize mu = .ok u → Usable delta u w →
      (senderWith X arch coin delta msg s).against [mu, com] = ([coin.toList], none) := by
    intro mu com u hu huse
    obtain ⟨q, -, -, -, e⟩ := hK mu u hu huse
    unfold senderWith
    rw [eK]
    simp only [Proc.against]
    rw [e]
    unfold coinflipReceiver
    simp only [recvP_bind, sendP_bind, recv_bind, send_bind, Proc.against]
  refine ⟨?_, hsent⟩
  intro inp hinp
  match inp, hinp with
  | [], _ => unfold senderWith; rw [eK]; rfl
  | [mu], _ =>
    unfold senderWith
    unfold classicSenderExtend
    rw [clSeeds_ok, liftM_ok, ret_bind, recvP_bind]
    simp only [Proc.against]
    have hq : ∀ (α : Type) (r : R α) (f : α → Proc Unit), (∀ a, ((f a).against []).1 = []) →
        ((((liftM r : Proc α) >>= f).against []).1 = []) := by
      intro α r f hf
      cases r with
      | ok a => exact hf a
      | error e => rfl
    refine hq _ _ _ fun u => hq _ _ _ fun q => hq _ _ _ fun q => ?_
    unfold clSenderCheck coinflipReceiver
    simp only [recvP_bind, recv_bind, Proc.against]

example := C25_classic_order (Witness.crypto true) .x86_64 (Witness.bytes 1) (List.replicate 16 5) Witness.messages
    Witness.bytes 25 (by meets) (by meets)

/-- C25: the field of the check coefficients has `2 ^ 128` elements. -/
theorem C25_field_size : Nat.card GF = 2 ^ 128 := by
  have h : Nat.card {bs : Bytes | bs.length = 16} = Nat.card GF := by
    rw [Nat.card_congr (C14_representation.equiv _)]
    exact Nat.card_congr (Equiv.Set.univ GF)
  rw [← h]
  have e : Byte ≃ Fin (2 ^ 8) := ⟨BitVec.toFin, BitVec.ofFin, fun _ => rfl, fun _ => rfl⟩
  have e2 : {bs : Bytes | bs.length = 16} ≃ (Fin 16 → Byte) := Equiv.vectorEquivFin Byte 16
  rw [Nat.card_congr e2, Nat.card_congr (Equiv.arrowCongr (Equiv.refl _) e)]
  simp

/-- C25, counting: exactly one in `2 ^ 128` of all coefficient vectors is orthogonal to a vector that is not
zero. -/
theorem C25_count (l : Nat) (e : Fin l → GF) (k : Fin l) (hk : e k ≠ 0) :
    Nat.card {χ : Fin l → GF // ∑ j, e j * χ j = 0} * 2 ^ 128 = Nat.card (Fin l → GF) := by
  let f : (Fin l → GF) →+ GF :=
    { toFun := fun χ => ∑ j, e j * χ j
      map_zero' := by simp
      map_add' := fun a b => by simp [mul_add, Finset.sum_add_distrib] }
  have hsurj : Function.Surjective f := by
    intro y
    obtain ⟨i, hi⟩ := C14_field.mul_inv_cancel hk
    refine ⟨Pi.single k (i * y), ?_⟩
    show ∑ j, e j * (Pi.single k (i * y) : Fin l → GF) j = y
    rw [Finset.sum_eq_single k (fun j _ hj => by rw [Pi.single_eq_of_ne hj, mul_zero]) (by simp), Pi.single_eq_same,
      ← mul_assoc, hi, one_mul]
  have h := f.ker.card_mul_index
  rw [AddSubgroup.index_ker, AddMonoidHom.range_eq_top.mpr hsurj] at h
  rw [Nat.card_congr (AddSubgroup.topEquiv (G := GF)).toEquiv, C25_field_size] at h
  exact h

example (a : GF) (ha : a ≠ 0) := C25_count 3 (fun j => if j = 1 then a else 0) 1 (by simpa using ha)

private theorem zero_getD (n i : Nat) : (List.replicate n (0 : Byte)).getD i 0 = 0 := by
  rw [List.getD_eq_getElem?_getD, List.getElem?_replicate]
  split <;> rfl

/-- A combination of bits is zero only if the bits are. -/
theorem C25_bits_nonzero (f : Nat → Bool) (i : Nat) (hi : i < 128) (hf : f i = true) : bitsElt f ≠ 0 := by
  intro h
  obtain ⟨b, hb, hbits⟩ := bitMatrix_exists 1 16 (fun _ j => f j)
  have hb' : ∀ j < 128, bitAt b j = f j := by
    intro j hj
    have := hbits 0 (by decide) j hj
    simpa [flatBit] using this
  have hz : elt b = elt (List.replicate 16 0) := by
    rw [elt_zero, elt_bits b (by omega), bitsElt_congr hb', h]
  rw [elt_inj (by omega) (by simp) hz] at hb'
  have := hb' i hi
  rw [hf] at this
  unfold bitAt at this
  rw [zero_getD] at this
  simp at this

example := C25_bits_nonzero (fun i => i == 5) 5 (by meets) (by meets)

/-- C25 for a receiver that sends a deviating matrix and honest check values, whose deviation the secret does not
mask: exactly one in `2 ^ 128` of the coefficient vectors lets it pass (`C24_classic_error` says which).  Partial:
the coefficients are the output of a stream cipher on a seed that either party makes uniform (`C19_bijective`), and
that this output is as good as random is not proved; nor are the other check values counted (see
`C25_classic_flip` for those). -/
theorem C25_classic_error_partial (w : Nat) (delta : Bytes) (E : Nat → Nat → Bool)
    (hE : ∃ i < 128, ∃ j < 8 * w, E i j = true ∧ bitAt delta i = true) :
    Nat.card {χ : Fin (8 * w) → GF // ∑ j : Fin (8 * w), bitsElt (fun i => E i j && bitAt delta i) * χ j = 0} * 2 ^ 128 =
      Nat.card (Fin (8 * w) → GF) := by
  obtain ⟨i, hi, j, hj, h1, h2⟩ := hE
  exact C25_count _ (fun j : Fin (8 * w) => bitsElt (fun i => E i j && bitAt delta i)) ⟨j, hj⟩
    (C25_bits_nonzero _ i hi (by simp [h1, h2]))

example := C25_classic_error_partial 25 (List.replicate 16 5) (fun i j => i == 2 && j == 7)
    ⟨2, by decide, 7, by decide, by decide, by decide⟩

/-- C25, arbitrary check values: `d i j` is the choice bit that the receiver's matrix encodes in column `i` of
row `j`.  If the first check value is not the sum of the coefficients chosen by column `k`, then of two secrets
that differ in bit `k` only, at most one lets the receiver pass. -/
theorem C25_classic_flip (X : Crypto) (arch : Arch) (coin seed : WireBytes) (delta delta' : Bytes)
    (msg msg' : List (Bytes × Bytes)) (s0 s1 : Nat → WireBytes) (w : Nat) (hw : msg.length + 192 = 8 * w)
    (hw' : msg'.length + 192 = 8 * w) (hd : delta.length = 16) (hd' : delta'.length = 16) (k : Nat) (hk : k < 128)
    (hdiff : ∀ i < 128, bitAt delta' i = (bitAt delta i ^^ decide (i = k)))
    (d : Nat → Nat → Bool) (mu mx mt v : Bytes) (rest rest' : List Bytes) (u : List Bytes) (x : Bytes)
    (hu : Codec.bytesList.deserialize mu = .ok u) (huse : Usable delta u w) (huse' : Usable delta' u w)
    (hseed : seed.toList = List.zipWith (· ^^^ ·) coin.toList v) (hv : v.length = 32)
    (hx : Codec.bytes.deserialize mx = .ok x) (hxl : x.length = 16)
    (hub : ∀ i < 128, ∀ j < 8 * w, rowsBit u i j =
      (d i j ^^ bitAt (X.genBytes (s0 i) w) j ^^ bitAt (X.genBytes (s1 i) w) j))
    (hbad : elt x ≠ ∑ j ∈ Finset.range (8 * w), if d k j then coeff (X.chacha20 seed) j else 0)
    (hpass : ((senderWith X arch coin delta msg fun i => if bitAt delta i then s1 i else s0 i).against
      (mu :: (X.sha256 v).toList :: v :: mx :: mt :: rest)).2 = some (.ok ())) :
    ((senderWith X arch coin delta' msg' fun i => if bitAt delta' i then s1 i else s0 i).against
      (mu :: (X.sha256 v).toList :: v :: mx :: mt :: rest')).2 ≠ some (.ok ()) := by
  intro hpass'
  rw [C24_classic_iff X arch coin seed delta msg _ w hw hd mu mx mt v rest u x hu huse hseed hv hx hxl] at hpass
  rw [C24_classic_iff X arch coin seed delta' msg' _ w hw' hd' mu mx mt v rest' u x hu huse' hseed hv hx hxl] at hpass'
  obtain ⟨t, ht, -, e⟩ := hpass
  obtain ⟨t', ht', -, e'⟩ := hpass'
  rw [ht] at ht'
  cases ht'
  have hrow : ∀ (del : Bytes), ∀ j < 8 * w,
      senderRowOf (fun i => X.genBytes (if bitAt del i then s1 i else s0 i) w) del (rowsBit u) j =
        bitsElt (fun i => bitAt (X.genBytes (s0 i) w) j) + bitsElt (fun i => bitAt del i && d i j) := by
    intro del j hj
    rw [← bitsElt_xor]
    refine bitsElt_congr fun i hi => ?_
    rw [hub i hi j hj]
    have hT : bitAt (X.genBytes (if bitAt del i then s1 i else s0 i) w) j =
        if bitAt del i then bitAt (X.genBytes (s1 i) w) j else bitAt (X.genBytes (s0 i) w) j := by split <;> rfl
    dsimp only
    rw [hT]
    cases bitAt del i <;> cases d i j <;> cases bitAt (X.genBytes (s0 i) w) j <;>
      cases bitAt (X.genBytes (s1 i) w) j <;> rfl
  have hone : ∀ b : Bool, bitsElt (fun i => decide (i = k) && b) = if b then AdjoinRoot.root modulus ^ k else 0 := by
    intro b
    unfold bitsElt
    rw [Finset.sum_eq_single k]
    · simp
    · intro i _ hik; simp [hik]
    · intro h; exact absurd (Finset.mem_range.mpr hk) h
  have hrow' : ∀ j, bitsElt (fun i => bitAt delta' i && d i j) =
      bitsElt (fun i => bitAt delta i && d i j) + if d k j then AdjoinRoot.root modulus ^ k else 0 := by
    intro j
    rw [← hone, ← bitsElt_xor]
    refine bitsElt_congr fun i hi => ?_
    rw [hdiff i hi]
    by_cases hik : i = k
    · subst hik; cases bitAt delta i <;> cases d i j <;> simp
    · simp [hik]
  have hdel : elt delta' = elt delta + AdjoinRoot.root modulus ^ k := by
    rw [elt_bits _ hd', elt_bits _ hd, ← if_pos (c := (true : Bool) = true) (t := AdjoinRoot.root modulus ^ k) (e := 0) rfl,
      ← hone true, ← bitsElt_xor]
    exact bitsElt_congr fun i hi => by rw [hdiff i hi]; simp
  have hsum : ∀ del, (∑ j ∈ Finset.range (8 * w), senderRowOf
      (fun i => X.genBytes (if bitAt del i then s1 i else s0 i) w) del (rowsBit u) j * coeff (X.chacha20 seed) j) =
      ∑ j ∈ Finset.range (8 * w), (bitsElt (fun i => bitAt (X.genBytes (s0 i) w) j) +
        bitsElt (fun i => bitAt del i && d i j)) * coeff (X.chacha20 seed) j := by
    intro del
    exact Finset.sum_congr rfl fun j hj => by rw [hrow del j (by simpa using hj)]
  rw [hsum] at e e'
  have hdiffsum : (∑ j ∈ Finset.range (8 * w), (bitsElt (fun i => bitAt (X.genBytes (s0 i) w) j) +
        bitsElt (fun i => bitAt delta' i && d i j)) * coeff (X.chacha20 seed) j) =
      (∑ j ∈ Finset.range (8 * w), (bitsElt (fun i => bitAt (X.genBytes (s0 i) w) j) +
        bitsElt (fun i => bitAt delta i && d i j)) * coeff (X.chacha20 seed) j) +
      AdjoinRoot.root modulus ^ k * ∑ j ∈ Finset.range (8 * w), if d k j then coeff (X.chacha20 seed) j else 0 := by
    rw [Finset.mul_sum, ← Finset.sum_add_distrib]
    refine Finset.sum_congr rfl fun j _ => ?_
    rw [hrow' j]
    cases d k j
    · simp only [Bool.false_eq_true, if_false]; ring
    · simp only [if_true]; ring
  rw [hdiffsum, hdel] at e'
  have hroot : AdjoinRoot.root modulus ^ k ≠ (0 : GF) := by
    have := C25_bits_nonzero (fun i => decide (i = k) && true) k hk (by simp)
    rwa [hone true, if_pos rfl] at this
  have hz : AdjoinRoot.root modulus ^ k *
      ((∑ j ∈ Finset.range (8 * w), if d k j then coeff (X.chacha20 seed) j else 0) + elt x) = (0 : GF) := by
    linear_combination (-1 : GF) * e' + e
  obtain ⟨i, hi⟩ := C14_field.mul_inv_cancel hroot
  have hz' : (∑ j ∈ Finset.range (8 * w), if d k j then coeff (X.chacha20 seed) j else 0) + elt x = 0 := by
    linear_combination i * hz - ((∑ j ∈ Finset.range (8 * w), if d k j then coeff (X.chacha20 seed) j else 0) + elt x) * hi
  apply hbad
  linear_combination hz' - (∑ j ∈ Finset.range (8 * w), if d k j then coeff (X.chacha20 seed) j else 0) * gf_two

/-- C25, inconsistent columns: if columns `k` and `k'` of the receiver's choice bits differ, exactly one in
`2 ^ 128` of the coefficient vectors gives both the same sum; for every other one, no first check value fits both, so
`C25_classic_flip` applies to one of them. -/
theorem C25_classic_columns (w : Nat) (d : Nat → Nat → Bool) (k k' : Nat)
    (hne : ∃ j < 8 * w, d k j ≠ d k' j) :
    Nat.card {χ : Fin (8 * w) → GF // (∑ j : Fin (8 * w), if d k j then χ j else 0) =
      ∑ j : Fin (8 * w), if d k' j then χ j else 0} * 2 ^ 128 = Nat.card (Fin (8 * w) → GF) := by
  obtain ⟨j, hj, hdj⟩ := hne
  rw [← C25_count (8 * w) (fun j => if (d k j ^^ d k' j) then 1 else 0) ⟨j, hj⟩ (by
    have : (d k j ^^ d k' j) = true := by
      revert hdj; cases d k j <;> cases d k' j <;> simp
    dsimp only
    rw [this, if_pos rfl]
    have := C14_field.exists_pair_ne
    intro h
    obtain ⟨a, b, hab⟩ := this
    exact hab (by rw [← one_mul a, ← one_mul b, h, zero_mul, zero_mul]))]
  congr 1
  refine Nat.card_congr (Equiv.subtypeEquivRight fun χ => ?_)
  have : (∑ j : Fin (8 * w), (if (d k j ^^ d k' j) then (1 : GF) else 0) * χ j) =
      (∑ j : Fin (8 * w), if d k j then χ j else 0) + ∑ j : Fin (8 * w), if d k' j then χ j else 0 := by
    rw [← Finset.sum_add_distrib]
    refine Finset.sum_congr rfl fun j _ => ?_
    cases d k j <;> cases d k' j <;> simp [gf_add_self]
  rw [this]
  constructor
  · intro h; rw [h, gf_add_self]
  · intro h
    linear_combination h - (∑ j : Fin (8 * w), if d k' j then χ j else 0) * gf_two

example := C25_classic_columns 25 (fun i j => i == 2 && j == 7) 2 3 ⟨7, by decide, by decide⟩

/-- C25 as stated is false: a receiver may flip any choice bits of one column `k`.  Whatever coins are drawn, it
passes for every secret whose bit `k` is clear, which is half of them. -/
theorem C25_classic_guess (X : Crypto) (s0 s1 : Nat → WireBytes) (c e : Nat → Bool) (k w : Nat) (hw' : w < 2 ^ 64) :
    ∃ (mu : Bytes) (u : List Bytes), Codec.bytesList.deserialize mu = .ok u ∧
      (∀ i < 128, ∀ j < 8 * w, rowsBit u i j =
        (c j ^^ bitAt (X.genBytes (s0 i) w) j ^^ bitAt (X.genBytes (s1 i) w) j ^^ (decide (i = k) && e j))) ∧
      ∀ (coin v : WireBytes), ∃ mx mt : Bytes,
        ∀ (arch : Arch) (delta : Bytes) (msg : List (Bytes × Bytes)), msg.length + 192 = 8 * w → delta.length = 16 →
          bitAt delta k = false →
          ((senderWith X arch coin delta msg fun i => if bitAt delta i then s1 i else s0 i).against
            [mu, (X.sha256 v.toList).toList, v.toList, mx, mt]).2 = some (.ok ()) := by
  have hrows : ∀ i, ∃ r : Bytes, r.length = w ∧ ∀ j < 8 * w, bitAt r j =
      (c j ^^ bitAt (X.genBytes (s0 i) w) j ^^ bitAt (X.genBytes (s1 i) w) j ^^ (decide (i = k) && e j)) := by
    intro i
    obtain ⟨r, h1, h2⟩ := bitMatrix_exists 1 w (fun _ j =>
      (c j ^^ bitAt (X.genBytes (s0 i) w) j ^^ bitAt (X.genBytes (s1 i) w) j ^^ (decide (i = k) && e j)))
    refine ⟨r, by omega, fun j hj => ?_⟩
    have := h2 0 (by decide) j hj
    simpa [flatBit] using this
  choose U hUl hUb using hrows
  have hget : ∀ i < 128, ((List.range 128).map U).getD i [] = U i := by
    intro i hi
    simp [List.getD, hi]
  refine ⟨Codec.bytesList.enc ((List.range 128).map U), (List.range 128).map U, ?_, ?_, ?_⟩
  · refine deserialize_ok bytesList_rt ⟨by simp, ?_⟩
    intro r hr
    obtain ⟨i, -, rfl⟩ := List.mem_map.mp hr
    rw [hUl]; exact hw'
  · intro i hi j hj
    unfold rowsBit
    rw [hget i hi, hUb i j hj]
  · intro coin v
    obtain ⟨seed, hseed, -⟩ := toArray32_ok (b := List.zipWith (· ^^^ ·) coin.toList v.toList) (by simp)
    obtain ⟨x, hxl, hxs⟩ := elt_surj (∑ j ∈ Finset.range (8 * w), if c j then coeff (X.chacha20 seed) j else 0)
    obtain ⟨t, htl, hts⟩ := elt_surj (∑ j ∈ Finset.range (8 * w), bitsElt (fun i => bitAt (X.genBytes (s0 i) w) j) *
      coeff (X.chacha20 seed) j)
    refine ⟨Codec.bytes.enc x, Codec.bytes.enc t, ?_⟩
    intro arch delta msg hw hd hb
    rw [C24_classic_error X arch coin seed delta msg s0 s1 w hw hd c (fun i j => decide (i = k) && e j) _ _ _ _ []
      ((List.range 128).map U) x t (deserialize_ok bytesList_rt ⟨by simp, by
        intro r hr
        obtain ⟨i, -, rfl⟩ := List.mem_map.mp hr
        rw [hUl]; exact hw'⟩)
      (fun i hi _ => ⟨by simpa using hi, by rw [hget i hi, hUl]⟩) hseed (by simp)
      (deserialize_ok bytes_rt (by omega)) hxl (deserialize_ok bytes_rt (by omega)) htl
      (fun i hi j hj => by unfold rowsBit; rw [hget i hi, hUb i j hj]) hxs hts]
    refine Finset.sum_eq_zero fun j _ => ?_
    rw [show bitsElt (fun i => (decide (i = k) && e j) && bitAt delta i) = 0 by
      rw [← bitsElt_false]
      refine bitsElt_congr fun i _ => ?_
      by_cases hik : i = k
      · subst hik; simp [hb]
      · simp [hik], zero_mul]

/-! ### Malformed messages -/

/-- C45: whatever the peer sends, the only out-of-bounds access of this sender is the one through a first check
value of fewer than sixteen bytes. -/
theorem C45_classic_only_short_check (X : Crypto) (arch : Arch) (coin : WireBytes) (delta : Bytes)
    (msg : List (Bytes × Bytes)) (payload inp : List Bytes) (hd : delta.length = 16)
    (h : ((classicSenderExtend X arch coin delta msg payload).against inp).2 = some (.error .ub)) :
    ∃ mu com v mx mt rest x, inp = mu :: com :: v :: mx :: mt :: rest ∧ Codec.bytes.deserialize mx = .ok x ∧
      x.length < 16 :=
  classic_ub X arch coin delta msg payload inp hd h

/-- C45 is false of release builds for this sender too: such a value makes it read out of bounds. -/
theorem C45_classic_short_check (X : Crypto) (arch : Arch) (coin : WireBytes) (delta : Bytes)
    (msg : List (Bytes × Bytes)) (s : Nat → WireBytes) (w : Nat) (hw : msg.length + 192 = 8 * w)
    (hd : delta.length = 16) (hrel : X.dbg = false) (mu mx mt v : Bytes) (rest : List Bytes) (u : List Bytes) (x t : Bytes)
    (hu : Codec.bytesList.deserialize mu = .ok u) (huse : Usable delta u w) (hv : v.length = 32)
    (hx : Codec.bytes.deserialize mx = .ok x) (hxl : x.length < 16) (ht : Codec.bytes.deserialize mt = .ok t) :
    (senderWith X arch coin delta msg s).against (mu :: (X.sha256 v).toList :: v :: mx :: mt :: rest) =
      ([coin.toList], some (.error .ub)) := by
  obtain ⟨K, eK, -, hK⟩ := clSenderExtend_eq X arch coin delta msg s w hw hd
  obtain ⟨q, hq1, hq2, hq3, hKu⟩ := hK mu u hu huse
  obtain ⟨seed, hseed, -⟩ := toArray32_ok (b := List.zipWith (· ^^^ ·) coin.toList v) (by simp [hv])
  obtain ⟨L, eL, -, hL⟩ := clFinish_eq X arch seed (8 * w) q delta msg hq1 hq2 hd (by omega)
  obtain ⟨L', eL', -, -, hL'⟩ := hL mx x hx
  unfold senderWith
  rw [eK]
  simp only [Proc.against]
  rw [hKu]
  unfold coinflipReceiver
  simp only [recvP_bind, sendP_bind, recv_bind, send_bind, Proc.against]
  rw [if_neg (by simpa using hv), if_neg (by simp), xorAt_eq _ _ (by simpa using hv.symm), ← hseed, liftM_ok, ret_bind,
    toArray32_toList, liftM_ok, ret_bind, eL]
  simp only [Proc.against]
  rw [eL']
  simp only [Proc.against]
  rw [hL' hxl hrel mt t ht]
  rfl

/-! ### The hypotheses can be met -/

/-- Eight pairs with messages of different lengths: `w = 25`. -/
example : (List.replicate 8 (([1, 2, 3, 4], []) : Bytes × Bytes)).length + 192 = 8 * 25 ∧
    (List.replicate 8 (([1, 2, 3, 4], []) : Bytes × Bytes)).length % 8 = 0 ∧
    ∀ m ∈ List.replicate 8 (([1, 2, 3, 4], []) : Bytes × Bytes), m.1.length < 2 ^ 64 ∧ m.2.length < 2 ^ 64 := by
  refine ⟨by simp, by simp, fun m hm => ?_⟩
  rw [(List.mem_replicate.mp hm).2]
  decide

/-- A usable matrix and its message, check values of sixteen bytes and of three. -/
example (delta : Bytes) :
    Codec.bytesList.deserialize (Codec.bytesList.enc (List.replicate 128 (List.replicate 25 7))) =
      .ok (List.replicate 128 (List.replicate 25 7)) ∧
    Usable delta (List.replicate 128 (List.replicate 25 7)) 25 ∧
    Codec.bytes.deserialize (Codec.bytes.enc (List.replicate 16 9)) = .ok (List.replicate 16 9) ∧
    Codec.bytes.deserialize (Codec.bytes.enc [1, 2, 3]) = .ok [1, 2, 3] := by
  refine ⟨deserialize_ok bytesList_rt ⟨by rw [List.length_replicate]; decide, ?_⟩, ?_,
    deserialize_ok bytes_rt (by rw [List.length_replicate]; decide), deserialize_ok bytes_rt (by decide)⟩
  · intro r hr
    rw [(List.mem_replicate.mp hr).2, List.length_replicate]
    decide
  · intro i hi _
    rw [List.length_replicate, List.getD_eq_getElem?_getD, List.getElem?_replicate, if_pos hi]
    show i < 128 ∧ 25 ≤ (List.replicate 25 (7 : Byte)).length
    rw [List.length_replicate]
    exact ⟨hi, le_refl _⟩

/-- Secrets that differ in bit 9 only. -/
example : ∀ i < 128, bitAt ([5, 2] ++ List.replicate 14 0) i = (bitAt ([5, 0] ++ List.replicate 14 0) i ^^ decide (i = 9)) := by
  decide +kernel

end FP.Props
