import Verif.Model.Classic
import Verif.Proof.ApricotRun
/-
The older OT extension.
-/
namespace FP
open Spec

attribute [local irreducible] Spec.modulus

/-! ### Lists of rows -/

theorem genBytes_length' (X : Crypto) (s : WireBytes) (n : Nat) : (X.genBytes s n).length = n := by
  simp [Crypto.genBytes]

theorem gen8_length (X : Crypto) (s : WireBytes) (n : Nat) : (X.gen8 s n).length = n := by
  simp [Crypto.gen8]

theorem clSeeds_ok (s : Nat → WireBytes) :
    clSeeds ((List.range 128).map fun i => (s i).toList) = .ok ((List.range 128).map s) := by
  unfold clSeeds
  obtain ⟨t, ht, hl, hp⟩ := foldlM_inv (l := ((List.range 128).map fun i => (s i).toList).zipIdx)
    (f := fun (seed : List WireBytes) (p : Bytes × Nat) => do setR seed p.2 (← toArray32 p.1))
    (s := List.replicate 128 (Vector.replicate 32 0))
    (fun k t => t.length = 128 ∧ ∀ j < k, t[j]? = some (s j))
    ⟨by simp, by intro j hj; omega⟩
    (by
      rintro i ⟨b, i'⟩ t hx ⟨hl, hp⟩
      rw [List.getElem?_zipIdx] at hx
      simp only [Option.map_eq_some_iff, Prod.mk.injEq, Nat.zero_add] at hx
      obtain ⟨b', hb, rfl, rfl⟩ := hx
      obtain ⟨hi, rfl⟩ : i < 128 ∧ (s i).toList = b' := by
        rw [List.getElem?_eq_some_iff] at hb
        obtain ⟨h1, h2⟩ := hb
        simp at h1 h2; exact ⟨h1, h2⟩
      refine ⟨t.set i (s i), ?_, by simpa using hl, ?_⟩
      · dsimp only
        rw [toArray32_toList, okb, setR_ok _ (by omega)]
      · intro j hj
        by_cases hji : j = i
        · subst hji; rw [List.getElem?_set_self (by omega)]
        · rw [List.getElem?_set_ne (Ne.symm hji)]; exact hp j (by omega))
  rw [ht]
  refine congrArg Except.ok ?_
  apply List.ext_getElem?
  intro j
  by_cases hj : j < 128
  · rw [hp j (by simpa using hj)]; simp [hj]
  · rw [List.getElem?_eq_none (by omega), List.getElem?_eq_none (by simp; omega)]

theorem zipWith_take {a b : Bytes} (h : b.length ≤ a.length) :
    (List.zipWith (· ^^^ ·) a b : Bytes) = List.zipWith (· ^^^ ·) (a.take b.length) b := by
  rw [List.zipWith_eq_zipWith_take_min, Nat.min_eq_right h, List.take_length]

theorem bitAt_take (a : Bytes) (n k : Nat) (h : k < 8 * n) : bitAt (a.take n) k = bitAt a k := by
  unfold bitAt
  have : k / 8 < n := by omega
  simp [List.getD, List.getElem?_take, this]

theorem unpack_zipIdx (delta : Bytes) (hd : delta.length = 16) :
    (u8VecToBoolVec delta).zipIdx = (List.range 128).map fun i => (bitAt delta i, i) := by
  apply List.ext_getElem?
  intro i
  rw [List.getElem?_zipIdx]
  by_cases hi : i < 128
  · have := unpack_get delta (i / 8) (i % 8) (by omega)
    rw [show 8 * (i / 8) + i % 8 = i by omega] at this
    have hlt : i / 8 < delta.length := by omega
    rw [this, List.getElem?_eq_getElem hlt]
    simp [bitAt, hlt, hi]
  · rw [List.getElem?_eq_none (by rw [unpack_length]; omega), List.getElem?_eq_none (by simp; omega)]
    rfl

/-- The rows of `q` before the transposition. -/
def clQRow (delta : Bytes) (u : BitMatrix) (T : Nat → Bytes) (i : Nat) : Bytes :=
  if bitAt delta i then List.zipWith (· ^^^ ·) (u.getD i []) (T i) else T i

theorem clQ_ok (delta : Bytes) (u : BitMatrix) (T : Nat → Bytes) (hd : delta.length = 16)
    (hu : ∀ i < 128, bitAt delta i = true → i < u.length) :
    clQ delta ((List.range 128).map T) u = .ok ((List.range 128).map (clQRow delta u T)) := by
  unfold clQ
  rw [unpack_zipIdx delta hd, mapM_ok (g := fun p => clQRow delta u T p.2)]
  · rw [List.map_map]; rfl
  · intro p hp
    obtain ⟨i, hi, rfl⟩ := List.mem_map.mp hp
    have hi : i < 128 := by simpa using hi
    have hT : idxR ((List.range 128).map T) i = .ok (T i) := idxR_ok (by simp [hi])
    dsimp only
    unfold clQRow
    by_cases hb : bitAt delta i = true
    · have := hu i hi hb
      rw [if_pos hb, if_pos hb, idxR_ok (a := u.getD i []) (by simp [this]), okb, hT, okb]
      rfl
    · rw [if_neg hb, if_neg hb, hT]

theorem clQRow_length {delta : Bytes} {u : BitMatrix} {w : Nat} {T : Nat → Bytes} (hu : Usable delta u w)
    (hT : ∀ i < 128, (T i).length = w) : ∀ i < 128, (clQRow delta u T i).length = w := by
  intro i hi
  unfold clQRow
  split
  · rename_i h
    have := (hu i hi h).2
    rw [List.length_zipWith, hT i hi]; omega
  · exact hT i hi

theorem clQRow_bit {delta : Bytes} {u : BitMatrix} {w : Nat} {T : Nat → Bytes} (hu : Usable delta u w)
    (hT : ∀ i < 128, (T i).length = w) (i : Nat) (hi : i < 128) (j : Nat) (hj : j < 8 * w) :
    bitAt (clQRow delta u T i) j = (bitAt (T i) j ^^ (bitAt delta i && rowsBit u i j)) := by
  unfold clQRow
  cases hb : bitAt delta i with
  | false => simp
  | true =>
    simp only [if_true]
    have h := (hu i hi hb).2
    rw [zipWith_take (by rw [hT i hi]; exact h), bitAt_xor _ _ (by rw [List.length_take, hT i hi]; omega),
      bitAt_take _ _ _ (by rw [hT i hi]; exact hj), Bool.xor_comm]
    simp [rowsBit]

theorem transposeRows_ok (w : Nat) (Q : Nat → Bytes) (hQ : ∀ i < 128, (Q i).length = w) :
    ∃ t, BitMatrix.transpose ((List.range 128).map Q) = .ok t ∧ t.length = 8 * w ∧ Rectangular t 16 ∧
      ∀ j < 8 * w, ∀ i < 128, rowsBit t j i = bitAt (Q i) j := by
  obtain ⟨t, e, h1, h2, h3⟩ := transpose_ok ((List.range 128).map Q) w (by simp) (by
    intro r hr
    obtain ⟨i, hi, rfl⟩ := List.mem_map.mp hr
    exact hQ i (by simpa using hi)) (by simp)
  refine ⟨t, e, h1, by simpa using h2, fun j hj i hi => ?_⟩
  rw [h3 j hj i (by simpa using hi)]
  simp [rowsBit, hi]

theorem rect_getD {t : BitMatrix} {w j : Nat} (h : Rectangular t w) (hj : j < t.length) : (t.getD j []).length = w := by
  have : t.getD j [] = t[j] := by simp [hj]
  rw [this]; exact h _ (List.getElem_mem hj)

/-! ### Sums -/

/-- Row `j` of the check coefficients. -/
def clChiRow (X : Crypto) (seed : WireBytes) (j : Nat) : Bytes :=
  (List.range 16).map fun k => X.chacha20 seed (4 * (16 * j + k))

theorem clChiRow_length (X : Crypto) (seed : WireBytes) (j : Nat) : (clChiRow X seed j).length = 16 := by
  simp [clChiRow]

theorem clChi_eq (X : Crypto) (seed : WireBytes) (l : Nat) : clChi X seed l = (List.range l).map (clChiRow X seed) := rfl

theorem asPolynomial_ok (dbg : Bool) {v : Bytes} (h : v.length = 16) : asPolynomial dbg v = .ok v := by
  unfold asPolynomial
  rw [debugAssertR_true (by simp [h]), okb]; rfl

theorem zeros128 : bitVectorZeros 128 = List.replicate 16 0 := rfl

theorem clSum_ok (arch : Arch) (dbg : Bool) (q : BitMatrix) (c : Nat → Bytes) (hq : Rectangular q 16)
    (hc : ∀ j, (c j).length = 16) :
    ∃ s, clSum arch dbg q ((List.range q.length).map c) = .ok s ∧ s.length = 16 ∧
      elt s = ∑ j ∈ Finset.range q.length, elt (q.getD j []) * elt (c j) := by
  unfold clSum
  obtain ⟨s, h, hl, hp⟩ := foldlM_inv (l := q.zip ((List.range q.length).map c))
    (f := fun acc p => do
      let q ← asPolynomial dbg p.1
      let chi ← asPolynomial dbg p.2
      gf128MulAcc arch dbg acc q chi) (s := bitVectorZeros 128)
    (fun k s => s.length = 16 ∧ elt s = ∑ j ∈ Finset.range k, elt (q.getD j []) * elt (c j))
    ⟨by simp [zeros128], by rw [zeros128, elt_zero]; simp⟩
    (by
      rintro i ⟨a, b⟩ s hx ⟨hl, hp⟩
      obtain ⟨hi, rfl, rfl⟩ : i < q.length ∧ q.getD i [] = a ∧ c i = b := by
        rw [List.getElem?_eq_some_iff] at hx
        obtain ⟨h1, h2⟩ := hx
        simp only [List.getElem_zip, List.getElem_map, List.getElem_range, Prod.mk.injEq] at h2
        have h1 : i < q.length := by simp at h1; exact h1
        exact ⟨h1, by simpa [h1] using h2.1, h2.2⟩
      obtain ⟨out, h1, h2, h3⟩ := Props.C14_mul_acc_field arch dbg s (q.getD i []) (c i) hl (rect_getD hq hi) (hc i)
      refine ⟨out, ?_, h2, ?_⟩
      · dsimp only
        rw [asPolynomial_ok dbg (rect_getD hq hi), okb, asPolynomial_ok dbg (hc i), okb, h1]
      · rw [h3, hp, Finset.sum_range_succ])
  exact ⟨s, h, hl, by simpa using hp⟩

theorem xorAssign_ok (dbg : Bool) {a b : Bytes} (h : a.length = b.length) :
    bitVectorXorAssign dbg a b = .ok (List.zipWith (· ^^^ ·) a b) := xorBytesInplace_ok dbg h

theorem clReceiverSums_ok (arch : Arch) (dbg : Bool) (choices : List Bool) (t : BitMatrix) (c : Nat → Bytes)
    (ht : Rectangular t 16) (hlen : t.length = choices.length) (hc : ∀ j, (c j).length = 16) :
    ∃ x s, clReceiverSums arch dbg choices t ((List.range choices.length).map c) = .ok (x, s) ∧ x.length = 16 ∧
      s.length = 16 ∧
      elt x = (∑ j ∈ Finset.range choices.length, if choices.getD j false then elt (c j) else 0) ∧
      elt s = ∑ j ∈ Finset.range choices.length, elt (t.getD j []) * elt (c j) := by
  unfold clReceiverSums
  obtain ⟨s, h, hl1, hl2, hp1, hp2⟩ := foldlM_inv (l := choices.zip (t.zip ((List.range choices.length).map c)))
    (f := fun (s : Bytes × Bytes) p => do
      let t ← asPolynomial dbg p.2.1
      let chi ← asPolynomial dbg p.2.2
      let xSum ← if p.1 then bitVectorXorAssign dbg s.1 chi else pure s.1
      let tSum ← gf128MulAcc arch dbg s.2 t chi
      return (xSum, tSum)) (s := (bitVectorZeros 128, bitVectorZeros 128))
    (fun k s => s.1.length = 16 ∧ s.2.length = 16 ∧
      elt s.1 = (∑ j ∈ Finset.range k, if choices.getD j false then elt (c j) else 0) ∧
      elt s.2 = ∑ j ∈ Finset.range k, elt (t.getD j []) * elt (c j))
    ⟨by simp [zeros128], by simp [zeros128], by rw [zeros128, elt_zero]; simp, by rw [zeros128, elt_zero]; simp⟩
    (by
      rintro i ⟨x, a, b⟩ ⟨xs, ts⟩ hx ⟨hl1, hl2, hp1, hp2⟩
      obtain ⟨hi, rfl, rfl, rfl⟩ : i < choices.length ∧ choices.getD i false = x ∧ t.getD i [] = a ∧ c i = b := by
        rw [List.getElem?_eq_some_iff] at hx
        obtain ⟨h1, h2⟩ := hx
        simp only [List.getElem_zip, List.getElem_map, List.getElem_range, Prod.mk.injEq] at h2
        have h1 : i < choices.length := by simp at h1; omega
        have h1' : i < t.length := by omega
        exact ⟨h1, by simpa [h1] using h2.1, by simpa [h1'] using h2.2.1, h2.2.2⟩
      dsimp only at hl1 hl2 hp1 hp2
      have hi' : i < t.length := by omega
      obtain ⟨out, h1, h2, h3⟩ := Props.C14_mul_acc_field arch dbg ts (t.getD i []) (c i) hl2 (rect_getD ht hi') (hc i)
      refine ⟨(if choices.getD i false then List.zipWith (· ^^^ ·) xs (c i) else xs, out), ?_, ?_, h2, ?_, ?_⟩
      · dsimp only
        rw [asPolynomial_ok dbg (rect_getD ht hi'), okb, asPolynomial_ok dbg (hc i), okb]
        cases choices.getD i false with
        | false =>
          rw [if_neg (by simp), if_neg (by simp)]
          simp only [purek, okb, h1]
        | true =>
          rw [if_pos rfl, if_pos rfl, xorAssign_ok dbg (by rw [hl1, hc])]
          simp only [purek, okb, h1]
      · dsimp only
        split
        · simp [hl1, hc]
        · exact hl1
      · dsimp only
        rw [Finset.sum_range_succ, ← hp1]
        split
        · rw [elt_xor _ _ (by rw [hl1, hc])]
        · rw [add_zero]
      · dsimp only
        rw [h3, hp2, Finset.sum_range_succ])
  have hz : (choices.zip (t.zip ((List.range choices.length).map c))).length = choices.length := by simp [hlen]
  rw [hz] at hp1 hp2
  exact ⟨s.1, s.2, h, hl1, hl2, hp1, hp2⟩

/-! ### The sender -/

/-- The end of the sender, from the agreed seed on. -/
def clFinish (X : Crypto) (arch : Arch) (seed : WireBytes) (l : Nat) (q : BitMatrix) (delta : Bytes)
    (msg : List (Bytes × Bytes)) : Proc Unit := do
  let qSum ← clSum arch X.dbg q (clChi X seed l)
  let x ← recvP
  let xSum ← Codec.bytes.deserialize x
  let t ← recvP
  let tSum ← Codec.bytes.deserialize t
  let delta' ← asPolynomial X.dbg delta
  let qSum ← gf128MulAcc arch X.dbg qSum xSum delta'
  if tSum ≠ qSum then
    errR .polychromatic
  else
    clSenderDeRot X delta q msg

theorem bind_assocP {α β γ : Type} (p : Proc α) (f : α → Proc β) (g : β → Proc γ) :
    (p >>= f) >>= g = p >>= fun a => f a >>= g := by
  induction p with
  | ret a => rfl
  | fail e => rfl
  | send m p ih => exact congrArg (Proc.send m) ih
  | recv k ih => exact congrArg Proc.recv (funext ih)

theorem toArray32_ok {b : Bytes} (h : b.length = 32) : ∃ s : WireBytes, s.toList = b ∧ toArray32 b = .ok s := by
  refine ⟨⟨b.toArray, by simpa using h⟩, by simp, ?_⟩
  unfold toArray32
  rw [dif_pos h]

theorem clSenderExtend_eq (X : Crypto) (arch : Arch) (coin : WireBytes) (delta : Bytes) (msg : List (Bytes × Bytes))
    (s : Nat → WireBytes) (w : Nat) (hw : msg.length + 192 = 8 * w) (hd : delta.length = 16) :
    ∃ K, classicSenderExtend X arch coin delta msg ((List.range 128).map fun i => (s i).toList) = .recv K ∧
      (∀ m e, Codec.bytesList.deserialize m = .error e → K m = .fail e) ∧
      ∀ m u, Codec.bytesList.deserialize m = .ok u → Usable delta u w →
        ∃ q : BitMatrix, q.length = 8 * w ∧ Rectangular q 16 ∧
          (∀ j < 8 * w, ∀ i < 128, rowsBit q j i =
            (bitAt (X.genBytes (s i) w) j ^^ (bitAt delta i && rowsBit u i j))) ∧
          K m = coinflipReceiver X.toEnv coin.toList >>= fun seed =>
            (liftM (toArray32 seed) : Proc WireBytes) >>= fun seed => clFinish X arch seed (8 * w) q delta msg := by
  unfold classicSenderExtend
  dsimp only
  rw [clSeeds_ok, liftM_ok, ret_bind, recvP_bind, Nat.add_assoc, hw, Nat.mul_div_cancel_left w (by decide)]
  refine ⟨_, rfl, ?_, ?_⟩
  · intro m e he
    rw [he]; rfl
  · intro m u hm hu
    have hT : ∀ i < 128, (X.genBytes (s i) w).length = w := fun i _ => genBytes_length' ..
    obtain ⟨q, e, h1, h2, h3⟩ := transposeRows_ok w (clQRow delta u fun i => X.genBytes (s i) w) (clQRow_length hu hT)
    refine ⟨q, h1, h2, fun j hj i hi => by rw [h3 j hj i hi, clQRow_bit hu hT i hi j hj], ?_⟩
    have hrows : clRows X w ((List.range 128).map s) = (List.range 128).map fun i => X.genBytes (s i) w := by
      simp [clRows]
    rw [hm, liftM_ok, ret_bind, hrows, clQ_ok delta u _ hd (fun i hi hb => (hu i hi hb).1), liftM_ok, ret_bind, e,
      liftM_ok, ret_bind]
    unfold clSenderCheck
    rw [bind_assocP]
    refine congrArg (coinflipReceiver X.toEnv coin.toList >>= ·) (funext fun seed => ?_)
    rw [bind_assocP]
    refine congrArg ((liftM (toArray32 seed) : Proc WireBytes) >>= ·) (funext fun seed => ?_)
    unfold clFinish
    dsimp only
    rw [bind_assocP]
    congr 1; funext a
    rw [bind_assocP]
    congr 1; funext a
    rw [bind_assocP]
    congr 1; funext a
    rw [bind_assocP]
    congr 1; funext a
    rw [bind_assocP]
    congr 1; funext a
    rw [bind_assocP]
    congr 1; funext a
    rw [bind_assocP]
    congr 1; funext a
    split
    · rfl
    · rfl

/-- The ciphertexts of pair `j`. -/
def clCipher (X : Crypto) (key : Bytes) (j : Nat) (m : Bytes) : Bytes :=
  List.zipWith (· ^^^ ·) m (X.gen8 (X.sha256 (leBytes 8 j ++ key)) m.length)

theorem clCipher_length (X : Crypto) (key : Bytes) (j : Nat) (m : Bytes) : (clCipher X key j m).length = m.length := by
  simp [clCipher, gen8_length]

/-- All ciphertexts of one side. -/
def clD0 (X : Crypto) (q : BitMatrix) (msg : List (Bytes × Bytes)) : List Bytes :=
  (List.range msg.length).map fun j => clCipher X (q.getD j []) j (msg.getD j ([], [])).1

def clD1 (X : Crypto) (delta : Bytes) (q : BitMatrix) (msg : List (Bytes × Bytes)) : List Bytes :=
  (List.range msg.length).map fun j =>
    clCipher X (List.zipWith (· ^^^ ·) (q.getD j []) delta) j (msg.getD j ([], [])).2

theorem clSenderDeRot_eq (X : Crypto) (delta : Bytes) (q : BitMatrix) (msg : List (Bytes × Bytes))
    (hq : msg.length ≤ q.length) :
    clSenderDeRot X delta q msg =
      .send (Codec.bytesList.enc (clD0 X q msg)) (.send (Codec.bytesList.enc (clD1 X delta q msg)) (.ret ())) := by
  unfold clSenderDeRot
  have hs : sliceR q 0 msg.length = .ok (q.take msg.length) := by
    unfold sliceR
    rw [if_pos ⟨by omega, hq⟩]
    simp
  rw [hs, liftM_ok, ret_bind]
  have hz : (msg.zip (q.take msg.length)).zipIdx =
      (List.range msg.length).map fun j => ((msg.getD j ([], []), q.getD j []), j) := by
    apply List.ext_getElem?
    intro j
    rw [List.getElem?_zipIdx]
    by_cases hj : j < msg.length
    · have hj' : j < q.length := by omega
      rw [List.getElem?_eq_getElem (by simp; omega)]
      simp [hj, hj']
    · rw [List.getElem?_eq_none (by simp; omega), List.getElem?_eq_none (by simp; omega)]
      rfl
  have he : clEncryptAll X delta (q.take msg.length) msg = .ok ((List.range msg.length).map fun j =>
      (clCipher X (q.getD j []) j (msg.getD j ([], [])).1,
        clCipher X (List.zipWith (· ^^^ ·) (q.getD j []) delta) j (msg.getD j ([], [])).2)) := by
    unfold clEncryptAll
    rw [hz, mapM_ok (g := fun p => (clCipher X p.1.2 p.2 p.1.1.1,
      clCipher X (List.zipWith (· ^^^ ·) p.1.2 delta) p.2 p.1.1.2)), List.map_map]
    · rfl
    · intro p _
      unfold clEncrypt
      dsimp only
      rw [xorBytes_ok _ (gen8_length ..).symm, okb, xorBytes_ok _ (gen8_length ..).symm, okb]
      rfl
  rw [he, liftM_ok, ret_bind, sendP_bind, List.map_map, List.map_map]
  rfl

theorem clFinish_eq (X : Crypto) (arch : Arch) (seed : WireBytes) (l : Nat) (q : BitMatrix) (delta : Bytes)
    (msg : List (Bytes × Bytes)) (hl : q.length = l) (hq : Rectangular q 16) (hd : delta.length = 16)
    (hm : msg.length ≤ l) :
    ∃ K, clFinish X arch seed l q delta msg = .recv K ∧
      (∀ m e, Codec.bytes.deserialize m = .error e → K m = .fail e) ∧
      (∀ m x, Codec.bytes.deserialize m = .ok x → ∃ L, K m = .recv L ∧
        (∀ m' e, Codec.bytes.deserialize m' = .error e → L m' = .fail e) ∧
        (x.length = 16 → ∀ m' t, Codec.bytes.deserialize m' = .ok t →
          ((t.length = 16 ∧ elt t = (∑ j ∈ Finset.range l, elt (q.getD j []) * elt (clChiRow X seed j)) +
              elt x * elt delta) →
            L m' = .send (Codec.bytesList.enc (clD0 X q msg)) (.send (Codec.bytesList.enc (clD1 X delta q msg)) (.ret ()))) ∧
          (¬ (t.length = 16 ∧ elt t = (∑ j ∈ Finset.range l, elt (q.getD j []) * elt (clChiRow X seed j)) +
              elt x * elt delta) →
            L m' = .fail (.err .polychromatic))) ∧
        (x.length < 16 → X.dbg = false → ∀ m' t, Codec.bytes.deserialize m' = .ok t → L m' = .fail .ub)) := by
  subst hl
  obtain ⟨s, e, h1, h2⟩ := clSum_ok arch X.dbg q (clChiRow X seed) hq (clChiRow_length X seed)
  unfold clFinish
  rw [clChi_eq, e, liftM_ok, ret_bind, recvP_bind]
  refine ⟨_, rfl, ?_, ?_⟩
  · intro m e he; rw [he]; rfl
  · intro m x hx
    rw [hx, liftM_ok, ret_bind, recvP_bind]
    refine ⟨_, rfl, ?_, ?_, ?_⟩
    · intro m' e he; rw [he]; rfl
    · intro hxl m' t ht
      rw [ht, liftM_ok, ret_bind, asPolynomial_ok _ hd, liftM_ok, ret_bind]
      obtain ⟨out, k1, k2, k3⟩ := Props.C14_mul_acc_field arch X.dbg s x delta h1 hxl hd
      rw [k1, liftM_ok, ret_bind, ← h2, ← k3]
      constructor
      · rintro ⟨htl, hte⟩
        rw [if_neg (by simpa using elt_inj htl k2 hte), clSenderDeRot_eq X delta q msg hm]
      · intro hne
        rw [if_pos (fun h => hne (by subst h; exact ⟨k2, rfl⟩))]
        rfl
    · intro hxl hrel m' t ht
      rw [ht, liftM_ok, ret_bind, asPolynomial_ok _ hd, liftM_ok, ret_bind, hrel,
        Props.C14_short_operand arch s x delta (.inl hxl)]
      rfl

/-! ### The receiver -/

/-- Row `i` of the matrix an honest receiver sends. -/
def clURow (packed : Bytes) (T0 T1 : Nat → Bytes) (i : Nat) : Bytes :=
  List.zipWith (· ^^^ ·) (List.zipWith (· ^^^ ·) packed (T0 i)) (T1 i)

theorem clURow_length {packed : Bytes} {T0 T1 : Nat → Bytes} {w : Nat} (hp : packed.length = w)
    (h0 : ∀ i < 128, (T0 i).length = w) (h1 : ∀ i < 128, (T1 i).length = w) :
    ∀ i < 128, (clURow packed T0 T1 i).length = w := by
  intro i hi
  simp [clURow, hp, h0 i hi, h1 i hi]

theorem clU_ok (dbg : Bool) (w : Nat) (packed : Bytes) (T0 T1 : Nat → Bytes) (hp : packed.length = w)
    (h0 : ∀ i < 128, (T0 i).length = w) (h1 : ∀ i < 128, (T1 i).length = w) :
    clU dbg (List.replicate 128 packed) ((List.range 128).map T0) ((List.range 128).map T1) =
      .ok ((List.range 128).map (clURow packed T0 T1)) := by
  unfold clU
  have hz : (List.replicate 128 packed).zip (((List.range 128).map T0).zip ((List.range 128).map T1)) =
      (List.range 128).map fun i => (packed, T0 i, T1 i) := by
    apply List.ext_getElem
    · simp
    · intro j h1 h2
      simp only [List.getElem_zip, List.getElem_map, List.getElem_range, List.getElem_replicate]
  rw [hz, mapM_ok (g := fun p => List.zipWith (· ^^^ ·) (List.zipWith (· ^^^ ·) p.1 p.2.1) p.2.2), List.map_map]
  · rfl
  intro p hp'
  obtain ⟨i, hi, rfl⟩ := List.mem_map.mp hp'
  have hi : i < 128 := by simpa using hi
  dsimp only
  rw [xorAssign_ok dbg (by rw [hp, h0 i hi]), okb,
    xorAssign_ok dbg (by rw [List.length_zipWith, hp, h0 i hi, h1 i hi, Nat.min_self])]

/-- What the receiver works with. -/
structure ClHonest (X : Crypto) (w : Nat) (padded : List Bool) (s0 : Nat → WireBytes) (packed : Bytes)
    (t : BitMatrix) : Prop where
  packedLen : packed.length = w
  packedBits : ∀ k < 8 * w, bitAt packed k = padded.getD k false
  tLen : t.length = 8 * w
  tRect : Rectangular t 16
  tBits : ∀ j < 8 * w, ∀ i < 128, rowsBit t j i = bitAt (X.genBytes (s0 i) w) j

/-- The end of the receiver, from the agreed seed on. -/
def clReceiverFinish (X : Crypto) (arch : Arch) (seed : WireBytes) (t : BitMatrix) (padded choices : List Bool) :
    Proc (List Bytes) := do
  let sums ← clReceiverSums arch X.dbg padded t (clChi X seed padded.length)
  sendP (Codec.bytes.enc sums.1)
  sendP (Codec.bytes.enc sums.2)
  clReceiverDeRot X choices t

theorem clReceiverExtend_eq (X : Crypto) (arch : Arch) (coin : WireBytes) (s0 s1 : Nat → WireBytes)
    (bonus choices : List Bool) (w : Nat) (hw : choices.length + 192 = 8 * w) (hb : bonus.length = 192) :
    ∃ packed t, ClHonest X w (choices ++ bonus) s0 packed t ∧
      classicReceiverExtend X arch coin ((List.range 128).map s0) ((List.range 128).map s1) bonus choices =
        .send (Codec.bytesList.enc ((List.range 128).map
            (clURow packed (fun i => X.genBytes (s0 i) w) (fun i => X.genBytes (s1 i) w))))
          (coinflipSender X.toEnv coin.toList >>= fun seed => (liftM (toArray32 seed) : Proc WireBytes) >>= fun seed =>
            clReceiverFinish X arch seed t (choices ++ bonus) choices) := by
  have hlen : (choices ++ bonus).length = 8 * w := by rw [List.length_append, hb, hw]
  obtain ⟨packed, e1, hp1, hp2⟩ := packChoices_ok (choices ++ bonus)
  rw [hlen, Nat.mul_div_cancel_left w (by decide)] at hp1 hp2
  obtain ⟨t, e2, ht1, ht2, ht3⟩ := transposeRows_ok w (fun i => X.genBytes (s0 i) w) (fun i _ => genBytes_length' ..)
  refine ⟨packed, t, ⟨hp1, hp2, ht1, ht2, ht3⟩, ?_⟩
  have hrows : ∀ s : Nat → WireBytes, clRows X w ((List.range 128).map s) =
      (List.range 128).map fun i => X.genBytes (s i) w := by
    intro s; simp [clRows]
  have hmono : monochrome (choices ++ bonus) 128 = .ok (List.replicate 128 packed) := by
    unfold monochrome; rw [e1]; rfl
  unfold classicReceiverExtend
  dsimp only
  rw [hmono, liftM_ok, ret_bind, hlen, Nat.mul_div_cancel_left w (by decide), hrows, hrows,
    clU_ok X.dbg w packed _ _ hp1 (fun i _ => genBytes_length' ..) (fun i _ => genBytes_length' ..), liftM_ok, ret_bind,
    sendP_bind, e2, liftM_ok, ret_bind]
  unfold clReceiverCheck
  rw [bind_assocP]
  refine congrArg (Proc.send _) ?_
  refine congrArg (coinflipSender X.toEnv coin.toList >>= ·) (funext fun seed => ?_)
  rw [bind_assocP]
  refine congrArg ((liftM (toArray32 seed) : Proc WireBytes) >>= ·) (funext fun seed => ?_)
  unfold clReceiverFinish
  rw [bind_assocP]
  rfl

/-- The sender's rows against an honest receiver. -/
theorem clHonest_rows {X : Crypto} {delta : Bytes} {w : Nat} {padded : List Bool} {s0 s1 : Nat → WireBytes}
    {packed : Bytes} {t q : BitMatrix} (H : ClHonest X w padded s0 packed t) (hd : delta.length = 16)
    (hq : q.length = 8 * w) (hqr : Rectangular q 16)
    (hb : ∀ j < 8 * w, ∀ i < 128, rowsBit q j i =
      (bitAt (X.genBytes (if bitAt delta i then s1 i else s0 i) w) j ^^ (bitAt delta i &&
        rowsBit ((List.range 128).map (clURow packed (fun i => X.genBytes (s0 i) w) (fun i => X.genBytes (s1 i) w))) i j)))
    (j : Nat) (hj : j < 8 * w) :
    q.getD j [] = if padded.getD j false then List.zipWith (· ^^^ ·) (t.getD j []) delta else t.getD j [] := by
  have l1 := rect_getD hqr (j := j) (by omega)
  have l2 := rect_getD H.tRect (j := j) (by rw [H.tLen]; exact hj)
  apply bytes_ext
  · rw [l1]; split
    · rw [List.length_zipWith, l2, hd]; rfl
    · exact l2.symm
  · intro i hi
    have hi : i < 128 := by omega
    have h1 := hb j hj i hi
    have h2 := H.tBits j hj i hi
    have h3 := H.packedBits j hj
    have hu : rowsBit ((List.range 128).map (clURow packed (fun i => X.genBytes (s0 i) w) (fun i => X.genBytes (s1 i) w)))
        i j = (padded.getD j false ^^ bitAt (X.genBytes (s0 i) w) j ^^ bitAt (X.genBytes (s1 i) w) j) := by
      unfold rowsBit clURow
      have : ((List.range 128).map fun i => (List.zipWith (· ^^^ ·) (List.zipWith (· ^^^ ·) packed (X.genBytes (s0 i) w))
          (X.genBytes (s1 i) w) : Bytes)).getD i [] =
          (List.zipWith (· ^^^ ·) (List.zipWith (· ^^^ ·) packed (X.genBytes (s0 i) w)) (X.genBytes (s1 i) w) : Bytes) := by
        simp [hi]
      rw [this, bitAt_xor _ _ (by simp [genBytes_length', H.packedLen]), bitAt_xor _ _ (by simp [genBytes_length', H.packedLen]),
        h3]
    have hx : bitAt (if padded.getD j false then List.zipWith (· ^^^ ·) (t.getD j []) delta else t.getD j []) i =
        (bitAt (t.getD j []) i ^^ (bitAt delta i && padded.getD j false)) := by
      cases padded.getD j false with
      | false => simp
      | true => rw [if_pos rfl, bitAt_xor _ _ (by omega)]; simp
    have hT : bitAt (X.genBytes (if bitAt delta i then s1 i else s0 i) w) j =
        if bitAt delta i then bitAt (X.genBytes (s1 i) w) j else bitAt (X.genBytes (s0 i) w) j := by split <;> rfl
    rw [hx, show bitAt (q.getD j []) i = rowsBit q j i from rfl, h1, hu, hT,
      show bitAt (t.getD j []) i = rowsBit t j i from rfl, h2]
    cases bitAt delta i <;> cases padded.getD j false <;> cases bitAt (X.genBytes (s0 i) w) j <;>
      cases bitAt (X.genBytes (s1 i) w) j <;> rfl

theorem clCipher_cancel (X : Crypto) (key : Bytes) (j : Nat) (m : Bytes) :
    List.zipWith (· ^^^ ·) (clCipher X key j m) (X.gen8 (X.sha256 (leBytes 8 j ++ key)) (clCipher X key j m).length) = m := by
  rw [clCipher_length]
  exact zipWith_xor_cancel (gen8_length ..).symm

theorem clDecryptAll_ok (X : Crypto) (delta : Bytes) (w : Nat) (choices padded : List Bool) (t q : BitMatrix)
    (msg : List (Bytes × Bytes)) (hlen : msg.length = choices.length) (hn : msg.length ≤ 8 * w)
    (ht : t.length = 8 * w) (htr : Rectangular t 16) (hd : delta.length = 16)
    (hpad : ∀ j < choices.length, padded.getD j false = choices.getD j false)
    (hrow : ∀ j < 8 * w, q.getD j [] =
      if padded.getD j false then List.zipWith (· ^^^ ·) (t.getD j []) delta else t.getD j []) :
    clDecryptAll X (t.zipIdx.map fun p => X.sha256 (leBytes 8 p.2 ++ p.1)) choices (clD0 X q msg) (clD1 X delta q msg) =
      .ok (chosen msg choices) := by
  unfold clDecryptAll
  have hz : (t.zipIdx.map fun p => X.sha256 (leBytes 8 p.2 ++ p.1)).zip (choices.zip
        ((clD0 X q msg).zip (clD1 X delta q msg))) =
      (List.range msg.length).map fun j => (X.sha256 (leBytes 8 j ++ t.getD j []), choices.getD j false,
        clCipher X (q.getD j []) j (msg.getD j ([], [])).1,
        clCipher X (List.zipWith (· ^^^ ·) (q.getD j []) delta) j (msg.getD j ([], [])).2) := by
    apply List.ext_getElem
    · simp [clD0, clD1, ht]; omega
    · intro j h1 h2
      have hj : j < msg.length := by simpa using h2
      have hjc : j < choices.length := by omega
      have hjt : j < t.length := by omega
      simp [clD0, clD1, hjc, hjt]
  rw [hz]
  have hgoal : ((List.range msg.length).map fun j => (X.sha256 (leBytes 8 j ++ t.getD j []), choices.getD j false,
        clCipher X (q.getD j []) j (msg.getD j ([], [])).1,
        clCipher X (List.zipWith (· ^^^ ·) (q.getD j []) delta) j (msg.getD j ([], [])).2)).mapM (fun p => do
      let d := if p.2.1 then p.2.2.2 else p.2.2.1
      xorBytes X.dbg d (X.gen8 p.1 d.length)) =
      .ok (((List.range msg.length).map fun j => (X.sha256 (leBytes 8 j ++ t.getD j []), choices.getD j false,
        clCipher X (q.getD j []) j (msg.getD j ([], [])).1,
        clCipher X (List.zipWith (· ^^^ ·) (q.getD j []) delta) j (msg.getD j ([], [])).2)).map fun p =>
          List.zipWith (· ^^^ ·) (if p.2.1 then p.2.2.2 else p.2.2.1)
            (X.gen8 p.1 (if p.2.1 then p.2.2.2 else p.2.2.1).length)) :=
    mapM_ok fun p _ => xorBytes_ok _ (gen8_length ..).symm
  rw [hgoal, List.map_map]
  refine congrArg Except.ok ?_
  apply List.ext_getElem
  · simp [chosen, hlen]
  · intro j h1 h2
    have hj : j < msg.length := by simpa using h1
    have hjc : j < choices.length := by omega
    have hq := hrow j (by omega)
    have hl : (t.getD j []).length = delta.length := by rw [rect_getD htr (by omega), hd]
    have hm : msg.getD j ([], []) = msg[j] := by simp [hj]
    have hc : choices.getD j false = choices[j] := by simp [hjc]
    rw [hpad j hjc] at hq
    simp only [List.getElem_map, List.getElem_range, chosen, List.getElem_zipWith, Function.comp_apply]
    rw [← hc, ← hm]
    cases hcj : choices.getD j false with
    | false =>
      rw [hcj] at hq
      simp only [Bool.false_eq_true, if_false] at hq ⊢
      rw [hq]
      exact clCipher_cancel ..
    | true =>
      rw [hcj] at hq
      simp only [if_true] at hq ⊢
      rw [hq, zipWith_xor_cancel hl]
      exact clCipher_cancel ..

theorem clExtend_ends (X : Crypto) (archS archR : Arch) (coinS coinR : WireBytes) (delta : Bytes)
    (msg : List (Bytes × Bytes)) (s0 s1 : Nat → WireBytes) (bonus choices : List Bool)
    (h8 : 8 ∣ msg.length) (hlen : msg.length = choices.length)
    (hn : msg.length < 2 ^ 64) (hm : ∀ m ∈ msg, m.1.length < 2 ^ 64 ∧ m.2.length < 2 ^ 64) (hd : delta.length = 16)
    (hb : bonus.length = 192) :
    Ends (classicSenderExtend X archS coinS delta msg
        ((List.range 128).map fun i => (if bitAt delta i then s1 i else s0 i).toList))
      (classicReceiverExtend X archR coinR ((List.range 128).map s0) ((List.range 128).map s1) bonus choices) ()
      (chosen msg choices) := by
  obtain ⟨w, hw⟩ : ∃ w, msg.length + 192 = 8 * w := by
    obtain ⟨k, hk⟩ := h8
    exact ⟨k + 24, by omega⟩
  obtain ⟨K, eK, -, hK⟩ := clSenderExtend_eq X archS coinS delta msg (fun i => if bitAt delta i then s1 i else s0 i) w hw hd
  obtain ⟨packed, t, H, eR⟩ := clReceiverExtend_eq X archR coinR s0 s1 bonus choices w (by omega) hb
  rw [eK, eR]
  refine .recvSend ?_
  have hul := clURow_length (T0 := fun i => X.genBytes (s0 i) w) (T1 := fun i => X.genBytes (s1 i) w) H.packedLen
    (fun i _ => genBytes_length' ..) (fun i _ => genBytes_length' ..)
  obtain ⟨q, hq1, hq2, hq3, hKu⟩ := hK _ ((List.range 128).map
      (clURow packed (fun i => X.genBytes (s0 i) w) (fun i => X.genBytes (s1 i) w))) (deserialize_ok bytesList_rt ⟨by simp, by
      intro b hb
      obtain ⟨i, hi, rfl⟩ := List.mem_map.mp hb
      rw [hul i (by simpa using hi)]
      omega⟩) (by
    intro i hi _
    refine ⟨by simpa using hi, ?_⟩
    have : ((List.range 128).map (clURow packed (fun i => X.genBytes (s0 i) w) (fun i => X.genBytes (s1 i) w))).getD i [] =
        clURow packed (fun i => X.genBytes (s0 i) w) (fun i => X.genBytes (s1 i) w) i := by simp [hi]
    rw [this, hul i hi])
  rw [hKu]
  have hrow := clHonest_rows H hd hq1 hq2 hq3
  refine .bind (coinflip_ends X.toEnv coinR.toList coinS.toList (by simp)).swap ?_
  obtain ⟨seed, -, hseed⟩ := toArray32_ok (b := List.zipWith (· ^^^ ·) coinR.toList coinS.toList) (by simp)
  rw [hseed, liftM_ok, ret_bind, ret_bind]
  have hplen : (choices ++ bonus).length = 8 * w := by rw [List.length_append, hb]; omega
  obtain ⟨L, eL, -, hL⟩ := clFinish_eq X archS seed (8 * w) q delta msg hq1 hq2 hd (by omega)
  obtain ⟨x, ts, e3, hx, hts, hx2, hts2⟩ := clReceiverSums_ok archR X.dbg (choices ++ bonus) t (clChiRow X seed)
    H.tRect (by rw [H.tLen, hplen]) (clChiRow_length X seed)
  rw [hplen] at hx2 hts2 e3
  unfold clReceiverFinish
  rw [clChi_eq, hplen, e3, liftM_ok, ret_bind, sendP_bind, sendP_bind, eL]
  dsimp only
  refine .recvSend ?_
  obtain ⟨L', eL', -, hL', -⟩ := hL _ x (deserialize_ok bytes_rt (by omega))
  rw [eL']
  refine .recvSend ?_
  have hcheck : elt ts = (∑ j ∈ Finset.range (8 * w), elt (q.getD j []) * elt (clChiRow X seed j)) + elt x * elt delta := by
    refine check_identity (l := 8 * w) (fun j => elt (q.getD j [])) (fun j => elt (t.getD j []))
      (fun j => elt (clChiRow X seed j)) (fun j => (choices ++ bonus).getD j false) _ _ _ _ ?_ hx2 hts2 rfl
    intro j hj
    rw [hrow j hj, elt_ite_xor _ _ _ (by rw [rect_getD H.tRect (by rw [H.tLen]; exact hj), hd])]
  rw [(hL' hx _ ts (deserialize_ok bytes_rt (by omega))).1 ⟨hts, hcheck⟩]
  unfold clReceiverDeRot
  simp only [recvP_bind]
  have hgd : ∀ j < msg.length, (msg.getD j ([], [])).1.length < 2 ^ 64 ∧ (msg.getD j ([], [])).2.length < 2 ^ 64 := by
    intro j hj
    have : msg.getD j ([], []) = msg[j] := by simp [hj]
    rw [this]; exact hm _ (List.getElem_mem hj)
  refine .sendRecv ?_
  rw [show Codec.bytesList.deserialize (Codec.bytesList.enc (clD0 X q msg)) = .ok (clD0 X q msg) from
    deserialize_ok bytesList_rt ⟨by simpa [clD0] using hn, by
      intro b hb
      obtain ⟨j, hj, rfl⟩ := List.mem_map.mp hb
      rw [clCipher_length]; exact (hgd j (by simpa using hj)).1⟩, liftM_ok, ret_bind]
  refine .sendRecv ?_
  rw [show Codec.bytesList.deserialize (Codec.bytesList.enc (clD1 X delta q msg)) = .ok (clD1 X delta q msg) from
    deserialize_ok bytesList_rt ⟨by simpa [clD1] using hn, by
      intro b hb
      obtain ⟨j, hj, rfl⟩ := List.mem_map.mp hb
      rw [clCipher_length]; exact (hgd j (by simpa using hj)).2⟩, liftM_ok, ret_bind,
    clDecryptAll_ok X delta w choices (choices ++ bonus) t q msg hlen (by omega) H.tLen H.tRect hd (by
      intro j hj
      simp [List.getD, List.getElem?_append_left hj]) hrow]
  exact .ret _ _

theorem classic_ends (X : Crypto) (archS archR : Arch) (coinS coinR : WireBytes) (delta : Vector Byte 16)
    (bonus : Vector Bool 192) (seed0 seed1 : Vector WireBytes 128)
    (innerS : List (Bytes × Bytes) → Proc Unit) (innerR : List Bool → Proc (List Bytes))
    (hinner : CorrectOT 32 128 innerS innerR) (msg : List (Bytes × Bytes)) (choices : List Bool)
    (hn : 0 < msg.length) (h8 : 8 ∣ msg.length) (hlen : msg.length = choices.length) (hfit : msg.length < 2 ^ 64)
    (hm : ∀ m ∈ msg, m.1.length < 2 ^ 64 ∧ m.2.length < 2 ^ 64) :
    Ends (classicSender X archS coinS delta innerR msg)
      (classicReceiver X archR coinR bonus seed0 seed1 innerS choices) () (chosen msg choices) := by
  unfold classicSender classicReceiver
  have hmod : msg.length % 8 = 0 := Nat.mod_eq_zero_of_dvd h8
  have h1 : ∀ n, 0 < n → n % 8 = 0 → assertR (decide (8 ≤ n)) = .ok () := by
    intro n h h'
    unfold assertR; rw [if_pos (by simp; omega)]
  have h2 : ∀ n, n % 8 = 0 → assertR (decide (n % 8 = 0)) = .ok () := by
    intro n h
    unfold assertR; rw [if_pos (by simpa using h)]
  rw [h1 _ hn hmod, liftM_ok, ret_bind, h2 _ hmod, liftM_ok, ret_bind, ← hlen, h1 _ hn hmod, h2 _ hmod]
  refine .bind (validate_ends ⟨by simpa using hfit, apricot_name⟩) ?_
  rw [liftM_ok, ret_bind, ret_bind]
  refine .bind (hinner _ (u8VecToBoolVec delta.toList) (by simp) (by rw [unpack_length]; simp) ?_).ends.swap ?_
  · intro m hmem
    obtain ⟨i, hi, rfl⟩ := List.getElem_of_mem hmem
    simp
  · have hp : chosen (List.zipWith (fun a b => (a.toList, b.toList)) seed0.toList seed1.toList)
        (u8VecToBoolVec delta.toList) = (List.range 128).map fun i =>
          (if bitAt delta.toList i then (if h : i < 128 then seed1[i] else 0) else
            (if h : i < 128 then seed0[i] else 0) : WireBytes).toList := by
      apply List.ext_getElem?
      intro i
      by_cases hi : i < 128
      · rw [chosen_seeds delta.toList (by simp) seed0 seed1 i hi]
        simp [hi]
      · rw [List.getElem?_eq_none (by simp [chosen]; omega), List.getElem?_eq_none (by simp; omega)]
    have hv : ∀ v : Vector WireBytes 128, v.toList = (List.range 128).map fun i => if h : i < 128 then v[i] else 0 := by
      intro v
      apply List.ext_getElem
      · simp
      · intro i h1 h2
        have : i < 128 := by simpa using h1
        simp [this]
    rw [hp, hv seed0, hv seed1]
    exact clExtend_ends X archS archR coinS coinR delta.toList msg _ _ bonus.toList choices h8 hlen hfit hm
      (by simp) (by simp)

end FP
