import Verif.Proof.Unchosen
import Verif.Props.Apricot
/-
A receiver of the newer extension that learns the sender's secret and every message.
-/
namespace FP
open Spec

attribute [local irreducible] Spec.modulus

theorem unitRow_length (j : Nat) : (unitRow j).length = 16 := by simp [unitRow]

theorem unitRow_bit {j i : Nat} (hi : i < 128) : bitAt (unitRow j) i = decide (i = j) := by
  unfold bitAt unitRow
  have h16 : i / 8 < 16 := by omega
  simp only [List.getD, List.getElem?_map, List.getElem?_range h16, Option.map_some, Option.getD_some]
  by_cases h : i / 8 = j / 8
  · rw [if_pos h, BitVec.getLsbD_ofNat, Nat.testBit_two_pow]
    rw [Bool.eq_iff_iff]
    simp
    omega
  · rw [if_neg h]
    have : i ≠ j := by rintro rfl; exact h rfl
    simp [this]

/-- The key of row `j` of a sender with secret `delta` for the thief. -/
def stolenKey (t : Nat → Bytes) (delta : Bytes) (j : Nat) : Bytes :=
  if j < 128 && bitAt delta j then bytesXor (t j) (unitRow j) else t j

theorem stolenKey_length {t : Nat → Bytes} {delta : Bytes} {j : Nat} (h : (t j).length = 16) :
    (stolenKey t delta j).length = 16 := by
  unfold stolenKey
  split
  · simp [bytesXor, h, unitRow_length]
  · exact h

/-- One half of pair `j` of the sender's last message. -/
def half (d : Bytes) (ms j : Nat) (second : Bool) : Bytes := (d.drop (j * ms * 2 + second.toNat * ms)).take ms

/-- The bits of the secret that the thief computes from the first messages of 128 pairs. -/
def stolenBit (X : Crypto) (t : Nat → Bytes) (ms : Nat) (d : Bytes) (known : List Bytes) (j : Nat) : Bool :=
  decide (bytesXor (half d ms j false) (known.getD j []) ≠ X.fill (padSeed X.sha256 j (t j)) ms)

noncomputable def stolenDelta (X : Crypto) (t : Nat → Bytes) (ms : Nat) (d : Bytes) (known : List Bytes) : Bytes :=
  (packed_exists 16 (stolenBit X t ms d known)).choose

/-- The messages that the thief computes. -/
noncomputable def stolen (X : Crypto) (t : Nat → Bytes) (n ms : Nat) (d : Bytes) (known : List Bytes) :
    List (Bytes × Bytes) :=
  let delta := stolenDelta X t ms d known
  (List.range n).map fun j =>
    (bytesXor (half d ms j false) (X.fill (padSeed X.sha256 j (stolenKey t delta j)) ms),
     bytesXor (half d ms j true) (X.fill (padSeed X.sha256 j (bytesXor (stolenKey t delta j) delta)) ms))

theorem apCipher_open {X : Crypto} {key : Bytes} {j ms : Nat} {m : Bytes} (hm : m.length = ms) :
    bytesXor (apCipher X key j m) (X.fill (padSeed X.sha256 j key) ms) = m := by
  unfold bytesXor apCipher padSeed
  rw [rowBytes_eq, hm, zipXor_comm _ m]
  exact zipWith_xor_cancel (by rw [fill_length, hm])

theorem apCipher_mask {X : Crypto} {key : Bytes} {j ms : Nat} {m : Bytes} (hm : m.length = ms) :
    bytesXor (apCipher X key j m) m = X.fill (padSeed X.sha256 j key) ms := by
  unfold bytesXor apCipher padSeed
  rw [rowBytes_eq, hm]
  exact zipWith_xor_cancel (by rw [fill_length, hm])

/-- From the sender's last message and 128 first messages to everything. -/
theorem stolen_ok {X : Crypto} {t : Nat → Bytes} {ms : Nat} {delta qT : Bytes} {msg : List (Bytes × Bytes)}
    (hd : delta.length = 16) (hn : 128 ≤ msg.length) (hm : ∀ m ∈ msg, m.1.length = ms ∧ m.2.length = ms)
    (hrow : ∀ j < msg.length, row qT 16 j = stolenKey t delta j)
    (hdiff : ∀ j < 128, X.fill (padSeed X.sha256 j (t j)) ms ≠ X.fill (padSeed X.sha256 j (bytesXor (t j) (unitRow j))) ms) :
    stolen X t msg.length ms ((List.range msg.length).flatMap (apPair X delta qT msg)) ((msg.take 128).map Prod.fst) = msg := by
  have hsz : ∀ j < msg.length, (msg.getD j ([], [])).1.length = ms ∧ (msg.getD j ([], [])).2.length = ms := by
    intro j hj
    rw [List.getD_eq_getElem?_getD, List.getElem?_eq_getElem hj]
    exact hm _ (List.getElem_mem hj)
  have hhalf : ∀ j < msg.length, ∀ b, half ((List.range msg.length).flatMap (apPair X delta qT msg)) ms j b =
      if b then apCipher X (bytesXor (stolenKey t delta j) delta) j (msg.getD j ([], [])).2
      else apCipher X (stolenKey t delta j) j (msg.getD j ([], [])).1 := by
    intro j hj b
    have := vectorSlice_pair (n := msg.length) (ms := ms)
      (fun j => apCipher X (row qT 16 j) j (msg.getD j ([], [])).1)
      (fun j => apCipher X (List.zipWith (· ^^^ ·) (row qT 16 j) delta) j (msg.getD j ([], [])).2)
      (fun j hj => by rw [apCipher_length]; exact (hsz j hj).1) (fun j hj => by rw [apCipher_length]; exact (hsz j hj).2) hj b
    unfold vectorSlice at this
    split at this
    · injection this with this
      unfold half
      rw [show (apPair X delta qT msg) = fun j => apCipher X (row qT 16 j) j (msg.getD j ([], [])).1 ++
        apCipher X (List.zipWith (· ^^^ ·) (row qT 16 j) delta) j (msg.getD j ([], [])).2 from rfl, this, hrow j hj]
      rfl
    · cases this
  have hbit : ∀ j < 128, stolenBit X t ms ((List.range msg.length).flatMap (apPair X delta qT msg))
      ((msg.take 128).map Prod.fst) j = bitAt delta j := by
    intro j hj
    have hk : ((msg.take 128).map Prod.fst).getD j [] = (msg.getD j ([], [])).1 := by
      have : j < msg.length := by omega
      simp [List.getD_eq_getElem?_getD, List.getElem?_take, hj, this]
    unfold stolenBit
    rw [hhalf j (by omega), hk]
    simp only [Bool.false_eq_true, if_false]
    rw [apCipher_mask (hsz j (by omega)).1]
    unfold stolenKey
    cases hb : bitAt delta j with
    | false => simp
    | true =>
      simp only [hj, decide_true, Bool.and_self, if_true]
      simpa using (hdiff j hj).symm
  have hdelta : stolenDelta X t ms ((List.range msg.length).flatMap (apPair X delta qT msg))
      ((msg.take 128).map Prod.fst) = delta := by
    obtain ⟨h1, h2⟩ := (packed_exists 16 (stolenBit X t ms ((List.range msg.length).flatMap (apPair X delta qT msg))
      ((msg.take 128).map Prod.fst))).choose_spec
    unfold stolenDelta
    refine bytes_ext (by rw [h1, hd]) fun i hi => ?_
    rw [h1] at hi
    rw [h2 i hi, hbit i (by omega)]
  unfold stolen
  rw [hdelta]
  apply List.ext_getElem
  · simp
  · intro j h1 h2
    simp only [List.getElem_map, List.getElem_range]
    rw [hhalf j h2, hhalf j h2]
    simp only [Bool.false_eq_true, if_false, if_true]
    rw [apCipher_open (hsz j h2).1, apCipher_open (hsz j h2).2]
    simp [List.getD_eq_getElem?_getD, h2]

/-- The thief's errors: in the first `n` rows a single bit on the diagonal of the first 128. -/
theorem stolen_keys {X : Crypto} {s0 s1 : Nat → WireBytes} {t : Nat → Bytes} {w n : Nat} {u delta : Bytes}
    {E : Nat → Nat → Bool} (hn : n ≤ 8 * w) (ht : RowsOf t (fun i => X.fill (s0 i) w) n)
    (hub : ∀ i < 128, ∀ j < 8 * w, flatBit u w i j = (bitAt (X.fill (s0 i) w) j ^^ bitAt (X.fill (s1 i) w) j ^^ E i j))
    (hE : ∀ i < 128, ∀ j < n, E i j = decide (i = j)) :
    KeysOf (stolenKey t delta) delta (fun i => X.fill (if bitAt delta i then s1 i else s0 i) w) (flatBit u w)
      (fun _ => false) n := by
  intro j hj
  obtain ⟨tl, tb⟩ := ht j hj
  refine ⟨stolenKey_length tl, fun i hi => ?_⟩
  rw [hub i hi j (by omega), hE i hi j hj]
  have e1 : bitAt (stolenKey t delta j) i = (bitAt (X.fill (s0 i) w) j ^^ (bitAt delta i && decide (i = j))) := by
    unfold stolenKey
    by_cases hij : i = j
    · subst hij
      cases hb : bitAt delta i with
      | false => simp [tb i hi]
      | true =>
        simp only [hi, decide_true, Bool.and_self, if_true]
        rw [bytesXor, bitAt_xor _ _ (by rw [tl, unitRow_length]), tb i hi, unitRow_bit hi]
        simp
    · have : decide (i = j) = false := by simp [hij]
      rw [this, Bool.and_false, Bool.xor_false]
      split
      · rw [bytesXor, bitAt_xor _ _ (by rw [tl, unitRow_length]), tb i hi, unitRow_bit hi]
        simp [hij]
      · exact tb i hi
  rw [e1]
  have e : bitAt ((fun i => X.fill (if bitAt delta i = true then s1 i else s0 i) w) i) j =
      if bitAt delta i then bitAt (X.fill (s1 i) w) j else bitAt (X.fill (s0 i) w) j := by
    dsimp only
    split <;> rfl
  rw [e]
  cases bitAt delta i <;> cases bitAt (X.fill (s0 i) w) j <;> cases bitAt (X.fill (s1 i) w) j <;> cases decide (i = j) <;> rfl

end FP
