import Verif.Proof.Util
import Verif.Proof.Witness
/-
C10: bit packing.  C11: log2.  C12: XOR helpers.
-/
namespace FP.Props

/-! ### C10 -/

/-- C10, unpacking: eight bits per byte, least significant first, in byte order. -/
theorem C10_unpack (s : Bytes) :
    (u8VecToBoolVec s).length = 8 * s.length ∧
    ∀ j i, i < 8 → (u8VecToBoolVec s)[8 * j + i]? = s[j]?.map (·.getLsbD i) :=
  ⟨unpack_length s, fun j i hi => unpack_get s j i hi⟩

/-- C10, packing: one byte per eight full bits, most significant bit first; an incomplete last
byte is dropped. -/
theorem C10_pack (l : List Bool) :
    (boolVecToU8Vec l).length = l.length / 8 ∧
    ∀ j i, i < 8 → j < l.length / 8 →
      l[8 * j + i]? = (boolVecToU8Vec l)[j]?.map (·.getLsbD (7 - i)) := pack_spec l

/-- The full round trip of C10. -/
def C10_full : Prop := ∀ s : Bytes, boolVecToU8Vec (u8VecToBoolVec s) = s

/-- C10, what holds: packing the unpacked bits gives every byte with its bits reversed.  Missing:
the round trip itself, which fails (`C10_full_false`). -/
theorem C10_roundtrip_partial (s : Bytes) :
    boolVecToU8Vec (u8VecToBoolVec s) = s.map BitVec.reverse := by
  obtain ⟨h1, h2⟩ := pack_spec (u8VecToBoolVec s)
  have hl : (u8VecToBoolVec s).length / 8 = s.length := by rw [unpack_length]; omega
  apply List.ext_getElem
  · rw [h1, hl]; simp
  · intro j hj hj'
    have hs : j < s.length := by simpa using hj'
    apply BitVec.eq_of_getLsbD_eq
    intro i hi
    have := h2 j (7 - i) (by omega) (by omega)
    rw [unpack_get s j (7 - i) (by omega), List.getElem?_eq_getElem hs, List.getElem?_eq_getElem hj] at this
    simp only [Option.map_some, Option.some.injEq] at this
    rw [show 7 - (7 - i) = i by omega] at this
    rw [← this, List.getElem_map, BitVec.getLsbD_reverse, BitVec.getMsbD]
    simp [hi]

/-- C10: the strings that do round-trip are exactly those whose bytes are palindromes of bits. -/
theorem C10_roundtrip_iff (s : Bytes) :
    boolVecToU8Vec (u8VecToBoolVec s) = s ↔ ∀ b ∈ s, ∀ i, i < 8 → b.getLsbD i = b.getLsbD (7 - i) := by
  rw [C10_roundtrip_partial]
  constructor
  · intro h b hb i hi
    obtain ⟨j, hj, rfl⟩ := List.getElem_of_mem hb
    have h2 : s[j].reverse = s[j] := by
      have := congrArg (·[j]?) h
      simpa [hj] using this
    conv_lhs => rw [← h2]
    rw [BitVec.getLsbD_reverse, BitVec.getMsbD]
    simp [hi]
  · intro h
    apply List.ext_getElem (by simp)
    intro j hj hj'
    rw [List.getElem_map]
    apply BitVec.eq_of_getLsbD_eq
    intro i hi
    rw [BitVec.getLsbD_reverse, BitVec.getMsbD, h s[j] (List.getElem_mem hj') i hi]
    simp [hi]

/-- The round trip fails on the one-byte string `[1]`, which comes back as `[128]`. -/
theorem C10_full_false : ¬ C10_full := fun h => by
  have := h [1]
  rw [C10_roundtrip_partial] at this
  revert this; decide

example : boolVecToU8Vec (u8VecToBoolVec [0x01, 0xA5]) = [0x80, 0xA5] := by decide

/-! ### C11 -/

/-- C11: for every width and every positive value of that width, `log2 x` is the least `k` with
`x ≤ 2^k`. -/
theorem C11_log2 (dbg : Bool) (bits x : Nat) (hx : 0 < x) (hlt : x < 2 ^ bits) :
    ∃ k, log2R dbg bits x = .ok k ∧ x ≤ 2 ^ k ∧ ∀ k', x ≤ 2 ^ k' → k ≤ k' := by
  have hs : subR dbg (2 ^ bits) x 1 = .ok (x - 1) := by simp [subR]; omega
  refine ⟨_, by unfold log2R; rw [hs, okb, purek], ?_, ?_⟩
  · split
    · simp; omega
    · rename_i h
      have := Nat.lt_log2_self (n := x - 1)
      omega
  · intro k' hk'
    split
    · omega
    · rename_i h
      have : (x - 1).log2 < k' := (Nat.log2_lt h).mpr (by omega)
      omega

example := C11_log2 true 32 5 (by meets) (by meets)

/-- C11, the use made of it: every index of a list of length `n` fits in `log2 n` bits. -/
theorem C11_index_fits (dbg : Bool) (n i : Nat) (hi : i < n) (hn : n < 2 ^ 64) :
    ∃ k, log2R dbg 64 n = .ok k ∧ i < 2 ^ k := by
  obtain ⟨k, h1, h2, -⟩ := C11_log2 dbg 64 n (by omega) hn
  exact ⟨k, h1, by omega⟩

example := C11_index_fits true 5 4 (by meets) (by meets)

/-- `log2` of 0 panics in a debug build and gives the full width in a release build. -/
theorem C11_zero (bits : Nat) (hb : 0 < bits) :
    log2R true bits 0 = .error .panic ∧ log2R false bits 0 = .ok bits := by
  have h2 : 2 ≤ 2 ^ bits := by
    calc 2 = 2 ^ 1 := rfl
      _ ≤ 2 ^ bits := Nat.pow_le_pow_right (by omega) hb
  refine ⟨rfl, ?_⟩
  have : subR false (2 ^ bits) 0 1 = .ok (2 ^ bits - 1) := by
    unfold subR
    rw [if_neg (by omega), if_neg (by simp), Nat.mod_eq_of_lt (a := 1) (by omega), Nat.zero_add,
      Nat.mod_eq_of_lt (by omega)]
  unfold log2R
  rw [this, okb, if_neg (by omega), purek]
  congr 1
  have h3 : (2 ^ bits - 1).log2 = bits - 1 := by
    rw [Nat.log2_eq_iff (by omega)]
    refine ⟨?_, by rw [Nat.sub_add_cancel hb]; omega⟩
    have : 2 ^ bits = 2 * 2 ^ (bits - 1) := by
      rw [← Nat.pow_succ', Nat.succ_eq_add_one, Nat.sub_add_cancel hb]
    have : 0 < 2 ^ (bits - 1) := Nat.two_pow_pos _
    omega
  omega

example := C11_zero 64 (by meets)

example : log2R true 64 5 = .ok 3 ∧ log2R true 64 8 = .ok 3 ∧ log2R true 64 1 = .ok 0 := by decide

/-! ### C12 -/

/-- C12: the three XOR helpers compute the bytewise XOR; so they agree. -/
theorem C12_xor (dbg : Bool) (a b : Bytes) (h : a.length = b.length) :
    xorBytes dbg a b = .ok (List.zipWith (· ^^^ ·) a b) ∧
    xorBytesInplace dbg a b = .ok (List.zipWith (· ^^^ ·) a b) :=
  ⟨xorBytes_ok dbg h, xorBytesInplace_ok dbg h⟩

example := C12_xor true [3, 4, 5] [6, 255, 0] (by meets)

/-- C12: the fixed-size `xor` agrees with `xor_bytes`. -/
theorem C12_xor32 (dbg : Bool) (a b : WireBytes) :
    xorBytes dbg a.toList b.toList = .ok (xor32 a b).toList := by
  rw [xorBytes_ok dbg (by simp)]
  refine congrArg Except.ok ?_
  apply List.ext_getElem
  · simp
  · intro i h1 h2
    have h : i < 32 := by simpa using h2
    simp [xor32]

/-- C12: applying the same right operand twice restores the left operand. -/
theorem C12_involutive (dbg : Bool) (a b : Bytes) (h : a.length = b.length) :
    ((do xorBytes dbg (← xorBytes dbg a b) b) : R Bytes) = .ok a ∧
    ((do xorBytesInplace dbg (← xorBytesInplace dbg a b) b) : R Bytes) = .ok a := by
  constructor
  · rw [xorBytes_ok dbg h, okb, xorBytes_ok dbg (by simp [h]), zipWith_xor_cancel h]
  · rw [xorBytesInplace_ok dbg h, okb, xorBytesInplace_ok dbg (by simp [h]), zipWith_xor_cancel h]

example := C12_involutive true [3, 4, 5] [6, 255, 0] (by meets)

theorem C12_involutive32 (a b : WireBytes) : xor32 (xor32 a b) b = a := by
  apply Vector.ext
  intro i hi
  simp only [xor32, Vector.getElem_ofFn, Fin.getElem_fin]
  rw [BitVec.xor_assoc, BitVec.xor_self, BitVec.xor_zero]

/-- C12: combining half keys does not depend on the order. -/
theorem C12_combine_comm (a b : WireBytes) : combine a b = combine b a := by
  apply Vector.ext
  intro i hi
  simp only [combine, xor32, Vector.getElem_ofFn, Fin.getElem_fin]
  exact BitVec.xor_comm _ _

/-- C12: a combined key determines each half from the other one (no key material is lost). -/
theorem C12_combine_inj (a b b' : WireBytes) (h : combine a b = combine a b') : b = b' := by
  rw [C12_combine_comm a b, C12_combine_comm a b'] at h
  have := congrArg (xor32 · a) h
  simpa [combine, C12_involutive32] using this

example := C12_combine_inj (Witness.bytes 1) (Witness.bytes 2) (Witness.bytes 2) rfl

/-- Equal half keys cancel: the combined key is all zeros (what two parties whose two half keys
coincide would get). -/
theorem C12_combine_self (a : WireBytes) : combine a a = Vector.replicate 32 0 := by
  apply Vector.ext
  intro i hi
  simp [combine, xor32]

example : xorBytes true [1, 2, 3] [7, 7, 7] = .ok [6, 5, 4] := by decide

end FP.Props
