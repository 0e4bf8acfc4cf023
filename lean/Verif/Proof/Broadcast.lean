import Verif.Proof.ManyOT
import Verif.Spec.ManyOT
/-
The rows of the 1-out-of-n broadcast as the specification describes them.
-/
namespace FP

theorem beBytes_index (i : Nat) (h : i < 2 ^ 32) : beBytes 4 (i % 2 ^ 32) = Spec.indexBytes i := by
  rw [Nat.mod_eq_of_lt h]
  simp [beBytes, Spec.indexBytes, List.range_succ, Nat.shiftRight_eq_div_pow]

theorem selKey_eq (keys : Nat → WireBytes × WireBytes) (i j : Nat) (hj : j < 64) :
    selKey keys i j = Spec.keyOf keys j (i.testBit j) := by
  unfold selKey Spec.keyOf
  rw [Nat.mod_eq_of_lt hj, Nat.testBit_eq_decide_div_mod_eq, Nat.shiftRight_eq_div_pow]
  simp

theorem applyMasks_getElem? (ms : List Bytes) (r : Bytes) (k : Nat) (hk : k < r.length)
    (h : ∀ m ∈ ms, m.length = r.length) :
    (applyMasks ms r)[k]? = some (ms.foldl (fun b m => b ^^^ m.getD k 0) r[k]) := by
  induction ms generalizing r with
  | nil => simp [applyMasks, hk]
  | cons m ms ih =>
    have hm := h m (by simp)
    have hl : (List.zipWith (· ^^^ ·) r m : Bytes).length = r.length := by simp [hm]
    have := ih (List.zipWith (· ^^^ ·) r m) (by rw [hl]; exact hk)
      (fun m' h' => by rw [hl]; exact h m' (by simp [h']))
    show (applyMasks ms (List.zipWith (· ^^^ ·) r m))[k]? = _
    rw [this, List.getElem_zipWith, List.foldl_cons]
    have : m.getD k 0 = m[k]'(by omega) := by simp [show k < m.length by omega]
    rw [this]

theorem yRow_eq (X : Crypto) (messages : List Bytes) (keys : Nat → WireBytes × WireBytes)
    (domain len i : Nat) (hd : domain ≤ 32) (hi : i < 2 ^ domain) (hm : (messages.getD i []).length = len) :
    yRow X messages keys domain len i = Spec.broadcastRow X keys domain (messages.getD i []) i := by
  have hi32 : i < 2 ^ 32 := lt_of_lt_of_le hi (Nat.pow_le_pow_right (by decide) hd)
  apply List.ext_getElem?
  intro k
  by_cases hk : k < len
  · have h1 := applyMasks_getElem? (rowMasks X keys domain len i) (messages.getD i []) k (by omega)
      (by rw [hm]; exact rowMasks_length X keys domain len i)
    unfold yRow
    rw [h1]
    unfold Spec.broadcastRow
    rw [List.getElem?_map, List.getElem?_range (by omega)]
    simp only [Option.map_some]
    refine congrArg some ?_
    unfold Spec.broadcastByte rowMasks
    rw [List.foldl_map]
    have h0 : (messages.getD i []).getD k 0 = (messages.getD i [])[k]'(by omega) := by
      rw [List.getD_eq_getElem?_getD, List.getElem?_eq_getElem (by omega)]
      rfl
    rw [h0]
    refine List.foldl_ext _ _ _ fun b j hj => ?_
    rw [List.mem_range] at hj
    unfold fk Crypto.fill Spec.maskSeed
    rw [beBytes_index i hi32, selKey_eq _ _ _ (by omega)]
    rw [List.getD_eq_getElem?_getD, List.getElem?_map, List.getElem?_range hk]
    rfl
  · rw [List.getElem?_eq_none, List.getElem?_eq_none]
    · unfold Spec.broadcastRow; simp only [List.length_map, List.length_range]; omega
    · unfold yRow
      rw [applyMasks_length _ _ len hm (rowMasks_length X keys domain len i)]
      omega

/-- Folding xors: one changed summand changes the sum. -/
theorem foldl_xor_init (g : Nat → Byte) (l : List Nat) (a d : Byte) :
    l.foldl (fun b j => b ^^^ g j) (a ^^^ d) = l.foldl (fun b j => b ^^^ g j) a ^^^ d := by
  induction l generalizing a with
  | nil => rfl
  | cons x l ih =>
    simp only [List.foldl_cons]
    rw [BitVec.xor_assoc, BitVec.xor_comm d, ← BitVec.xor_assoc, ih]

theorem foldl_xor_change (g g' : Nat → Byte) (j : Nat) (d : Byte) (l : List Nat) (hl : l.Nodup)
    (hj : j ∈ l) (h1 : g' j = g j ^^^ d) (h2 : ∀ x ∈ l, x ≠ j → g' x = g x) (a : Byte) :
    l.foldl (fun b j => b ^^^ g' j) a = l.foldl (fun b j => b ^^^ g j) a ^^^ d := by
  induction l generalizing a with
  | nil => simp at hj
  | cons x l ih =>
    simp only [List.foldl_cons]
    rw [List.nodup_cons] at hl
    by_cases hx : x = j
    · subst hx
      have hc : ∀ (l : List Nat) (a : Byte), (∀ y ∈ l, g' y = g y) →
          l.foldl (fun b j => b ^^^ g' j) a = l.foldl (fun b j => b ^^^ g j) a := by
        intro l
        induction l with
        | nil => intro a _; rfl
        | cons y l ih =>
          intro a h
          simp only [List.foldl_cons]
          rw [h y (by simp)]
          exact ih _ fun z hz => h z (by simp [hz])
      rw [hc l _ fun y hy => h2 y (by simp [hy]) (by rintro rfl; exact hl.1 hy), h1, ← BitVec.xor_assoc,
        foldl_xor_init]
    · rw [h2 x (by simp) hx]
      refine ih hl.2 ?_ (fun y hy => h2 y (by simp [hy])) _
      rcases List.mem_cons.mp hj with h | h
      · exact absurd h.symm hx
      · exact h

/-- A position in which two different indices differ. -/
theorem exists_testBit_ne {domain i c : Nat} (hi : i < 2 ^ domain) (hc : c < 2 ^ domain) (h : i ≠ c) :
    ∃ j < domain, i.testBit j ≠ c.testBit j := by
  by_contra hno
  push Not at hno
  apply h
  apply Nat.eq_of_testBit_eq
  intro j
  by_cases hj : j < domain
  · exact hno j hj
  · have : 2 ^ domain ≤ 2 ^ j := Nat.pow_le_pow_right (by decide) (by omega)
    rw [Nat.testBit_lt_two_pow (by omega), Nat.testBit_lt_two_pow (by omega)]

/-- Reprogramming a stream generator: into the stream of seed `σ i`, for every `i` of `is`, xor
`diff i`. -/
def reprogram (σ : Nat → WireBytes) (diff : Nat → Nat → Byte) (is : List Nat)
    (f : WireBytes → Nat → Byte) : WireBytes → Nat → Byte := fun s k =>
  match is.find? fun i => σ i == s with
  | some i => f s k ^^^ diff i k
  | none => f s k

theorem reprogram_invol (σ : Nat → WireBytes) (diff : Nat → Nat → Byte) (is : List Nat)
    (f : WireBytes → Nat → Byte) : reprogram σ diff is (reprogram σ diff is f) = f := by
  funext s k
  unfold reprogram
  cases is.find? fun i => σ i == s with
  | none => rfl
  | some i => simp [BitVec.xor_assoc]

theorem reprogram_other (σ : Nat → WireBytes) (diff : Nat → Nat → Byte) (is : List Nat)
    (f : WireBytes → Nat → Byte) (s : WireBytes) (h : ∀ i ∈ is, σ i ≠ s) :
    reprogram σ diff is f s = f s := by
  funext k
  unfold reprogram
  rw [List.find?_eq_none.mpr]
  intro i hi
  simp [h i hi]

theorem reprogram_at (σ : Nat → WireBytes) (diff : Nat → Nat → Byte) (is : List Nat)
    (f : WireBytes → Nat → Byte) (i : Nat) (hi : i ∈ is)
    (hinj : ∀ i' ∈ is, σ i' = σ i → i' = i) (k : Nat) :
    reprogram σ diff is f (σ i) k = f (σ i) k ^^^ diff i k := by
  unfold reprogram
  cases h : is.find? fun i' => σ i' == σ i with
  | none =>
    have := List.find?_eq_none.mp h i hi
    simp at this
  | some i' =>
    have h1 := List.mem_of_find?_eq_some h
    have h2 := List.find?_some h
    simp only [beq_iff_eq] at h2
    rw [hinj i' h1 h2]

end FP
