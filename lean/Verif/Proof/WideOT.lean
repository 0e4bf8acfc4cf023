import Verif.Proof.Broadcast
/-
The 1-out-of-n transfer for widths beyond the bits of the index.
-/
namespace FP

theorem selKey_wide (keys : Nat → WireBytes × WireBytes) (i j : Nat) :
    selKey keys i j = Spec.keyOf keys j (i.testBit (j % 64)) := by
  unfold selKey Spec.keyOf
  rw [Nat.testBit_eq_decide_div_mod_eq, Nat.shiftRight_eq_div_pow]
  simp

theorem chosen_any (keys : Nat → WireBytes × WireBytes) (domain : Nat) (bit : Nat → Bool) :
    Spec.chosen (keyList keys domain) ((List.range domain).map bit) =
      (List.range domain).map fun j => Spec.keyOf keys j (bit j) := by
  unfold Spec.chosen keyList
  rw [List.zipWith_map, List.zipWith_self]
  apply List.map_congr_left
  intro j _
  unfold Spec.keyOf
  rfl

theorem manyKeys_any (dbg : Bool) (keys : Nat → WireBytes × WireBytes) (domain : Nat) (bit : Nat → Bool) :
    manyKeys dbg ((List.range domain).map fun j => Spec.keyOf keys j (bit j)) domain =
      .ok ((List.range domain).map fun j => Spec.keyOf keys j (bit j)) := by
  unfold manyKeys
  apply mapM_ok
  intro j hj
  rw [List.mem_range] at hj
  rw [idxR_ok (a := Spec.keyOf keys j (bit j)) (by simp [hj]), okb, debugAssertR_true, okb]
  · rfl
  · simp only [decide_eq_true_eq]
    have : (Spec.keyOf keys j (bit j)).length = 32 := by unfold Spec.keyOf; split <;> simp
    omega

/-- Unmasking with any keys. -/
theorem manyUnmask_any (X : Crypto) (keys : Nat → WireBytes × WireBytes) (bit : Nat → Bool)
    (domain e len choice : Nat) (row : Nat → Bytes) (hd : shlOneR X.dbg 64 domain = .ok (2 ^ e))
    (hrl : ∀ i < 2 ^ e, (row i).length = len) (hch : choice < 2 ^ e) :
    manyUnmask X ((List.range domain).map fun j => Spec.keyOf keys j (bit j)) choice domain
      ((List.range (2 ^ e)).flatMap row) =
      .ok (applyMasks ((List.range domain).map fun j => fk X (Spec.keyOf keys j (bit j)) choice len)
        (row choice)) := by
  have hpos : 0 < 2 ^ e := by positivity
  have hyl : ((List.range (2 ^ e)).flatMap row).length = len * 2 ^ e :=
    flatMap_const_length _ (fun i hi => hrl i (by simpa using hi)) (by simp)
  unfold manyUnmask
  rw [hd, okb, hyl, Nat.mul_div_cancel _ hpos]
  unfold vectorRow
  dsimp only
  rw [if_pos (by
    rw [hyl, ← Nat.mul_succ]; exact Nat.mul_le_mul_left _ hch), flatMap_row hrl hch, okb]
  have := foldlM_masks X.dbg len (fun j => fk X (Spec.keyOf keys j (bit j)) choice len)
    (fun j => do return fk X (← idxR ((List.range domain).map fun j => Spec.keyOf keys j (bit j)) j) choice len)
    (List.range domain) (by
      intro j hj
      rw [List.mem_range] at hj
      rw [idxR_ok (a := Spec.keyOf keys j (bit j)) (by simp [hj])]; rfl) (fun j _ => fk_length ..)
    (row choice) (hrl choice hch)
  rw [← this]
  congr 1
  funext r j
  cases idxR ((List.range domain).map fun j => Spec.keyOf keys j (bit j)) j <;> rfl

theorem foldl_xor_split (f g : Nat → Byte) (l : List Nat) (a : Byte) :
    l.foldl (fun b j => b ^^^ g j) (l.foldl (fun b j => b ^^^ f j) a) = l.foldl (fun b j => b ^^^ (f j ^^^ g j)) a := by
  induction l generalizing a with
  | nil => rfl
  | cons x l ih =>
    simp only [List.foldl_cons]
    rw [← foldl_xor_init, ih]
    rw [BitVec.xor_assoc]

theorem mask_byte (X : Crypto) (keys : Nat → WireBytes × WireBytes) (len i j k : Nat) (b : Bool) (hi : i < 2 ^ 32)
    (hk : k < len) :
    (fk X (Spec.keyOf keys j b) (i % 2 ^ 32) len).getD k 0 = X.chacha20 (Spec.maskSeed X.sha256 keys i j b) k := by
  unfold fk Crypto.fill Spec.maskSeed
  rw [beBytes_index i hi]
  rw [List.getD_eq_getElem?_getD, List.getElem?_map, List.getElem?_range hk]
  rfl

theorem opened_eq (X : Crypto) (messages : List Bytes) (keys : Nat → WireBytes × WireBytes)
    (domain len i : Nat) (hi : i < 2 ^ 32) (hm : (messages.getD i []).length = len) :
    applyMasks ((List.range domain).map fun j => fk X (Spec.keyOf keys j (i.testBit (j % 32))) i len)
      (yRow X messages keys domain len i) = Spec.opened X keys domain (messages.getD i []) i := by
  have hyl : (yRow X messages keys domain len i).length = len := by
    unfold yRow
    exact applyMasks_length _ _ len hm (rowMasks_length X keys domain len i)
  have hml : ∀ m ∈ (List.range domain).map fun j => fk X (Spec.keyOf keys j (i.testBit (j % 32))) i len,
      m.length = len := by
    intro m h
    obtain ⟨j, -, rfl⟩ := List.mem_map.mp h
    exact fk_length ..
  apply List.ext_getElem?
  intro k
  by_cases hk : k < len
  · have h1 := applyMasks_getElem? (rowMasks X keys domain len i) (messages.getD i []) k (by omega)
      (by rw [hm]; exact rowMasks_length X keys domain len i)
    rw [applyMasks_getElem? _ _ k (by omega) (by rw [hyl]; exact hml)]
    have hy : (yRow X messages keys domain len i)[k] =
        (rowMasks X keys domain len i).foldl (fun b m => b ^^^ m.getD k 0) (messages.getD i [])[k] := by
      have : (yRow X messages keys domain len i)[k]? = _ := h1
      rw [List.getElem?_eq_getElem (by omega)] at this
      exact Option.some.inj this
    rw [hy]
    unfold Spec.opened
    rw [List.getElem?_map, List.getElem?_range (by omega)]
    simp only [Option.map_some]
    refine congrArg some ?_
    unfold Spec.openedByte rowMasks
    rw [List.foldl_map, List.foldl_map]
    have h0 : (messages.getD i []).getD k 0 = (messages.getD i [])[k]'(by omega) := by
      rw [List.getD_eq_getElem?_getD, List.getElem?_eq_getElem (by omega)]
      rfl
    rw [h0]
    have e1 : ∀ j, (fk X (selKey keys i j) (i % 2 ^ 32) len).getD k 0 =
        X.chacha20 (Spec.maskSeed X.sha256 keys i j (i.testBit (j % 64))) k := fun j => by
      rw [selKey_wide, mask_byte X keys len i j k _ hi hk]
    have e2 : ∀ j, (fk X (Spec.keyOf keys j (i.testBit (j % 32))) i len).getD k 0 =
        X.chacha20 (Spec.maskSeed X.sha256 keys i j (i.testBit (j % 32))) k := fun j => by
      have := mask_byte X keys len i j k (i.testBit (j % 32)) hi hk
      rw [Nat.mod_eq_of_lt hi] at this
      exact this
    simp only [e1, e2]
    exact foldl_xor_split _ _ _ _
  · rw [List.getElem?_eq_none, List.getElem?_eq_none]
    · unfold Spec.opened; simp only [List.length_map, List.length_range]; omega
    · rw [applyMasks_length _ _ len hyl hml]
      omega

/-- A release build, any width. -/
theorem many_ends_release (X : Crypto) (hrel : X.dbg = false) (cores : Nat) (order : List Nat)
    (keys : Nat → WireBytes × WireBytes)
    (S : List (Bytes × Bytes) → Proc Unit) (V : List Bool → Proc (List Bytes))
    (messages : List Bytes) (domain len choice : Nat) (hot : Spec.CorrectOT 32 domain S V)
    (hc : 0 < cores)
    (hlen : ∀ m ∈ messages, m.length = len) (hn : 2 ^ (domain % 64) ≤ messages.length)
    (hch : choice < 2 ^ (domain % 64)) (h32 : choice < 2 ^ 32) (hsize : 2 ^ (domain % 64) * len < 2 ^ 64)
    (hpar : 2 < domain → 0 < len ∧
      (X.dbg = true → manyThreads cores (domain % 64) ∣ 2 ^ (domain % 64)) ∧
      manyRows cores (domain % 64) ∣ 2 ^ (domain % 64) ∧
      order.Perm (List.range (manyJobs cores (domain % 64) len))) :
    Ends (manySender X cores order keys S messages domain) (manyReceiver X V choice domain) ()
      (Spec.opened X keys domain (messages.getD choice []) choice) := by
  have hs : shlOneR X.dbg 64 domain = .ok (2 ^ (domain % 64)) := by
    simp only [shlOneR]
    by_cases h : domain < 64
    · rw [if_pos h, Nat.mod_eq_of_lt h]
    · rw [if_neg h, hrel]; rfl
  unfold manySender manyReceiver
  have hy := manyY_ok_wide X cores order messages keys domain (domain % 64) len hs hc hlen hn hsize hpar
  have hk : ((List.range domain).map fun j => ((keys j).1.toList, (keys j).2.toList)) =
    keyList keys domain := rfl
  have hbits : ((List.range domain).map fun i => (choice >>> (i % 32)) % 2 == 1) =
      (List.range domain).map fun i => choice.testBit (i % 32) := by
    apply List.map_congr_left
    intro j _
    rw [Nat.testBit_eq_decide_div_mod_eq, Nat.shiftRight_eq_div_pow]
    by_cases h : choice / 2 ^ (j % 32) % 2 = 1 <;> simp [h]
  simp only [hk]
  rw [hy, liftM_ok, ret_bind, hrel, manyChoices_wide, hbits, liftM_ok, ret_bind, sendP_bind, recvP_bind]
  refine .sendRecv ?_
  have hin := (hot (keyList keys domain) ((List.range domain).map fun i => choice.testBit (i % 32))
    (by simp [keyList]) (by simp) (by
      intro m hm
      obtain ⟨j, -, rfl⟩ := List.mem_map.mp hm
      simp)).ends
  rw [chosen_any] at hin
  refine .bindR hin ?_
  have hm : (messages.getD choice []).length = len := by
    have h : choice < messages.length := by omega
    have : messages.getD choice [] = messages[choice] := by simp [h]
    rw [this]
    exact hlen _ (by simp)
  rw [manyKeys_any, liftM_ok, ret_bind,
    manyUnmask_any X keys _ domain (domain % 64) len choice _ hs
      (fun i hi => yRow_length X messages keys domain len i (by omega) hlen) hch,
    opened_eq X messages keys domain len choice h32 hm]
  rfl

end FP
