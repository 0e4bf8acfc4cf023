import Verif.Spec.Label
import Mathlib.Data.ZMod.Basic
import Mathlib.Tactic.Ring
/-
Lemmas about wire labels.
-/
namespace FP
open Spec

@[simp] theorem assertR_true : assertR true = .ok () := rfl

theorem debugAssertR_ok {dbg b} (h : b = true) : debugAssertR dbg b = .ok () := by
  simp [debugAssertR, h]

theorem Except.ok_bind {ε α β} (a : α) (f : α → Except ε β) : (Except.ok a >>= f) = f a := rfl
theorem Except.pure_eq {ε α} (a : α) : (pure a : Except ε α) = .ok a := rfl

theorem toU16_get (v : WireBytes) (i : Nat) (h : i < 16) :
    (toU16 v)[i] = v[2 * i + 1] ++ v[2 * i] := by simp [toU16]

theorem toU16_toNat (v : WireBytes) (i : Nat) (h : i < 16) :
    (toU16 v)[i].toNat = v[2 * i].toNat + 256 * v[2 * i + 1].toNat := by
  rw [toU16_get _ _ h, BitVec.toNat_append, ← Nat.shiftLeft_add_eq_or_of_lt (by omega)]
  rw [Nat.shiftLeft_eq]; omega

theorem ofU16_even (w : Vector (BitVec 16) 16) (i : Nat) (h : i < 16) :
    (ofU16 w)[2 * i].toNat = w[i].toNat % 256 := by
  have : 2 * i / 2 = i := by omega
  have h2 : 2 * i % 2 = 0 := by omega
  simp [ofU16, this, h2]

theorem ofU16_odd (w : Vector (BitVec 16) 16) (i : Nat) (h : i < 16) :
    (ofU16 w)[2 * i + 1].toNat = w[i].toNat / 256 := by
  have : (2 * i + 1) / 2 = i := by omega
  have h2 : (2 * i + 1) % 2 = 1 := by omega
  have := w[i].isLt
  simp [ofU16, *, Nat.shiftRight_eq_div_pow]
  omega

theorem toU16_ofU16 (w : Vector (BitVec 16) 16) : toU16 (ofU16 w) = w := by
  ext i hi
  rw [← BitVec.getLsbD_eq_getElem, ← BitVec.getLsbD_eq_getElem]
  congr 1
  apply BitVec.eq_of_toNat_eq
  rw [toU16_toNat _ _ hi, ofU16_even _ _ hi, ofU16_odd _ _ hi]
  omega

theorem ofU16_toU16 (v : WireBytes) : ofU16 (toU16 v) = v := by
  apply Vector.ext
  intro i hi
  apply BitVec.eq_of_toNat_eq
  rcases Nat.even_or_odd' i with ⟨k, rfl | rfl⟩
  · rw [ofU16_even _ _ (by omega), toU16_toNat _ _ (by omega)]
    have := v[2*k].isLt
    omega
  · rw [ofU16_odd _ _ (by omega), toU16_toNat _ _ (by omega)]
    have := v[2*k].isLt
    omega

/-- The raw digits of a byte-valued wire. -/
theorem ofFnM_ok {n : Nat} {α} (f : Fin n → R α) (g : Fin n → α) (h : ∀ i, f i = .ok (g i)) :
    Vector.ofFnM f = (.ok (Vector.ofFn g) : R _) := by
  have : f = fun i => (pure (g i) : R α) := by funext i; exact h i
  rw [this, Vector.ofFnM_pure]; rfl

theorem map_ok (w : Wire) (op : Nat → R Nat) (g : Nat → Nat)
    (h : ∀ i : Fin 32, op w.values[i].toNat = .ok (g w.values[i].toNat)) :
    w.map op = .ok ⟨w.domain, Vector.ofFn fun i : Fin 32 =>
      BitVec.ofNat 8 (g w.values[i].toNat)⟩ := by
  unfold Wire.map
  rw [ofFnM_ok _ (fun i : Fin 32 => BitVec.ofNat 8 (g w.values[i].toNat))]
  · rfl
  · intro i; rw [h i]; rfl

theorem mapWith_ok (dbg : Bool) (a b : Wire) (op : Nat → Nat → R Nat) (g : Nat → Nat → Nat)
    (hd : a.domain = b.domain)
    (h : ∀ i : Fin 32, op a.values[i].toNat b.values[i].toNat
      = .ok (g a.values[i].toNat b.values[i].toNat)) :
    a.mapWith dbg b op = .ok ⟨a.domain, Vector.ofFn fun i : Fin 32 =>
      BitVec.ofNat 8 (g a.values[i].toNat b.values[i].toNat)⟩ := by
  unfold Wire.mapWith
  rw [ofFnM_ok _ (fun i : Fin 32 => BitVec.ofNat 8 (g a.values[i].toNat b.values[i].toNat)),
    debugAssertR_ok (by simpa using hd)]
  · rfl
  · intro i; rw [h i]; rfl

theorem mapAsU16_ok (dbg : Bool) (w : Wire) (op : Nat → R Nat) (g : Nat → Nat)
    (h : ∀ i : Fin 16, op (toU16 w.values)[i].toNat = .ok (g (toU16 w.values)[i].toNat))
    (hlt : ∀ i : Fin 16, g (toU16 w.values)[i].toNat < 65536 ∧
      g (toU16 w.values)[i].toNat < w.dom) :
    w.mapAsU16 dbg op = .ok ⟨w.domain, ofU16 (Vector.ofFn fun i : Fin 16 =>
      BitVec.ofNat 16 (g (toU16 w.values)[i].toNat))⟩ := by
  unfold Wire.mapAsU16
  dsimp only
  rw [ofFnM_ok _ (fun i : Fin 16 => BitVec.ofNat 16 (g (toU16 w.values)[i].toNat))]
  · simp only [Except.ok_bind]
    rw [debugAssertR_ok]
    · rfl
    · rw [Vector.all_eq_true]
      intro i hi
      have := hlt ⟨i, hi⟩
      simp only [Vector.getElem_ofFn, BitVec.toNat_ofNat, decide_eq_true_eq]
      rw [Nat.mod_eq_of_lt this.1]; exact this.2
  · intro i; rw [h i]; rfl

theorem mapWithAsU16_ok (dbg : Bool) (a b : Wire) (op : Nat → Nat → R Nat) (g : Nat → Nat → Nat)
    (hd : a.domain = b.domain)
    (h : ∀ i : Fin 16, op (toU16 a.values)[i].toNat (toU16 b.values)[i].toNat
      = .ok (g (toU16 a.values)[i].toNat (toU16 b.values)[i].toNat))
    (hlt : ∀ i : Fin 16, g (toU16 a.values)[i].toNat (toU16 b.values)[i].toNat < 65536 ∧
      g (toU16 a.values)[i].toNat (toU16 b.values)[i].toNat < a.dom) :
    a.mapWithAsU16 dbg b op = .ok ⟨a.domain, ofU16 (Vector.ofFn fun i : Fin 16 =>
      BitVec.ofNat 16 (g (toU16 a.values)[i].toNat (toU16 b.values)[i].toNat))⟩ := by
  unfold Wire.mapWithAsU16
  dsimp only
  rw [ofFnM_ok _ (fun i : Fin 16 =>
      BitVec.ofNat 16 (g (toU16 a.values)[i].toNat (toU16 b.values)[i].toNat)),
    debugAssertR_ok (by simpa using hd)]
  · simp only [Except.ok_bind]
    rw [debugAssertR_ok]
    · rfl
    · rw [Vector.all_eq_true]
      intro i hi
      have := hlt ⟨i, hi⟩
      simp only [Vector.getElem_ofFn, BitVec.toNat_ofNat, decide_eq_true_eq]
      rw [Nat.mod_eq_of_lt this.1]; exact this.2
  · intro i; rw [h i]; rfl

/-! ### Digits -/

theorem dg_bin (v : WireBytes) (i : Nat) :
    digit ⟨.binary, v⟩ i = if h : i < 256 then (v[i / 8].getLsbD (i % 8)).toNat else 0 := by
  by_cases h : i < 256
  · have : i / 8 < 32 := by omega
    simp [digit, this, h]
  · have : ¬ i / 8 < 32 := by omega
    simp [digit, h, this]

theorem dg_u8 (m : Nat) (v : WireBytes) (i : Nat) :
    digit ⟨.u8 m, v⟩ i = if h : i < 32 then v[i].toNat else 0 := by
  by_cases h : i < 32 <;> simp [digit, h]

theorem dg_u8max (v : WireBytes) (i : Nat) :
    digit ⟨.u8max, v⟩ i = if h : i < 32 then v[i].toNat else 0 := by
  by_cases h : i < 32 <;> simp [digit, h]

theorem dg_u16 (m : Nat) (v : WireBytes) (i : Nat) :
    digit ⟨.u16 m, v⟩ i = if h : i < 16 then (toU16 v)[i].toNat else 0 := by
  by_cases h : i < 16
  · have h1 : 2 * i < 32 := by omega
    have h2 : 2 * i + 1 < 32 := by omega
    rw [dif_pos h, toU16_toNat _ _ h]; simp [digit, h1, h2]
  · have h1 : ¬ 2 * i < 32 := by omega
    have h2 : ¬ 2 * i + 1 < 32 := by omega
    simp [digit, h, h1, h2]

theorem dg_u16max (v : WireBytes) (i : Nat) :
    digit ⟨.u16max, v⟩ i = if h : i < 16 then (toU16 v)[i].toNat else 0 := by
  by_cases h : i < 16
  · have h1 : 2 * i < 32 := by omega
    have h2 : 2 * i + 1 < 32 := by omega
    rw [dif_pos h, toU16_toNat _ _ h]; simp [digit, h1, h2]
  · have h1 : ¬ 2 * i < 32 := by omega
    have h2 : ¬ 2 * i + 1 < 32 := by omega
    simp [digit, h, h1, h2]

/-- Two wires with the same domain constructor and digits are equal. -/
theorem wire_ext {a b : Wire} (hd : a.domain = b.domain) (h : ∀ i, digit a i = digit b i) :
    a = b := by
  obtain ⟨da, va⟩ := a
  obtain ⟨db, vb⟩ := b
  simp only at hd
  subst hd
  congr 1
  cases da with
  | binary =>
    apply Vector.ext; intro j hj
    apply BitVec.eq_of_getLsbD_eq
    intro k hk
    have := h (8 * j + k)
    have e0 : 8 * j + k < 256 := by omega
    have e1 : (8 * j + k) / 8 = j := by omega
    have e2 : (8 * j + k) % 8 = k := by omega
    simp only [dg_bin, e0, e1, e2, dif_pos] at this
    revert this
    cases va[j].getLsbD k <;> cases vb[j].getLsbD k <;> simp
  | u8 m =>
    apply Vector.ext; intro j hj
    apply BitVec.eq_of_toNat_eq
    have := h j
    simpa only [dg_u8, hj, dif_pos] using this
  | u8max =>
    apply Vector.ext; intro j hj
    apply BitVec.eq_of_toNat_eq
    have := h j
    simpa only [dg_u8max, hj, dif_pos] using this
  | u16 m =>
    have e : toU16 va = toU16 vb := by
      apply Vector.ext; intro j hj
      apply BitVec.eq_of_toNat_eq
      have := h j
      simpa only [dg_u16, hj, dif_pos] using this
    rw [← ofU16_toU16 va, e, ofU16_toU16]
  | u16max =>
    have e : toU16 va = toU16 vb := by
      apply Vector.ext; intro j hj
      apply BitVec.eq_of_toNat_eq
      have := h j
      simpa only [dg_u16max, hj, dif_pos] using this
    rw [← ofU16_toU16 va, e, ofU16_toU16]

theorem exists_of {P : Wire → Prop} {x : R Wire} {c : Wire} (h : x = .ok c) (hp : P c) :
    ∃ c, x = .ok c ∧ P c := ⟨c, h, hp⟩

theorem new_cases {m : Nat} {d : Domain} (h : Domain.new m = .ok d) :
    (m = 0 ∧ d = .u16max) ∨ (m = 2 ∧ d = .binary) ∨ (0 < m ∧ m ≠ 2 ∧ m < 255 ∧ d = .u8 m) ∨
    (m = 256 ∧ d = .u8max) ∨ (255 ≤ m ∧ m ≠ 256 ∧ m < 65535 ∧ d = .u16 m) := by
  unfold Domain.new at h
  by_cases h0 : m = 0
  · rw [if_pos h0] at h; cases h; exact .inl ⟨h0, rfl⟩
  rw [if_neg h0] at h
  by_cases h2 : m = 2
  · rw [if_pos h2] at h; cases h; exact .inr (.inl ⟨h2, rfl⟩)
  rw [if_neg h2] at h
  by_cases h3 : m < 255
  · rw [if_pos h3] at h; cases h; exact .inr (.inr (.inl ⟨by omega, h2, h3, rfl⟩))
  rw [if_neg h3] at h
  by_cases h4 : m = 256
  · rw [if_pos h4] at h; cases h; exact .inr (.inr (.inr (.inl ⟨h4, rfl⟩)))
  rw [if_neg h4] at h
  by_cases h5 : m < 65535
  · rw [if_pos h5] at h; cases h; exact .inr (.inr (.inr (.inr ⟨by omega, h4, h5, rfl⟩)))
  · rw [if_neg h5] at h; cases h

theorem good_new {m : Nat} (hm : GoodDomain m) : ∃ d, Domain.new m = .ok d := by
  unfold GoodDomain at hm
  unfold Domain.new
  split; exact ⟨_, rfl⟩
  split; exact ⟨_, rfl⟩
  split; exact ⟨_, rfl⟩
  split; exact ⟨_, rfl⟩
  split; exact ⟨_, rfl⟩
  omega

theorem good_cases {m : Nat} {d : Domain} (hm : GoodDomain m) (h : Domain.new m = .ok d) :
    (m = 2 ∧ d = .binary) ∨ (0 < m ∧ m ≤ 128 ∧ m ≠ 2 ∧ d = .u8 m) ∨
    (m = 256 ∧ d = .u8max) ∨ (255 ≤ m ∧ m ≤ 32768 ∧ m ≠ 256 ∧ d = .u16 m) := by
  unfold GoodDomain at hm
  rcases new_cases h with h | h | h | h | h
  · omega
  · exact .inl h
  · exact .inr (.inl ⟨h.1, by omega, h.2.1, h.2.2.2⟩)
  · exact .inr (.inr (.inl h))
  · exact .inr (.inr (.inr ⟨h.1, by omega, h.2.1, h.2.2.2⟩))

theorem pos_cases {m : Nat} {d : Domain} (hm : 0 < m) (h : Domain.new m = .ok d) :
    (m = 2 ∧ d = .binary) ∨ (0 < m ∧ m ≤ 254 ∧ m ≠ 2 ∧ d = .u8 m) ∨
    (m = 256 ∧ d = .u8max) ∨ (255 ≤ m ∧ m ≤ 65534 ∧ m ≠ 256 ∧ d = .u16 m) := by
  rcases new_cases h with h | h | h | h | h
  · omega
  · exact .inl h
  · exact .inr (.inl ⟨h.1, by omega, h.2.1, h.2.2.2⟩)
  · exact .inr (.inr (.inl h))
  · exact .inr (.inr (.inr ⟨h.1, by omega, h.2.1, h.2.2.2⟩))

theorem domEqG {m : Nat} {w : Wire} (hm : 0 < m) (h : Domain.new m = .ok w.domain) :
    w.dom = m := by
  rcases new_cases h with ⟨h0, h⟩ | ⟨h0, h⟩ | ⟨h0, h1, h2, h⟩ | ⟨h0, h⟩ | ⟨h0, h1, h2, h⟩ <;>
    simp [Wire.dom, Domain.num, h] <;> omega

theorem good_pos {m : Nat} (hm : GoodDomain m) : 0 < m := by unfold GoodDomain at hm; omega

theorem IsLabel.domEq {m : Nat} {w : Wire} (hm : GoodDomain m) (h : Domain.new m = .ok w.domain) :
    w.dom = m := by
  unfold GoodDomain at hm
  rcases new_cases h with ⟨h0, h⟩ | ⟨h0, h⟩ | ⟨h0, h1, h2, h⟩ | ⟨h0, h⟩ | ⟨h0, h1, h2, h⟩ <;>
    simp [Wire.dom, Domain.num, h] <;> omega

theorem bool_xor_mod (a b : Bool) : (a ^^ b).toNat = (a.toNat + b.toNat) % 2 := by
  cases a <;> cases b <;> rfl

theorem ofNat_toNat_xor (a b : Byte) : BitVec.ofNat 8 (a.toNat ^^^ b.toNat) = a ^^^ b := by
  apply BitVec.eq_of_toNat_eq
  rw [BitVec.toNat_ofNat, BitVec.toNat_xor, Nat.mod_eq_of_lt]
  exact Nat.xor_lt_two_pow a.isLt b.isLt

theorem remR_ok {m : Nat} (hm : 0 < m) (x : Nat) : remR x m = .ok (x % m) := by
  simp [remR]; omega

theorem subR_ok (dbg : Bool) {W a b : Nat} (h : b ≤ a) : subR dbg W a b = .ok (a - b) := by
  simp [subR, h]

theorem addR_ok (dbg : Bool) {W a b : Nat} (h : a + b < W) : addR dbg W a b = .ok (a + b) := by
  simp [addR, h]

theorem mulR_ok (dbg : Bool) {W a b : Nat} (h : a * b < W) : mulR dbg W a b = .ok (a * b) := by
  simp [mulR, h]

/-- Adding labels adds components mod the domain. -/
theorem add_ok (dbg : Bool) {m : Nat} (hm : GoodDomain m) {a b : Wire} (ha : IsLabel m a)
    (hb : IsLabel m b) :
    ∃ c, Wire.add dbg a b = .ok c ∧ IsLabel m c ∧
      ∀ i, digit c i = (digit a i + digit b i) % m := by
  have hm0 := good_pos hm
  suffices h : ∃ c, Wire.add dbg a b = .ok c ∧ c.domain = a.domain ∧
      ∀ i, digit c i = (digit a i + digit b i) % m by
    obtain ⟨c, h1, h2, h3⟩ := h
    refine ⟨c, h1, ⟨by rw [h2]; exact ha.dom, fun i => ?_⟩, h3⟩
    rw [h3]; exact Nat.mod_lt _ hm0
  have hdd : a.domain = b.domain := by
    have := ha.dom.symm.trans hb.dom; injection this
  have la := ha.lt
  have lb := hb.lt
  have hda := ha.dom
  clear ha hb
  obtain ⟨d, va⟩ := a
  obtain ⟨d', vb⟩ := b
  simp only at hdd hda
  subst hdd
  rcases good_cases hm hda with ⟨rfl, rfl⟩ | ⟨h0, h1, h2, rfl⟩ | ⟨rfl, rfl⟩ | ⟨h0, h1, h2, rfl⟩
  · simp only [Wire.add]
    refine exists_of (mapWith_ok dbg ⟨.binary, va⟩ ⟨.binary, vb⟩ _ (fun x y => x ^^^ y) rfl (fun _ => rfl)) ⟨rfl, fun i => ?_⟩
    simp only [dg_bin, Vector.getElem_ofFn, Fin.getElem_fin, ofNat_toNat_xor]
    split
    · rw [BitVec.getLsbD_xor, bool_xor_mod]
    · rfl
  · simp only [Wire.add]
    refine exists_of (mapWith_ok dbg ⟨.u8 m, va⟩ ⟨.u8 m, vb⟩ _ (fun x y => (x + y) % 256 % m) rfl
      (fun _ => remR_ok hm0 _)) ⟨rfl, fun i => ?_⟩
    have l1 := la i
    have l2 := lb i
    simp only [dg_u8, Vector.getElem_ofFn, Fin.getElem_fin] at l1 l2 ⊢
    split
    · rename_i h
      simp only [h, dif_pos] at l1 l2
      rw [Nat.mod_eq_of_lt (a := _ + _) (by omega), BitVec.toNat_ofNat]
      exact Nat.mod_eq_of_lt (lt_of_lt_of_le (Nat.mod_lt _ hm0) (by omega))
    · simp
  · simp only [Wire.add]
    refine exists_of (mapWith_ok dbg ⟨.u8max, va⟩ ⟨.u8max, vb⟩ _ (fun x y => (x + y) % 256) rfl (fun _ => rfl))
      ⟨rfl, fun i => ?_⟩
    simp only [dg_u8max, Vector.getElem_ofFn, Fin.getElem_fin]
    split
    · simp
    · rfl
  · simp only [Wire.add]
    refine exists_of (mapWithAsU16_ok dbg ⟨.u16 m, va⟩ ⟨.u16 m, vb⟩ _ (fun x y => (x + y) % 65536 % m) rfl
      (fun _ => remR_ok hm0 _) (fun i => ?_)) ⟨rfl, fun i => ?_⟩
    · have := Nat.mod_lt (((toU16 va)[i].toNat + (toU16 vb)[i].toNat) % 65536) hm0
      simp only [Wire.dom, Domain.num]; omega
    have l1 := la i
    have l2 := lb i
    simp only [dg_u16, toU16_ofU16, Vector.getElem_ofFn, Fin.getElem_fin] at l1 l2 ⊢
    split
    · rename_i h
      simp only [h, dif_pos] at l1 l2
      rw [Nat.mod_eq_of_lt (a := _ + _) (by omega), BitVec.toNat_ofNat]
      exact Nat.mod_eq_of_lt (lt_of_lt_of_le (Nat.mod_lt _ hm0) (by omega))
    · simp

/-- Subtracting labels subtracts components mod the domain. -/
theorem sub_ok (dbg : Bool) {m : Nat} (hm : GoodDomain m) {a b : Wire} (ha : IsLabel m a)
    (hb : IsLabel m b) :
    ∃ c, Wire.sub dbg a b = .ok c ∧ IsLabel m c ∧
      ∀ i, digit c i = (digit a i + (m - digit b i)) % m := by
  have hm0 := good_pos hm
  suffices h : ∃ c, Wire.sub dbg a b = .ok c ∧ c.domain = a.domain ∧
      ∀ i, digit c i = (digit a i + (m - digit b i)) % m by
    obtain ⟨c, h1, h2, h3⟩ := h
    refine ⟨c, h1, ⟨by rw [h2]; exact ha.dom, fun i => ?_⟩, h3⟩
    rw [h3]; exact Nat.mod_lt _ hm0
  have hdd : a.domain = b.domain := by
    have := ha.dom.symm.trans hb.dom; injection this
  have la := ha.lt
  have lb := hb.lt
  have hda := ha.dom
  clear ha hb
  obtain ⟨d, va⟩ := a
  obtain ⟨d', vb⟩ := b
  simp only at hdd hda
  subst hdd
  rcases good_cases hm hda with ⟨rfl, rfl⟩ | ⟨h0, h1, h2, rfl⟩ | ⟨rfl, rfl⟩ | ⟨h0, h1, h2, rfl⟩
  · simp only [Wire.sub]
    refine exists_of (mapWith_ok dbg ⟨.binary, va⟩ ⟨.binary, vb⟩ _ (fun x y => x ^^^ y) rfl (fun _ => rfl)) ⟨rfl, fun i => ?_⟩
    simp only [dg_bin, Vector.getElem_ofFn, Fin.getElem_fin, ofNat_toNat_xor]
    split
    · rw [BitVec.getLsbD_xor, bool_xor_mod]
      generalize va[i/8].getLsbD (i % 8) = u
      generalize vb[i/8].getLsbD (i % 8) = v
      cases u <;> cases v <;> rfl
    · rfl
  · simp only [Wire.sub]
    refine exists_of (mapWith_ok dbg ⟨.u8 m, va⟩ ⟨.u8 m, vb⟩ _ (fun x y => (x + (m - y)) % m) rfl
      (fun i => ?_)) ⟨rfl, fun i => ?_⟩
    · have l1 := la i
      have l2 := lb i
      simp only [dg_u8, i.isLt, dif_pos] at l1 l2
      simp only [Fin.getElem_fin]
      rw [subR_ok dbg (by omega), Except.ok_bind, addR_ok dbg (by omega), Except.ok_bind,
        remR_ok hm0]
    · simp only [dg_u8, Vector.getElem_ofFn, Fin.getElem_fin]
      split
      · rw [BitVec.toNat_ofNat]
        exact Nat.mod_eq_of_lt (lt_of_lt_of_le (Nat.mod_lt _ hm0) (by omega))
      · simp
  · simp only [Wire.sub]
    refine exists_of (mapWith_ok dbg ⟨.u8max, va⟩ ⟨.u8max, vb⟩ _ (fun x y => (x + 256 - y) % 256) rfl (fun _ => rfl))
      ⟨rfl, fun i => ?_⟩
    simp only [dg_u8max, Vector.getElem_ofFn, Fin.getElem_fin]
    split
    · have := (vb[i]).isLt
      rw [BitVec.toNat_ofNat]; omega
    · rfl
  · simp only [Wire.sub]
    refine exists_of (mapWithAsU16_ok dbg ⟨.u16 m, va⟩ ⟨.u16 m, vb⟩ _ (fun x y => (x + (m - y)) % m) rfl
      (fun i => ?_) (fun i => ?_)) ⟨rfl, fun i => ?_⟩
    · have l1 := la i
      have l2 := lb i
      simp only [dg_u16, i.isLt, dif_pos] at l1 l2
      simp only [Fin.getElem_fin]
      rw [subR_ok dbg (by omega), Except.ok_bind, addR_ok dbg (by omega), Except.ok_bind,
        remR_ok hm0]
    · have := Nat.mod_lt ((toU16 va)[i].toNat + (m - (toU16 vb)[i].toNat)) hm0
      simp only [Wire.dom, Domain.num]; omega
    · simp only [dg_u16, toU16_ofU16, Vector.getElem_ofFn, Fin.getElem_fin]
      split
      · rw [BitVec.toNat_ofNat]
        exact Nat.mod_eq_of_lt (lt_of_lt_of_le (Nat.mod_lt _ hm0) (by omega))
      · simp

/-- Multiplying by a scalar below the domain multiplies components mod the domain. -/
theorem mul_okG (dbg : Bool) {m : Nat} {a : Wire}
    (ha : Domain.new m = .ok a.domain) {x : Nat} (hx : x < m) :
    ∃ c, Wire.mul dbg a x = .ok c ∧ IsLabel m c ∧ ∀ i, digit c i = (x * digit a i) % m := by
  have hm0 : 0 < m := by omega
  suffices h : ∃ c, Wire.mul dbg a x = .ok c ∧ c.domain = a.domain ∧
      ∀ i, digit c i = (x * digit a i) % m by
    obtain ⟨c, h1, h2, h3⟩ := h
    refine ⟨c, h1, ⟨by rw [h2]; exact ha, fun i => ?_⟩, h3⟩
    rw [h3]; exact Nat.mod_lt _ hm0
  have hda : debugAssertR dbg (x < a.dom) = .ok () :=
    debugAssertR_ok (by rw [domEqG hm0 ha]; simpa using hx)
  unfold Wire.mul
  simp only [hda, Except.ok_bind]
  obtain ⟨d, v⟩ := a
  simp only at ha
  rcases pos_cases hm0 ha with ⟨rfl, rfl⟩ | ⟨h0, h1, h2, rfl⟩ | ⟨rfl, rfl⟩ | ⟨h0, h1, h2, rfl⟩
  · refine exists_of (map_ok ⟨.binary, v⟩ _ (fun b => if x = 0 then 0 else b) (fun _ => rfl))
      ⟨rfl, fun i => ?_⟩
    simp only [dg_bin, Vector.getElem_ofFn, Fin.getElem_fin]
    split
    · have : x = 0 ∨ x = 1 := by omega
      rcases this with rfl | rfl
      · simp
      · simp only [Nat.one_ne_zero, if_false, BitVec.ofNat_toNat, BitVec.setWidth_eq]
        cases (v[i/8].getLsbD (i % 8)) <;> rfl
    · simp
  · refine exists_of (map_ok ⟨.u8 m, v⟩ _ (fun y => (y * x) % m) (fun i => ?_)) ⟨rfl, fun i => ?_⟩
    · have l1 : v[i].toNat * x < 65536 := by
        have h2 := v[i].isLt
        calc _ ≤ 255 * 254 := Nat.mul_le_mul (by omega) (by omega)
          _ < _ := by omega
      rw [mulR_ok dbg l1, Except.ok_bind, remR_ok hm0]
    · simp only [dg_u8, Vector.getElem_ofFn, Fin.getElem_fin]
      split
      · rw [BitVec.toNat_ofNat, Nat.mul_comm]
        exact Nat.mod_eq_of_lt (lt_of_lt_of_le (Nat.mod_lt _ hm0) (by omega))
      · simp
  · refine exists_of (map_ok ⟨.u8max, v⟩ _ (fun y => x * y % 65536) (fun _ => rfl)) ⟨rfl, fun i => ?_⟩
    simp only [dg_u8max, Vector.getElem_ofFn, Fin.getElem_fin]
    split
    · rw [BitVec.toNat_ofNat]; omega
    · simp
  · refine exists_of (mapAsU16_ok dbg ⟨.u16 m, v⟩ _ (fun y => (y * x) % m) (fun i => ?_) (fun i => ?_))
      ⟨rfl, fun i => ?_⟩
    · have l1 : (toU16 v)[i].toNat * x < 4294967296 := by
        have h2 := (toU16 v)[i].isLt
        calc _ ≤ 65535 * 65534 := Nat.mul_le_mul (by omega) (by omega)
          _ < _ := by omega
      rw [mulR_ok dbg l1, Except.ok_bind, remR_ok hm0]
    · have := Nat.mod_lt ((toU16 v)[i].toNat * x) hm0
      simp only [Wire.dom, Domain.num]; omega
    · simp only [dg_u16, toU16_ofU16, Vector.getElem_ofFn, Fin.getElem_fin]
      split
      · rw [BitVec.toNat_ofNat, Nat.mul_comm]
        exact Nat.mod_eq_of_lt (lt_of_lt_of_le (Nat.mod_lt _ hm0) (by omega))
      · simp

theorem mul_ok (dbg : Bool) {m : Nat} (_ : GoodDomain m) {a : Wire}
    (ha : Domain.new m = .ok a.domain) {x : Nat} (hx : x < m) :
    ∃ c, Wire.mul dbg a x = .ok c ∧ IsLabel m c ∧ ∀ i, digit c i = (x * digit a i) % m :=
  mul_okG dbg ha hx

/-- Every wire with the binary constructor is a label. -/
theorem isLabel_two (v : WireBytes) : IsLabel 2 ⟨.binary, v⟩ := by
  refine ⟨rfl, fun i => ?_⟩
  rw [dg_bin]
  split
  · cases (v[i/8].getLsbD (i % 8)) <;> decide
  · decide

theorem isLabel_256 (v : WireBytes) : IsLabel 256 ⟨.u8max, v⟩ := by
  refine ⟨rfl, fun i => ?_⟩
  rw [dg_u8max]
  split
  · exact BitVec.isLt _
  · decide

/-- A byte-valued result whose digits are reduced is a label. -/
theorem isLabel_mkBytes {m : Nat} (hm : 0 < m) (hm2 : m ≠ 2) (hm3 : m < 255) (g : Fin 32 → Nat)
    (h : ∀ i, g i < m) :
    IsLabel m ⟨.u8 m, Vector.ofFn fun i : Fin 32 => BitVec.ofNat 8 (g i)⟩ := by
  refine ⟨by simp [Domain.new, hm2, hm3]; omega, fun i => ?_⟩
  simp only [dg_u8, Vector.getElem_ofFn]
  split
  · rw [BitVec.toNat_ofNat]; exact lt_of_le_of_lt (Nat.mod_le _ _) (h _)
  · exact hm

theorem isLabel_mkWords {m : Nat} (hm : 255 ≤ m) (hm2 : m ≠ 256) (hm3 : m < 65535)
    (g : Fin 16 → Nat) (h : ∀ i, g i < m) :
    IsLabel m ⟨.u16 m, ofU16 (Vector.ofFn fun i : Fin 16 => BitVec.ofNat 16 (g i))⟩ := by
  refine ⟨?_, fun i => ?_⟩
  · unfold Domain.new
    repeat (first | rw [if_neg (by omega)] | rw [if_pos (by omega)])
  simp only [dg_u16, toU16_ofU16, Vector.getElem_ofFn]
  split
  · rw [BitVec.toNat_ofNat]; exact lt_of_le_of_lt (Nat.mod_le _ _) (h _)
  · omega

/-- Negation is defined and gives a label; outside the binary domain it negates components.
(For binary labels the code complements all bits instead.) -/
theorem neg_okG (dbg : Bool) {m : Nat} (hm0 : 0 < m) {a : Wire} (ha : IsLabel m a) :
    ∃ c, Wire.neg dbg a = .ok c ∧ IsLabel m c ∧
      (m ≠ 2 → ∀ i, digit c i = (m - digit a i) % m) := by
  have la := ha.lt
  have hda := ha.dom
  clear ha
  obtain ⟨d, v⟩ := a
  simp only at hda
  rcases pos_cases hm0 hda with ⟨rfl, rfl⟩ | ⟨h0, h1, h2, rfl⟩ | ⟨rfl, rfl⟩ | ⟨h0, h1, h2, rfl⟩
  · simp only [Wire.neg]
    exact exists_of (map_ok ⟨.binary, v⟩ _ (fun x => 0xFF ^^^ x) (fun _ => rfl))
      ⟨isLabel_two _, fun h => absurd rfl h⟩
  · simp only [Wire.neg]
    refine exists_of (map_ok ⟨.u8 m, v⟩ _ (fun y => (m - y) % m) (fun i => ?_))
      ⟨isLabel_mkBytes hm0 h2 (by omega) _ (fun i => Nat.mod_lt _ hm0), fun _ i => ?_⟩
    · have l1 := la i
      simp only [dg_u8, i.isLt, dif_pos] at l1
      simp only [Fin.getElem_fin]
      rw [subR_ok dbg (by omega), Except.ok_bind, remR_ok hm0]
    · simp only [dg_u8, Vector.getElem_ofFn, Fin.getElem_fin]
      split
      · rw [BitVec.toNat_ofNat]
        exact Nat.mod_eq_of_lt (lt_of_lt_of_le (Nat.mod_lt _ hm0) (by omega))
      · simp
  · simp only [Wire.neg]
    refine exists_of (map_ok ⟨.u8max, v⟩ _ (fun x => (256 - x) % 256) (fun _ => rfl))
      ⟨isLabel_256 _, fun _ i => ?_⟩
    simp only [dg_u8max, Vector.getElem_ofFn, Fin.getElem_fin]
    split
    · simp
    · rfl
  · simp only [Wire.neg]
    refine exists_of (mapAsU16_ok dbg ⟨.u16 m, v⟩ _ (fun y => (m - y) % m) (fun i => ?_) (fun i => ?_))
      ⟨isLabel_mkWords h0 h2 (by omega) _ (fun i => Nat.mod_lt _ hm0), fun _ i => ?_⟩
    · have l1 := la i
      simp only [dg_u16, i.isLt, dif_pos] at l1
      simp only [Fin.getElem_fin]
      rw [subR_ok dbg (by omega), Except.ok_bind, remR_ok hm0]
    · have := Nat.mod_lt (m - (toU16 v)[i].toNat) hm0
      simp only [Wire.dom, Domain.num]; omega
    · simp only [dg_u16, toU16_ofU16, Vector.getElem_ofFn, Fin.getElem_fin]
      split
      · rw [BitVec.toNat_ofNat]
        exact Nat.mod_eq_of_lt (lt_of_lt_of_le (Nat.mod_lt _ hm0) (by omega))
      · simp

theorem neg_ok (dbg : Bool) {m : Nat} (hm : GoodDomain m) {a : Wire} (ha : IsLabel m a) :
    ∃ c, Wire.neg dbg a = .ok c ∧ IsLabel m c ∧
      (m ≠ 2 → ∀ i, digit c i = (m - digit a i) % m) :=
  neg_okG dbg (good_pos hm) ha

theorem fromArray_ok (dbg : Bool) {m : Nat} (hm : GoodDomain m) {d : Domain}
    (hd : Domain.new m = .ok d) (v : WireBytes) :
    ∃ c, Wire.fromArray dbg v d = .ok c ∧ IsLabel m c := by
  have hm0 := good_pos hm
  rcases good_cases hm hd with ⟨rfl, rfl⟩ | ⟨h0, h1, h2, rfl⟩ | ⟨rfl, rfl⟩ | ⟨h0, h1, h2, rfl⟩
  · exact ⟨_, rfl, isLabel_two _⟩
  · simp only [Wire.fromArray]
    exact exists_of (map_ok ⟨.u8 m, v⟩ _ (fun y => y % m) (fun i => remR_ok hm0 _))
      (isLabel_mkBytes hm0 h2 (by omega) _ (fun i => Nat.mod_lt _ hm0))
  · exact ⟨_, rfl, isLabel_256 _⟩
  · simp only [Wire.fromArray]
    refine exists_of (mapAsU16_ok dbg ⟨.u16 m, v⟩ _ (fun y => y % m) (fun i => remR_ok hm0 _) (fun i => ?_))
      (isLabel_mkWords h0 h2 (by omega) _ (fun i => Nat.mod_lt _ hm0))
    have := Nat.mod_lt ((toU16 v)[i].toNat) hm0
    simp only [Wire.dom, Domain.num]; omega

theorem wireNew_ok {m : Nat} (hm : GoodDomain m) (raw : WireBytes) :
    ∃ c, Wire.new m raw = .ok c ∧ IsLabel m c := by
  have hm0 := good_pos hm
  obtain ⟨d, hd⟩ := good_new hm
  unfold Wire.new
  rw [hd]
  simp only [Except.ok_bind]
  rcases good_cases hm hd with ⟨rfl, rfl⟩ | ⟨h0, h1, h2, rfl⟩ | ⟨rfl, rfl⟩ | ⟨h0, h1, h2, rfl⟩
  · exact ⟨_, rfl, isLabel_two _⟩
  · exact ⟨_, rfl, isLabel_mkBytes hm0 h2 (by omega) _ (fun i => Nat.mod_lt _ hm0)⟩
  · exact ⟨_, rfl, isLabel_256 _⟩
  · exact ⟨_, rfl, isLabel_mkWords h0 h2 (by omega) _ (fun i => Nat.mod_lt _ hm0)⟩

/-- A delta: right constructor, colour digit 1. -/
structure IsDelta (m : Nat) (w : Wire) : Prop where
  dom : Domain.new m = .ok w.domain
  one : digit w (colorPos w.domain) = 1

theorem wireDelta_ok {m : Nat} (hm : GoodDomain m) (raw : WireBytes) :
    ∃ c, Wire.delta m raw = .ok c ∧ IsDelta m c := by
  obtain ⟨w, hw, hl⟩ := wireNew_ok hm raw
  unfold Wire.delta
  rw [hw]
  simp only [Except.ok_bind]
  have hdw := hl.dom
  obtain ⟨d, v⟩ := w
  simp only at hdw
  rcases good_cases hm hdw with ⟨rfl, rfl⟩ | ⟨h0, h1, h2, rfl⟩ | ⟨rfl, rfl⟩ | ⟨h0, h1, h2, rfl⟩
  · exact ⟨_, rfl, hdw, by simp [dg_bin, colorPos]⟩
  · exact ⟨_, rfl, hdw, by simp [dg_u8, colorPos]⟩
  · exact ⟨_, rfl, hdw, by simp [dg_u8max, colorPos]⟩
  · exact ⟨_, rfl, hdw, by simp [dg_u16, colorPos, toU16_ofU16]⟩

theorem color_eq (w : Wire) : w.color = digit w (colorPos w.domain) := by
  obtain ⟨d, v⟩ := w
  cases d with
  | binary =>
    simp only [dg_bin, Wire.color, colorPos]
    have e : (248 : Nat) < 256 := by decide
    simp only [e, dif_pos]
    generalize hv : v[31] = x
    simp [BitVec.getLsbD, Nat.testBit, Nat.and_one_is_mod]
    rcases Nat.mod_two_eq_zero_or_one x.toNat with h | h <;> simp [h]
  | u8 m => simp [dg_u8, Wire.color, colorPos]
  | u8max => simp [dg_u8max, Wire.color, colorPos]
  | u16 m => simp [dg_u16, Wire.color, colorPos]
  | u16max => simp [dg_u16max, Wire.color, colorPos]

/-! ### Labels as vectors over `ZMod m` -/

/-- The components of a wire as residues mod `m`. -/
def zd (m : Nat) (w : Wire) (i : Nat) : ZMod m := (digit w i : ZMod m)

theorem label_ext {m : Nat} {a b : Wire} (ha : IsLabel m a) (hb : IsLabel m b)
    (h : ∀ i, zd m a i = zd m b i) : a = b := by
  apply wire_ext
  · have := ha.dom.symm.trans hb.dom; injection this
  · intro i
    have := h i
    unfold zd at this
    rw [ZMod.natCast_eq_natCast_iff'] at this
    rwa [Nat.mod_eq_of_lt (ha.lt i), Nat.mod_eq_of_lt (hb.lt i)] at this

theorem addZ (dbg : Bool) {m : Nat} (hm : GoodDomain m) {a b : Wire} (ha : IsLabel m a)
    (hb : IsLabel m b) :
    ∃ c, Wire.add dbg a b = .ok c ∧ IsLabel m c ∧ ∀ i, zd m c i = zd m a i + zd m b i := by
  obtain ⟨c, h1, h2, h3⟩ := add_ok dbg hm ha hb
  refine ⟨c, h1, h2, fun i => ?_⟩
  unfold zd; rw [h3]; simp

theorem subZ (dbg : Bool) {m : Nat} (hm : GoodDomain m) {a b : Wire} (ha : IsLabel m a)
    (hb : IsLabel m b) :
    ∃ c, Wire.sub dbg a b = .ok c ∧ IsLabel m c ∧ ∀ i, zd m c i = zd m a i - zd m b i := by
  obtain ⟨c, h1, h2, h3⟩ := sub_ok dbg hm ha hb
  refine ⟨c, h1, h2, fun i => ?_⟩
  unfold zd; rw [h3]
  have := (hb.lt i).le
  rw [ZMod.natCast_mod, Nat.cast_add, Nat.cast_sub this]
  simp [sub_eq_add_neg]

theorem mulZ (dbg : Bool) {m : Nat} (hm : GoodDomain m) {a : Wire}
    (ha : Domain.new m = .ok a.domain) {x : Nat} (hx : x < m) :
    ∃ c, Wire.mul dbg a x = .ok c ∧ IsLabel m c ∧ ∀ i, zd m c i = x * zd m a i := by
  obtain ⟨c, h1, h2, h3⟩ := mul_ok dbg hm ha hx
  refine ⟨c, h1, h2, fun i => ?_⟩
  unfold zd; rw [h3]; simp

end FP
