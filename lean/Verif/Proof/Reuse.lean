import Verif.Spec.Reuse
import Verif.Proof.Forge
import Mathlib.GroupTheory.SpecificGroups.Cyclic
/-
Labels of several inputs under one encoding key.
-/
namespace FP
open Spec

theorem mapM_of_getElem {α β} {f : α → R β} {l : List α} : ∀ {bs : List β}, l.length = bs.length →
    (∀ (j : Nat) a b, l[j]? = some a → bs[j]? = some b → f a = .ok b) → l.mapM f = .ok bs := by
  induction l with
  | nil => intro bs hl _; cases bs with
    | nil => rfl
    | cons b bs => simp at hl
  | cons a l ih => intro bs hl h; cases bs with
    | nil => simp at hl
    | cons b bs =>
      rw [List.mapM_cons, h 0 a b rfl rfl, okb, ih (by simpa using hl) fun j a b ha hb => h (j + 1) a b (by simpa using ha) (by simpa using hb), okb]
      rfl

/-- The labels of an input in terms of what is drawn. -/
theorem sent_digits {E : Env} {c : Circuit} (hc : WellTyped c) {x : List Nat} (hx : InputOK c x) (r : GarbleRand) :
    ∃ X, sentLabels E c x r = .ok X ∧ X.length = c.numInputs ∧ ∀ (i m : Nat), c.inputDomains[i]? = some m →
      ∃ z δ w, Wire.new m (r.input i) = .ok z ∧ Wire.delta m (r.delta m) = .ok δ ∧ X[i]? = some w ∧ IsLabel m w ∧
        ∀ j, zd m w j = zd m z j + (x.getD i 0 : ZMod m) * zd m δ j := by
  obtain ⟨run, hrun, hok⟩ := garbleRun_ok E r hc
  obtain ⟨X, h1, h2, h3⟩ := encode_ok hc hok hx
  refine ⟨X, ?_, h2, fun i m h => ?_⟩
  · unfold sentLabels
    rw [garble_of_run hrun, okb]
    exact h1
  · obtain ⟨z, w, v, hz, hw, hv, hcar⟩ := h3 i m h
    obtain ⟨z', hz', hz''⟩ := run_input hrun hok hc h
    rw [hz] at hz''
    obtain rfl := Option.some.inj hz''
    obtain ⟨ws, hd, -⟩ := garbleRun_parts hrun
    obtain ⟨δ, hδ, -⟩ := hok.deltas m (hc.inputGood m (List.mem_of_getElem? h)).2
    refine ⟨z, δ, w, hz', (garbleDeltas_raw r c).1 _ hd m δ hδ, hw, hcar.lab, fun j => ?_⟩
    have := (inputOK_lt hx h).2
    rw [hv] at this
    rw [hcar.eq δ hδ j, ← Option.some.inj this]

/-- Equal labels are labels with equal digits. -/
theorem sent_eq_iff {E : Env} {c : Circuit} (hc : WellTyped c) {x : List Nat} (hx : InputOK c x) (r r' : GarbleRand) :
    sentLabels E c x r = sentLabels E c x r' ↔ ∀ (i m : Nat), c.inputDomains[i]? = some m → ∀ z z' δ δ',
      Wire.new m (r.input i) = .ok z → Wire.new m (r'.input i) = .ok z' → Wire.delta m (r.delta m) = .ok δ →
      Wire.delta m (r'.delta m) = .ok δ' →
      ∀ j, zd m z j + (x.getD i 0 : ZMod m) * zd m δ j = zd m z' j + (x.getD i 0 : ZMod m) * zd m δ' j := by
  obtain ⟨X, h1, h2, h3⟩ := sent_digits (E := E) hc hx r
  obtain ⟨X', h1', h2', h3'⟩ := sent_digits (E := E) hc hx r'
  constructor
  · intro he i m h z z' δ δ' hz hz' hδ hδ' j
    obtain ⟨z1, δ1, w, a1, a2, a3, a4, a5⟩ := h3 i m h
    obtain ⟨z2, δ2, w', b1, b2, b3, b4, b5⟩ := h3' i m h
    rw [hz] at a1; obtain rfl := Except.ok.inj a1
    rw [hz'] at b1; obtain rfl := Except.ok.inj b1
    rw [hδ] at a2; obtain rfl := Except.ok.inj a2
    rw [hδ'] at b2; obtain rfl := Except.ok.inj b2
    rw [h1, h1'] at he
    rw [Except.ok.inj he, b3] at a3
    rw [← a5, ← b5, Option.some.inj a3]
  · intro hall
    rw [h1, h1']
    refine congrArg Except.ok (List.ext_getElem? fun i => ?_)
    cases h : c.inputDomains[i]? with
    | none =>
      have := List.getElem?_eq_none_iff.mp h
      rw [hc.inputs] at this
      rw [List.getElem?_eq_none (by omega), List.getElem?_eq_none (by omega)]
    | some m =>
      obtain ⟨z1, δ1, w, a1, a2, a3, a4, a5⟩ := h3 i m h
      obtain ⟨z2, δ2, w', b1, b2, b3, b4, b5⟩ := h3' i m h
      rw [a3, b3]
      exact congrArg some (label_ext a4 b4 fun j => by rw [a5, b5]; exact hall i m h _ _ _ _ a1 b1 a2 b2 j)

/-- Something that kills a subgroup and an element outside of it not. -/
theorem exists_killer {m : Nat} (hm : 0 < m) (H : AddSubgroup (ZMod m)) (d : ZMod m) (hd : d ∉ H) :
    ∃ k, k < m ∧ (∀ h ∈ H, h * (k : ZMod m) = 0) ∧ d * (k : ZMod m) ≠ 0 := by
  haveI : NeZero m := ⟨by omega⟩
  obtain ⟨⟨a, ha⟩, hgen⟩ := IsAddCyclic.exists_generator (α := H)
  have hg0 : 0 < Nat.gcd a.val m := Nat.gcd_pos_of_pos_right _ hm
  obtain ⟨q, hq⟩ := Nat.gcd_dvd_left a.val m
  obtain ⟨k, hk⟩ := Nat.gcd_dvd_right a.val m
  have hga : ((Nat.gcd a.val m : Nat) : ZMod m) ∈ H := by
    have hb := Nat.gcd_eq_gcd_ab a.val m
    have : ((Nat.gcd a.val m : Nat) : ZMod m) = (Nat.gcdA a.val m) • a := by
      have h2 := congrArg (Int.cast : Int → ZMod m) hb
      push_cast at h2
      rw [ZMod.natCast_self, zero_mul, add_zero, ZMod.natCast_zmod_val] at h2
      rw [h2, zsmul_eq_mul, mul_comm]
    rw [this]
    exact H.zsmul_mem ha _
  generalize Nat.gcd a.val m = g at *
  have hkm : ((g * k : Nat) : ZMod m) = 0 := by rw [← hk]; exact ZMod.natCast_self m
  have hk1 : g ≠ 1 := by
    rintro rfl
    apply hd
    have : d = d.val • (1 : ZMod m) := by rw [nsmul_eq_mul, mul_one, ZMod.natCast_zmod_val]
    rw [this]
    exact H.nsmul_mem (by simpa using hga) _
  have hk0 : 0 < k := Nat.pos_of_ne_zero (by rintro rfl; omega)
  refine ⟨k, ?_, ?_, ?_⟩
  · have : 2 ≤ g := by omega
    nlinarith
  · intro h hh
    obtain ⟨n, hn⟩ := AddSubgroup.mem_zmultiples_iff.mp (hgen ⟨h, hh⟩)
    have hn : n • a = h := congrArg Subtype.val hn
    have haq : a = (g : ZMod m) * (q : ZMod m) := by
      rw [← Nat.cast_mul, ← hq, ZMod.natCast_zmod_val]
    push_cast at hkm
    rw [← hn, zsmul_eq_mul, haq]
    linear_combination (n : ZMod m) * q * hkm
  · intro h0
    apply hd
    have h1 : ((d.val * k : Nat) : ZMod m) = 0 := by
      push_cast
      rw [ZMod.natCast_zmod_val]
      exact h0
    rw [ZMod.natCast_eq_zero_iff] at h1
    have h2 : g * k ∣ d.val * k := by rw [← hk]; exact h1
    obtain ⟨t, ht⟩ := Nat.dvd_of_mul_dvd_mul_right hk0 h2
    have : d = t • (g : ZMod m) := by
      rw [nsmul_eq_mul, ← ZMod.natCast_zmod_val d, ht]
      push_cast
      ring
    rw [this]
    exact H.nsmul_mem hga _

/-- A draw with a first digit of choice and zeros. -/
def firstRaw (k : Nat) : WireBytes := (zero32.set 0 (BitVec.ofNat 8 k)).set 1 (BitVec.ofNat 8 (k / 256))

theorem firstRaw_zero (k : Nat) (hk : k < 256) (i : Nat) (hi : i < 32) :
    (firstRaw k)[i].toNat = if i = 0 then k else 0 := by
  unfold firstRaw
  rw [Vector.getElem_set, Vector.getElem_set]
  rcases i with _ | _ | i
  · simp; omega
  · simp; omega
  · simp [zero32]

theorem append_toNat (a b : BitVec 8) : (a ++ b).toNat = 256 * a.toNat + b.toNat := by
  rw [BitVec.toNat_append, ← Nat.shiftLeft_add_eq_or_of_lt b.isLt, Nat.shiftLeft_eq]
  omega

theorem firstRaw_get (k : Nat) (i : Nat) (hi : i < 32) :
    (firstRaw k)[i].toNat = if i = 0 then k % 256 else if i = 1 then k / 256 % 256 else 0 := by
  unfold firstRaw
  rw [Vector.getElem_set, Vector.getElem_set]
  rcases i with _ | _ | i
  · simp
  · simp
  · simp [zero32]

theorem firstRaw_word (k : Nat) (hk : k < 65536) (i : Nat) (hi : i < 16) :
    (toU16 (firstRaw k))[i].toNat = if i = 0 then k else 0 := by
  unfold toU16
  rw [Vector.getElem_ofFn, append_toNat, firstRaw_get, firstRaw_get]
  rcases i with _ | i
  · simp; omega
  · have h1 : ¬ 2 * (i + 1) + 1 = 0 := by omega
    have h2 : ¬ 2 * (i + 1) + 1 = 1 := by omega
    have h3 : ¬ 2 * (i + 1) = 0 := by omega
    have h4 : ¬ 2 * (i + 1) = 1 := by omega
    simp only [h1, h2, h3, h4, if_false, Nat.add_eq_zero_iff, Nat.one_ne_zero, and_false]

theorem firstRaw_bin : ∀ j < 256, j ≠ 0 → digit ⟨.binary, (firstRaw 1).set 31 ((firstRaw 1)[31] ||| 1)⟩ j =
    digit ⟨.binary, (firstRaw 0).set 31 ((firstRaw 0)[31] ||| 1)⟩ j := by decide +kernel

theorem firstRaw_bin_one (k : Nat) (hk : k < 2) : digit ⟨.binary, (firstRaw k).set 31 ((firstRaw k)[31] ||| 1)⟩ 0 = k := by
  interval_cases k <;> decide +kernel

/-- A draw of a delta with a first digit of choice. -/
theorem delta_first {m : Nat} (hm : GoodDomain m) (k : Nat) (hk : k < m) :
    ∃ δ δ0, Wire.delta m (firstRaw k) = .ok δ ∧ Wire.delta m (firstRaw 0) = .ok δ0 ∧ zd m δ 0 = k ∧ zd m δ0 0 = 0 ∧
      ∀ j, j ≠ 0 → zd m δ j = zd m δ0 j := by
  obtain ⟨⟨d, v⟩, hw, hl⟩ := wireNew_ok hm (firstRaw k)
  obtain ⟨⟨d0, v0⟩, hw0, hl0⟩ := wireNew_ok hm (firstRaw 0)
  have hd := hl.dom
  have hd0 := hl0.dom
  simp only at hd hd0
  have : d0 = d := by rw [hd] at hd0; exact (Except.ok.inj hd0).symm
  subst this
  unfold Wire.delta
  rw [hw, hw0, okb, okb]
  unfold Wire.new at hw hw0
  rw [hd, okb] at hw hw0
  unfold zd
  rcases good_cases hm hd with ⟨rfl, rfl⟩ | ⟨h0, h1, h2, rfl⟩ | ⟨rfl, rfl⟩ | ⟨h0, h1, h2, rfl⟩
  · simp only at hw hw0
    obtain ⟨-, rfl⟩ := Wire.mk.inj (Except.ok.inj hw)
    obtain ⟨-, rfl⟩ := Wire.mk.inj (Except.ok.inj hw0)
    refine ⟨_, _, rfl, rfl, ?_, ?_, fun j hj => ?_⟩
    · exact congrArg Nat.cast (firstRaw_bin_one k hk)
    · exact (congrArg Nat.cast (firstRaw_bin_one 0 (by omega))).trans Nat.cast_zero
    · by_cases hlt : j < 256
      · refine congrArg Nat.cast ?_
        have hk' : k = 0 ∨ k = 1 := by omega
        rcases hk' with rfl | rfl
        · rfl
        · exact firstRaw_bin j hlt hj
      · rw [dg_bin, dg_bin, dif_neg hlt, dif_neg hlt]
  · simp only at hw hw0
    obtain ⟨-, rfl⟩ := Wire.mk.inj (Except.ok.inj hw)
    obtain ⟨-, rfl⟩ := Wire.mk.inj (Except.ok.inj hw0)
    refine ⟨_, _, rfl, rfl, ?_, ?_, fun j hj => ?_⟩
    · rw [dg_u8, dif_pos (by omega), Vector.getElem_set_ne _ _ (by omega), Vector.getElem_ofFn]
      simp only [Fin.getElem_fin]
      rw [firstRaw_zero k (by omega), if_pos rfl, BitVec.toNat_ofNat, Nat.mod_eq_of_lt hk, Nat.mod_eq_of_lt (by omega)]
    · rw [dg_u8, dif_pos (by omega), Vector.getElem_set_ne _ _ (by omega), Vector.getElem_ofFn]
      simp only [Fin.getElem_fin]
      rw [firstRaw_zero 0 (by omega), if_pos rfl]
      simp
    · refine congrArg Nat.cast ?_
      rw [dg_u8, dg_u8]
      split
      · rename_i hlt
        by_cases h31 : j = 31
        · subst h31; rw [Vector.getElem_set_self, Vector.getElem_set_self]
        · rw [Vector.getElem_set_ne _ _ (by omega), Vector.getElem_set_ne _ _ (by omega), Vector.getElem_ofFn,
            Vector.getElem_ofFn]
          simp only [Fin.getElem_fin]
          rw [firstRaw_zero k (by omega), firstRaw_zero 0 (by omega), if_neg hj, if_neg hj]
      · rfl
  · simp only at hw hw0
    obtain ⟨-, rfl⟩ := Wire.mk.inj (Except.ok.inj hw)
    obtain ⟨-, rfl⟩ := Wire.mk.inj (Except.ok.inj hw0)
    refine ⟨_, _, rfl, rfl, ?_, ?_, fun j hj => ?_⟩
    · rw [dg_u8max, dif_pos (by omega), Vector.getElem_set_ne _ _ (by omega)]
      rw [firstRaw_zero k (by omega), if_pos rfl]
    · rw [dg_u8max, dif_pos (by omega), Vector.getElem_set_ne _ _ (by omega)]
      rw [firstRaw_zero 0 (by omega), if_pos rfl, Nat.cast_zero]
    · refine congrArg Nat.cast ?_
      rw [dg_u8max, dg_u8max]
      split
      · rename_i hlt
        by_cases h31 : j = 31
        · subst h31; rw [Vector.getElem_set_self, Vector.getElem_set_self]
        · rw [Vector.getElem_set_ne _ _ (by omega), Vector.getElem_set_ne _ _ (by omega)]
          rw [firstRaw_zero k (by omega), firstRaw_zero 0 (by omega), if_neg hj, if_neg hj]
      · rfl
  · simp only at hw hw0
    obtain ⟨-, rfl⟩ := Wire.mk.inj (Except.ok.inj hw)
    obtain ⟨-, rfl⟩ := Wire.mk.inj (Except.ok.inj hw0)
    refine ⟨_, _, rfl, rfl, ?_, ?_, fun j hj => ?_⟩
    · rw [dg_u16, dif_pos (by omega), toU16_ofU16, Vector.getElem_set_ne _ _ (by omega), toU16_ofU16, Vector.getElem_ofFn]
      simp only [Fin.getElem_fin]
      rw [firstRaw_word k (by omega), if_pos rfl, BitVec.toNat_ofNat, Nat.mod_eq_of_lt hk, Nat.mod_eq_of_lt (by omega)]
    · rw [dg_u16, dif_pos (by omega), toU16_ofU16, Vector.getElem_set_ne _ _ (by omega), toU16_ofU16, Vector.getElem_ofFn]
      simp only [Fin.getElem_fin]
      rw [firstRaw_word 0 (by omega), if_pos rfl]
      simp
    · refine congrArg Nat.cast ?_
      rw [dg_u16, dg_u16]
      split
      · rename_i hlt
        simp only [toU16_ofU16]
        by_cases h15 : j = 15
        · subst h15; rw [Vector.getElem_set_self, Vector.getElem_set_self]
        · rw [Vector.getElem_set_ne _ _ (by omega), Vector.getElem_set_ne _ _ (by omega),
            Vector.getElem_ofFn, Vector.getElem_ofFn]
          simp only [Fin.getElem_fin]
          rw [firstRaw_word k (by omega), firstRaw_word 0 (by omega), if_neg hj, if_neg hj]
      · rfl

end FP
