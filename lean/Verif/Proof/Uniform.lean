import Verif.Spec.Uniform
import Verif.Proof.Wire
import Mathlib.SetTheory.Cardinal.Finite
import Mathlib.Data.Fintype.BigOperators
import Mathlib.Data.Int.CardIntervalMod
import Mathlib.Data.Fintype.Card
/-
Counting the digests behind a label.
-/
namespace FP
open Spec

theorem wireBytes_card : Nat.card WireBytes = 2 ^ 256 ∧ Finite WireBytes := by
  have e : WireBytes ≃ (Fin 32 → BitVec 8) :=
    ⟨fun v i => v[i], fun f => Vector.ofFn f, fun v => by ext i hi; simp, fun f => by ext i; simp⟩
  have e2 : BitVec 8 ≃ Fin (2 ^ 8) := ⟨BitVec.toFin, BitVec.ofFin, fun _ => rfl, fun _ => rfl⟩
  have e3 : WireBytes ≃ (Fin 32 → Fin (2 ^ 8)) := e.trans (Equiv.arrowCongr (Equiv.refl _) e2)
  refine ⟨?_, Finite.of_equiv _ e3.symm⟩
  rw [Nat.card_congr e3, Nat.card_fun, Nat.card_fin, Nat.card_fin, ← pow_mul]

theorem digit_radix (w : Wire) (j : Nat) : digit w j < radix w.domain := by
  obtain ⟨d, v⟩ := w
  cases d with
  | binary =>
    rw [dg_bin]
    split
    · cases v[j / 8].getLsbD (j % 8) <;> simp [radix]
    · simp [radix]
  | u8 m => rw [dg_u8]; split; exact BitVec.isLt _; simp [radix]
  | u8max => rw [dg_u8max]; split; exact BitVec.isLt _; simp [radix]
  | u16 m => rw [dg_u16]; split; exact BitVec.isLt _; simp [radix]
  | u16max => rw [dg_u16max]; split; exact BitVec.isLt _; simp [radix]

theorem digit_beyond (w : Wire) {j : Nat} (h : components w.domain ≤ j) : digit w j = 0 := by
  obtain ⟨d, v⟩ := w
  cases d with
  | binary => rw [dg_bin, dif_neg (by simpa [components] using h)]
  | u8 m => rw [dg_u8, dif_neg (by simpa [components] using h)]
  | u8max => rw [dg_u8max, dif_neg (by simpa [components] using h)]
  | u16 m => rw [dg_u16, dif_neg (by simpa [components] using h)]
  | u16max => rw [dg_u16max, dif_neg (by simpa [components] using h)]

/-- The components of a label, as one function. -/
def splitUp (d : Domain) (v : WireBytes) : Fin (components d) → Fin (radix d) :=
  fun j => ⟨digit ⟨d, v⟩ j, digit_radix ⟨d, v⟩ j⟩

theorem splitUp_bijective (d : Domain) : Function.Bijective (splitUp d) := by
  obtain ⟨hc, hf⟩ := wireBytes_card
  have hinj : Function.Injective (splitUp d) := by
    intro v v' h
    have : (⟨d, v⟩ : Wire) = ⟨d, v'⟩ := by
      refine wire_ext rfl fun j => ?_
      by_cases hj : j < components d
      · exact congrArg Fin.val (congrFun h ⟨j, hj⟩)
      · rw [digit_beyond _ (by simpa using hj), digit_beyond _ (by simpa using hj)]
    exact congrArg Wire.values this
  refine hinj.bijective_of_nat_card_le ?_
  rw [hc, Nat.card_fun, Nat.card_fin, Nat.card_fin]
  cases d <;> simp only [components, radix] <;> norm_num

theorem fromArray_digits (dbg : Bool) {m : Nat} (hm : 0 < m) {d : Domain} (hd : Domain.new m = .ok d) (v : WireBytes) :
    ∃ c, Wire.fromArray dbg v d = .ok c ∧ c.domain = d ∧ ∀ j, digit c j = digit ⟨d, v⟩ j % m := by
  rcases pos_cases hm hd with ⟨rfl, rfl⟩ | ⟨h0, h1, h2, rfl⟩ | ⟨rfl, rfl⟩ | ⟨h0, h1, h2, rfl⟩
  · refine ⟨_, rfl, rfl, fun j => ?_⟩
    exact (Nat.mod_eq_of_lt (digit_radix ⟨.binary, v⟩ j)).symm
  · simp only [Wire.fromArray]
    refine exists_of (map_ok ⟨.u8 m, v⟩ _ (fun y => y % m) (fun i => remR_ok hm _)) ⟨rfl, fun j => ?_⟩
    simp only [dg_u8, Vector.getElem_ofFn, Fin.getElem_fin]
    split
    · rw [BitVec.toNat_ofNat]
      exact Nat.mod_eq_of_lt (lt_of_lt_of_le (Nat.mod_lt _ hm) (by omega))
    · simp
  · refine ⟨_, rfl, rfl, fun j => ?_⟩
    exact (Nat.mod_eq_of_lt (digit_radix ⟨.u8max, v⟩ j)).symm
  · simp only [Wire.fromArray]
    refine exists_of (mapAsU16_ok dbg ⟨.u16 m, v⟩ _ (fun y => y % m) (fun i => remR_ok hm _) (fun i => ?_)) ⟨rfl, fun j => ?_⟩
    · have := Nat.mod_lt ((toU16 v)[i].toNat) hm
      simp only [Wire.dom, Domain.num]; omega
    · simp only [dg_u16, toU16_ofU16, Vector.getElem_ofFn, Fin.getElem_fin]
      split
      · rw [BitVec.toNat_ofNat]
        exact Nat.mod_eq_of_lt (lt_of_lt_of_le (Nat.mod_lt _ hm) (by omega))
      · simp

theorem card_residue (R m r : Nat) (hm : 0 < m) (hr : r < m) :
    Nat.card {x : Fin R // x.val % m = r} = R / m + if r < R % m then 1 else 0 := by
  have h := Nat.count_modEq_card R hm r
  rw [Nat.mod_eq_of_lt hr] at h
  rw [← h, Nat.count_eq_card_filter_range, Nat.card_eq_fintype_card, Fintype.card_subtype]
  refine Finset.card_bij (fun x _ => x.val) (fun x hx => ?_) (fun _ _ _ _ e => Fin.ext e) (fun y hy => ?_)
  · have hx := (Finset.mem_filter.mp hx).2
    refine Finset.mem_filter.mpr ⟨Finset.mem_range.mpr x.isLt, ?_⟩
    show x.val % m = r % m
    rw [hx, Nat.mod_eq_of_lt hr]
  · obtain ⟨h1, h2⟩ := Finset.mem_filter.mp hy
    have h3 : y % m = r % m := h2
    rw [Nat.mod_eq_of_lt hr] at h3
    exact ⟨⟨y, Finset.mem_range.mp h1⟩, Finset.mem_filter.mpr ⟨Finset.mem_univ _, h3⟩, rfl⟩

theorem origins_eq (dbg : Bool) {m : Nat} (hm : 0 < m) {w : Wire} (hw : IsLabel m w) :
    origins (fun v => Wire.fromArray dbg v w.domain) w =
      ∏ j : Fin (components w.domain), (radix w.domain / m + if digit w j < radix w.domain % m then 1 else 0) := by
  unfold origins
  have e : ∀ v, Wire.fromArray dbg v w.domain = .ok w ↔ ∀ j, (splitUp w.domain v j).val % m = digit w j := by
    intro v
    obtain ⟨c, hc, hcd, hdig⟩ := fromArray_digits dbg hm hw.dom v
    rw [hc]
    constructor
    · intro h j
      have hcw : c = w := Except.ok.inj h
      have := hdig j
      rw [hcw] at this
      exact this.symm
    · intro h
      refine congrArg Except.ok (wire_ext hcd fun j => ?_)
      rw [hdig]
      by_cases hj : j < components w.domain
      · exact h ⟨j, hj⟩
      · rw [digit_beyond _ (by simpa using hj), digit_beyond _ (by simpa using hj), Nat.zero_mod]
  have e1 : {v // Wire.fromArray dbg v w.domain = .ok w} ≃
      {f : Fin (components w.domain) → Fin (radix w.domain) // ∀ j, (f j).val % m = digit w j} :=
    (Equiv.ofBijective _ (splitUp_bijective w.domain)).subtypeEquiv fun v => e v
  rw [Nat.card_congr e1, Nat.card_congr (Equiv.subtypePiEquivPi (p := fun (j : Fin (components w.domain)) (x : Fin (radix w.domain)) =>
    x.val % m = digit w j)), Nat.card_pi]
  exact Finset.prod_congr rfl fun j _ => card_residue _ _ _ hm (hw.lt j)

theorem pi_component {N R m j x : Nat} (hm : 0 < m) (hx : x < m) {hj : j < N} :
    Nat.card {f : Fin N → Fin R // ∀ i, i = ⟨j, hj⟩ → (f i).val % m = x} * R =
      (R / m + if x < R % m then 1 else 0) * R ^ N := by
  rw [Nat.card_congr (Equiv.subtypePiEquivPi (p := fun (i : Fin N) (y : Fin R) =>
    i = ⟨j, hj⟩ → y.val % m = x)), Nat.card_pi]
  have h1 : ∀ i : Fin N, Nat.card {y : Fin R // i = ⟨j, hj⟩ → y.val % m = x} =
      if i = ⟨j, hj⟩ then R / m + (if x < R % m then 1 else 0) else R := by
    intro i
    split
    · rename_i h
      rw [← card_residue _ _ _ hm hx]
      exact Nat.card_congr (Equiv.subtypeEquivRight fun y => by simp [h])
    · rename_i h
      simp [h]
  rw [Finset.prod_congr rfl fun i _ => h1 i, Finset.prod_ite, Finset.prod_const, Finset.prod_const,
    Finset.filter_eq' _ _, if_pos (Finset.mem_univ _), Finset.card_singleton, pow_one, mul_assoc, ← pow_succ]
  have hcard : (Finset.univ.filter fun i : Fin N => ¬ i = ⟨j, hj⟩).card + 1 = N := by
    rw [Finset.filter_ne', Finset.card_erase_of_mem (Finset.mem_univ _), Finset.card_univ, Fintype.card_fin]
    omega
  rw [hcard]

theorem components_radix (d : Domain) : radix d ^ components d = 2 ^ 256 := by
  cases d <;> simp only [components, radix] <;> norm_num

theorem card_through {d : Domain} (P : WireBytes → Prop) (Q : (Fin (components d) → Fin (radix d)) → Prop)
    (h : ∀ v, P v ↔ Q (splitUp d v)) : Nat.card {v // P v} = Nat.card {f // Q f} :=
  Nat.card_congr ((Equiv.ofBijective _ (splitUp_bijective d)).subtypeEquiv fun v => h v)

/-- One component alone. -/
theorem component_count (dbg : Bool) {m : Nat} (hm : 0 < m) {d : Domain} (hd : Domain.new m = .ok d) {j x : Nat}
    (hj : j < components d) (hx : x < m) :
    Nat.card {v : WireBytes // ∃ c, Wire.fromArray dbg v d = .ok c ∧ digit c j = x} * radix d =
      (radix d / m + if x < radix d % m then 1 else 0) * 2 ^ 256 := by
  have e : ∀ v, (∃ c, Wire.fromArray dbg v d = .ok c ∧ digit c j = x) ↔
      ∀ i : Fin (components d), i = ⟨j, hj⟩ → (splitUp d v i).val % m = x := by
    intro v
    obtain ⟨c, hc, hcd, hdig⟩ := fromArray_digits dbg hm hd v
    constructor
    · rintro ⟨c', hc', h⟩ i rfl
      rw [hc] at hc'
      obtain rfl := Except.ok.inj hc'
      rw [← h, hdig]
      rfl
    · intro h
      exact ⟨c, hc, (hdig j).trans (h ⟨j, hj⟩ rfl)⟩
  rw [card_through (d := d) _ (fun f => ∀ i, i = ⟨j, hj⟩ → (f i).val % m = x) e, pi_component hm hx, components_radix]

end FP
