import Verif.Props.Wire
import Verif.Proof.Witness
import Verif.Spec.Uniform
import Verif.Spec.Fpake
import Verif.Proof.Uniform
import Mathlib.Data.Nat.Prime.Pow
/-
C86: how labels made by hashing are distributed.
-/
namespace FP.Props
open Spec

/-- The hash of a wire when the hash function returns `digest`. -/
abbrev hashedAs (dbg : Bool) (index : Nat) (wire target : Wire) (digest : WireBytes) : R Wire :=
  hashWire { dbg := dbg, sha256 := fun _ => digest } index wire target

/-- C86: exactly how many digests lead to a given label: for each component the values that leave the same rest. -/
theorem C86_count (dbg : Bool) (m index : Nat) (wire target w : Wire) (hm : 0 < m) (ht : Domain.new m = .ok target.domain)
    (hw : IsLabel m w) :
    origins (hashedAs dbg index wire target) w =
      ∏ j : Fin (components target.domain),
        (radix target.domain / m + if digit w j < radix target.domain % m then 1 else 0) := by
  have hd : w.domain = target.domain := Except.ok.inj (hw.dom.symm.trans ht)
  rw [← hd]
  refine Eq.trans ?_ (origins_eq dbg hm hw)
  unfold origins hashedAs hashWire
  rw [hd]

example := C86_count true 121 3 ⟨.binary, Witness.bytes 1⟩ ⟨.u8 121, Witness.bytes 2⟩ ⟨.u8 121, Vector.replicate 32 7⟩ (by meets)
    rfl label121

/-- C86: the same for one component alone, for instance the colour. -/
theorem C86_component (dbg : Bool) (m index j x : Nat) (wire target : Wire) (hm : 0 < m)
    (ht : Domain.new m = .ok target.domain) (hj : j < components target.domain) (hx : x < m) :
    Nat.card {digest // ∃ c, hashedAs dbg index wire target digest = .ok c ∧ digit c j = x} * radix target.domain =
      (radix target.domain / m + if x < radix target.domain % m then 1 else 0) * 2 ^ 256 :=
  component_count dbg hm ht hj hx

example := C86_component true 121 3 4 100 ⟨.binary, Witness.bytes 1⟩ ⟨.u8 121, Witness.bytes 2⟩ (by meets) rfl (by meets) (by meets)

/-- A label all of whose components are `x`. -/
theorem exists_constant {m x : Nat} (hx : x < m) (hm : m < 65535) :
    ∃ w, IsLabel m w ∧ (m ∣ radix w.domain ∨ ∀ j < components w.domain, digit w j = x) := by
  by_cases h2 : m = 2
  · subst h2
    exact ⟨⟨.binary, Vector.replicate 32 0⟩, isLabel_two _, .inl (by simp [radix])⟩
  by_cases h256 : m = 256
  · subst h256
    exact ⟨⟨.u8max, Vector.replicate 32 0⟩, isLabel_256 _, .inl (by simp [radix])⟩
  by_cases h255 : m < 255
  · refine ⟨_, isLabel_mkBytes (by omega) h2 h255 (fun _ => x) fun _ => hx, .inr fun j hj => ?_⟩
    have hj : j < 32 := hj
    simp only [dg_u8, Vector.getElem_ofFn]
    rw [dif_pos hj, BitVec.toNat_ofNat, Nat.mod_eq_of_lt (by omega)]
  · refine ⟨_, isLabel_mkWords (by omega) h256 hm (fun _ => x) fun _ => hx, .inr fun j hj => ?_⟩
    have hj : j < 16 := hj
    simp only [dg_u16, toU16_ofU16, Vector.getElem_ofFn]
    rw [dif_pos hj, BitVec.toNat_ofNat, Nat.mod_eq_of_lt (by omega)]

theorem radix_dvd {m : Nat} {d : Domain} (hm : 0 < m) (hd : Domain.new m = .ok d) : m ∣ radix d ↔ ∃ k, m = 2 ^ k := by
  have up : ∀ n, m ∣ 2 ^ n → ∃ k, m = 2 ^ k := fun n h => by
    obtain ⟨k, -, hk⟩ := (Nat.dvd_prime_pow Nat.prime_two).mp h
    exact ⟨k, hk⟩
  have down : ∀ n k, m = 2 ^ k → m < 2 ^ (n + 1) → m ∣ 2 ^ n := fun n k h hl => by
    subst h
    have := (Nat.pow_lt_pow_iff_right (a := 2) (by decide)).mp hl
    exact Nat.pow_dvd_pow 2 (by omega)
  rcases pos_cases hm hd with ⟨rfl, rfl⟩ | ⟨h0, h1, h2, rfl⟩ | ⟨rfl, rfl⟩ | ⟨h0, h1, h2, rfl⟩
  · exact ⟨fun _ => ⟨1, rfl⟩, fun _ => by simp [radix]⟩
  · exact ⟨up 8, fun ⟨k, hk⟩ => down 8 k hk (by norm_num; omega)⟩
  · exact ⟨fun _ => ⟨8, rfl⟩, fun _ => by simp [radix]⟩
  · exact ⟨up 16, fun ⟨k, hk⟩ => down 16 k hk (by norm_num; omega)⟩

/-- C86, exactly: if the hash function returns each digest equally often, the labels made by hashing are equally
frequent if and only if the domain is a power of two. -/
theorem C86_uniform_iff (dbg : Bool) (m index : Nat) (wire target : Wire) (hm : 0 < m)
    (ht : Domain.new m = .ok target.domain) : Uniform m (hashedAs dbg index wire target) ↔ ∃ k, m = 2 ^ k := by
  rw [← radix_dvd hm ht]
  constructor
  · intro h
    by_contra hd
    have hm2 : m < 65535 := by
      rcases pos_cases hm ht with ⟨h, _⟩ | ⟨_, h, _, _⟩ | ⟨h, _⟩ | ⟨_, h, _, _⟩ <;> omega
    obtain ⟨w, hw, h0⟩ := exists_constant (x := 0) hm hm2
    obtain ⟨w', hw', h1⟩ := exists_constant (x := m - 1) (m := m) (by omega) hm2
    have e : w.domain = target.domain := Except.ok.inj (hw.dom.symm.trans ht)
    have e' : w'.domain = target.domain := Except.ok.inj (hw'.dom.symm.trans ht)
    rw [e] at h0
    rw [e'] at h1
    have h0 := h0.resolve_left hd
    have h1 := h1.resolve_left hd
    have key := h w w' hw hw'
    rw [C86_count dbg m index wire target w hm ht hw, C86_count dbg m index wire target w' hm ht hw'] at key
    have hr : 0 < radix target.domain % m := Nat.pos_of_ne_zero fun h => hd (Nat.dvd_of_mod_eq_zero h)
    have hr' := Nat.mod_lt (radix target.domain) hm
    have k0 : ∀ j : Fin (components target.domain), (radix target.domain / m + if digit w j < radix target.domain % m then 1 else 0) =
        radix target.domain / m + 1 := fun j => by rw [h0 j.val j.isLt, if_pos hr]
    have k1 : ∀ j : Fin (components target.domain), (radix target.domain / m + if digit w' j < radix target.domain % m then 1 else 0) =
        radix target.domain / m := fun j => by rw [h1 j.val j.isLt, if_neg (by omega), add_zero]
    simp only [k0, k1] at key
    rw [Finset.prod_const, Finset.prod_const, Finset.card_univ, Fintype.card_fin] at key
    have hc : components target.domain ≠ 0 := by cases target.domain <;> simp [components]
    have := Nat.pow_left_injective (by omega : components target.domain ≠ 0) key
    omega
  · intro h w w' hw hw'
    rw [C86_count dbg m index wire target w hm ht hw, C86_count dbg m index wire target w' hm ht hw']
    have := Nat.mod_eq_zero_of_dvd h
    simp only [this, Nat.not_lt_zero, if_false]

example := C86_uniform_iff true 257 3 ⟨.binary, Witness.bytes 1⟩ ⟨.u16 257, Witness.bytes 2⟩ (by meets) rfl

/-- C86: in the largest domain, of 65536 values, every label comes from exactly one digest. -/
theorem C86_full (dbg : Bool) (index : Nat) (wire target w : Wire) (ht : target.domain = .u16max) (hw : w.domain = .u16max) :
    origins (hashedAs dbg index wire target) w = 1 := by
  unfold origins hashedAs hashWire
  rw [ht]
  have : ∀ v, Wire.fromArray dbg v .u16max = .ok w ↔ v = w.values := by
    intro v
    show Except.ok (⟨.u16max, v⟩ : Wire) = .ok w ↔ _
    constructor
    · intro h
      rw [← Except.ok.inj h]
    · rintro rfl
      rw [← hw]
  simp only [this]
  simp

example := C86_full true 3 ⟨.binary, Witness.bytes 1⟩ ⟨.u16max, Witness.bytes 2⟩ ⟨.u16max, Witness.bytes 3⟩ rfl rfl

/-- C86 is false of every key exchange: the labels of the sum of the differences are never equally frequent, because
their domain is one more than a positive multiple of eight. -/
theorem C86_fails_exchange (dbg : Bool) (len index : Nat) (wire target : Wire) (hlen : GoodLength len)
    (ht : Domain.new (8 * len + 1) = .ok target.domain) :
    ¬ Uniform (8 * len + 1) (hashedAs dbg index wire target) := by
  rw [C86_uniform_iff dbg _ index wire target (by omega) ht]
  rintro ⟨k, hk⟩
  have h0 : 0 < len := by unfold GoodLength at hlen; omega
  rcases k with _ | k
  · omega
  · rw [pow_succ] at hk
    omega

example := C86_fails_exchange true 15 3 ⟨.binary, Witness.bytes 1⟩ ⟨.u8 121, Witness.bytes 2⟩ (by meets) rfl

/-- C86: for passwords of 15 bytes each component of such a label is below 14 half as often again as it would have to be:
three bytes lead to each of these values, two to each of the others. -/
theorem C86_fails_fifteen (dbg : Bool) (index j x : Nat) (wire target : Wire) (ht : Domain.new (8 * 15 + 1) = .ok target.domain)
    (hj : j < 32) (hx : x < 121) :
    Nat.card {digest // ∃ c, hashedAs dbg index wire target digest = .ok c ∧ digit c j = x} * 256 =
      (if x < 14 then 3 else 2) * 2 ^ 256 := by
  have hd : target.domain = .u8 121 := (Except.ok.inj ht).symm
  have := C86_component dbg 121 index j x wire target (by decide) ht (by rw [hd]; exact hj) hx
  rw [hd] at this
  refine this.trans (congrArg (· * 2 ^ 256) ?_)
  show (2 + if x < 14 then 1 else 0) = _
  split <;> rfl

/-! ### The hypotheses can be met -/

/-- A label of domain 121, the target of the first example, and of domain 257. -/
example : Domain.new (8 * 15 + 1) = .ok (⟨.u8 121, Vector.replicate 32 7⟩ : Wire).domain ∧
    IsLabel 121 ⟨.u8 121, Vector.replicate 32 7⟩ ∧ Domain.new (8 * 32 + 1) = .ok (⟨.u16 257, Vector.replicate 32 0⟩ : Wire).domain := by
  refine ⟨rfl, ⟨rfl, fun i => ?_⟩, rfl⟩
  rw [dg_u8]
  split <;> simp

end FP.Props
