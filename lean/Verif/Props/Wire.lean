import Verif.Proof.GarbleGate
import Verif.Proof.Witness
/-
C06: label arithmetic.  C07: colours.
A label is read through `Spec.digit`, its components modulo the domain (Spec/Label.lean).
-/
namespace FP.Props
open FP.Spec

/-! ### C06 -/

/-- Adding labels of domain `m` adds every component modulo `m`. -/
def AddExact (dbg : Bool) (m : Nat) : Prop :=
  ∀ a b, IsLabel m a → IsLabel m b →
    ∃ c, Wire.add dbg a b = .ok c ∧ IsLabel m c ∧ ∀ i, digit c i = (digit a i + digit b i) % m

/-- Subtracting labels gives the label that added to `b` is `a`, in every component. -/
def SubExact (dbg : Bool) (m : Nat) : Prop :=
  ∀ a b, IsLabel m a → IsLabel m b →
    ∃ c, Wire.sub dbg a b = .ok c ∧ IsLabel m c ∧ ∀ i, (digit c i + digit b i) % m = digit a i

/-- Negating a label gives its additive inverse in every component. -/
def NegExact (dbg : Bool) (m : Nat) : Prop :=
  ∀ a, IsLabel m a →
    ∃ c, Wire.neg dbg a = .ok c ∧ IsLabel m c ∧ ∀ i, (digit c i + digit a i) % m = 0

/-- Multiplying a label by a scalar below the domain multiplies every component modulo `m`. -/
def MulExact (dbg : Bool) (m : Nat) : Prop :=
  ∀ a x, IsLabel m a → x < m →
    ∃ c, Wire.mul dbg a x = .ok c ∧ IsLabel m c ∧ ∀ i, digit c i = (x * digit a i) % m

/-- The full statement of C06 for one build: for every domain for which the constructor returns a
label, all four operations are exact. -/
def C06_full (dbg : Bool) : Prop :=
  ∀ m raw w, Wire.new m raw = .ok w →
    AddExact dbg m ∧ SubExact dbg m ∧ NegExact dbg m ∧ MulExact dbg m

/-- A label all of whose components are `x`. -/
theorem exists_const {m : Nat} (hm : 1 ≤ m ∧ m ≤ 65534) {x : Nat} (hx : x < m) (h2 : m ≠ 2) :
    ∃ w, IsLabel m w ∧ digit w 0 = x := by
  by_cases h256 : m = 256
  · subst h256
    exact ⟨⟨.u8max, Vector.replicate 32 (BitVec.ofNat 8 x)⟩, isLabel_256 _, by
      simp [dg_u8max]; omega⟩
  by_cases hb : m < 255
  · exact ⟨_, isLabel_mkBytes (by omega) h2 hb (fun _ => x) (fun _ => hx), by
      simp [dg_u8]; omega⟩
  · exact ⟨_, isLabel_mkWords (by omega) h256 (by omega) (fun _ => x) (fun _ => hx), by
      simp [dg_u16, toU16_ofU16]; omega⟩

/-- Subtraction in terms of `sub_ok`. -/
theorem subExact_of_good (dbg : Bool) {m : Nat} (hm : GoodDomain m) : SubExact dbg m := by
  intro a b ha hb
  obtain ⟨c, h1, h2, h3⟩ := sub_ok dbg hm ha hb
  refine ⟨c, h1, h2, fun i => ?_⟩
  rw [h3, Nat.mod_add_mod]
  have := hb.lt i
  rw [show digit a i + (m - digit b i) + digit b i = digit a i + m by omega, Nat.add_mod_right]
  exact Nat.mod_eq_of_lt (ha.lt i)

/-- C06, addition: exact on precisely the domains 1..128 and 255..32768, among all non-zero domains
the constructor accepts.  (Beyond these the 8-bit or 16-bit sum wraps around before it is reduced.) -/
theorem C06_add_exact_iff (dbg : Bool) (m : Nat) (hm : 1 ≤ m ∧ m ≤ 65534) :
    AddExact dbg m ↔ (1 ≤ m ∧ m ≤ 128) ∨ (255 ≤ m ∧ m ≤ 32768) := by
  constructor
  · intro h
    by_contra hbad
    have h2 : m ≠ 2 := by omega
    have h256 : m ≠ 256 := by omega
    obtain ⟨w, hw, hd⟩ := exists_const hm (show m - 1 < m by omega) h2
    obtain ⟨c, h1, h3, h4⟩ := h w w hw hw
    have h5 := h4 0
    rw [hd] at h5
    have hdom := hw.dom
    obtain ⟨d, v⟩ := w
    rcases pos_cases hm.1 hdom with ⟨rfl, _⟩ | ⟨k0, k1, k2, hdd⟩ | ⟨rfl, _⟩ | ⟨k0, k1, k2, hdd⟩
    · omega
    · simp only at hdd; subst hdd
      simp only [Wire.add] at h1
      rw [mapWith_ok dbg ⟨.u8 m, v⟩ ⟨.u8 m, v⟩ _ (fun x y => (x + y) % 256 % m) rfl
        (fun _ => remR_ok hm.1 _)] at h1
      injection h1 with h1
      subst h1
      simp only [dg_u8, Vector.getElem_ofFn, Fin.getElem_fin, Nat.zero_lt_succ, dif_pos] at h5 hd
      rw [hd, BitVec.toNat_ofNat] at h5
      have e1 : (m - 1 + (m - 1)) % m = m - 2 := by
        rw [show m - 1 + (m - 1) = m - 2 + m by omega, Nat.add_mod_right]
        exact Nat.mod_eq_of_lt (by omega)
      have e2 : (m - 1 + (m - 1)) % 256 = m - 1 + (m - 1) - 256 := by omega
      rw [e1, e2, Nat.mod_eq_of_lt (a := m - 1 + (m - 1) - 256) (by omega)] at h5
      omega
    · omega
    · simp only at hdd; subst hdd
      simp only [Wire.add] at h1
      have hadd := mapWithAsU16_ok dbg ⟨.u16 m, v⟩ ⟨.u16 m, v⟩
        (fun x y => remR ((x + y) % 65536) m) (fun x y => (x + y) % 65536 % m) rfl
        (fun i => remR_ok hm.1 (((toU16 v)[i].toNat + (toU16 v)[i].toNat) % 65536)) (fun i => by
          have := Nat.mod_lt (((toU16 v)[i].toNat + (toU16 v)[i].toNat) % 65536) hm.1
          simp only [Wire.dom, Domain.num]; omega)
      rw [hadd] at h1
      injection h1 with h1
      subst h1
      simp only [dg_u16, toU16_ofU16, Vector.getElem_ofFn, Fin.getElem_fin, Nat.zero_lt_succ,
        dif_pos] at h5 hd
      rw [hd, BitVec.toNat_ofNat] at h5
      have e1 : (m - 1 + (m - 1)) % m = m - 2 := by
        rw [show m - 1 + (m - 1) = m - 2 + m by omega, Nat.add_mod_right]
        exact Nat.mod_eq_of_lt (by omega)
      have e2 : (m - 1 + (m - 1)) % 65536 = m - 1 + (m - 1) - 65536 := by omega
      rw [e1, e2, Nat.mod_eq_of_lt (a := m - 1 + (m - 1) - 65536) (by omega)] at h5
      omega
  · intro h a b ha hb
    exact add_ok dbg h ha hb

example := C06_add_exact_iff true 129 (by meets)

/-- Sequencing inside `Vector.ofFnM`: if the whole succeeds then so does every component. -/
theorem ofFnM_inv {n : Nat} {α} (f : Fin n → R α) {v : Vector α n}
    (h : Vector.ofFnM f = (.ok v : R _)) (i : Fin n) : f i = .ok v[i] := by
  induction n with
  | zero => exact i.elim0
  | succ n ih =>
    rw [Vector.ofFnM_succ] at h
    cases h1 : (Vector.ofFnM fun i => f i.castSucc : R _) with
    | error e => rw [h1] at h; cases h
    | ok w =>
      rw [h1] at h
      cases h2 : f (Fin.last n) with
      | error e => simp only [h2] at h; cases h
      | ok a =>
        simp only [h2] at h
        injection h with h
        subst h
        refine Fin.lastCases ?_ (fun j => ?_) i
        · rw [h2]; simp
        · have := ih _ h1 j
          rw [this]; simp

/-- C06, subtraction: exact on precisely the same domains. -/
theorem C06_sub_exact_iff (dbg : Bool) (m : Nat) (hm : 1 ≤ m ∧ m ≤ 65534) :
    SubExact dbg m ↔ (1 ≤ m ∧ m ≤ 128) ∨ (255 ≤ m ∧ m ≤ 32768) := by
  refine ⟨fun h => ?_, fun h => subExact_of_good dbg h⟩
  by_contra hbad
  have h2 : m ≠ 2 := by omega
  have h256 : m ≠ 256 := by omega
  obtain ⟨w, hw, hd⟩ := exists_const hm (show m - 1 < m by omega) h2
  obtain ⟨z, hz, hdz⟩ := exists_const hm (show 0 < m by omega) h2
  obtain ⟨c, h1, h3, h4⟩ := h w z hw hz
  have h5 := h4 0
  rw [hd, hdz, Nat.add_zero, Nat.mod_eq_of_lt (h3.lt 0)] at h5
  have hdom := hw.dom
  have hdc : w.domain = z.domain := by have := hw.dom.symm.trans hz.dom; injection this
  obtain ⟨d, v⟩ := w
  obtain ⟨d', u⟩ := z
  simp only at hdc; subst hdc
  rcases pos_cases hm.1 hdom with ⟨rfl, _⟩ | ⟨k0, k1, k2, hdd⟩ | ⟨rfl, _⟩ | ⟨k0, k1, k2, hdd⟩
  · omega
  · simp only at hdd; subst hdd
    simp only [Wire.sub, Wire.mapWith] at h1
    rw [debugAssertR_ok (by simp), Except.ok_bind] at h1
    cases hv : (Vector.ofFnM fun i : Fin 32 => do
        return BitVec.ofNat 8 (← (do
          remR (← addR dbg 256 v[i].toNat (← subR dbg 256 m u[i].toNat)) m)) : R (Vector Byte 32)) with
    | error e => simp only [hv] at h1; cases h1
    | ok x =>
      simp only [hv] at h1
      injection h1 with h1
      subst h1
      have h0 := ofFnM_inv _ hv 0
      simp only [dg_u8, Nat.zero_lt_succ, dif_pos] at h5 hd hdz
      simp only [Fin.getElem_fin, Fin.val_zero, hd, hdz] at h0
      rw [subR_ok dbg (by omega), Except.ok_bind] at h0
      cases dbg with
      | true => simp [addR, show ¬ (m - 1 + m < 256) by omega] at h0; cases h0
      | false =>
        simp only [addR, Nat.sub_zero, show ¬ (m - 1 + m < 256) by omega, if_false, Except.ok_bind,
          remR_ok hm.1, Bool.false_eq_true] at h0
        injection h0 with h0
        rw [← h0, BitVec.toNat_ofNat] at h5
        have e2 : (m - 1 + m) % 256 = m - 1 + m - 256 := by omega
        rw [e2, Nat.mod_eq_of_lt (a := m - 1 + m - 256) (by omega)] at h5
        omega
  · omega
  · simp only at hdd; subst hdd
    simp only [Wire.sub, Wire.mapWithAsU16] at h1
    rw [debugAssertR_ok (by simp), Except.ok_bind] at h1
    cases hv : (Vector.ofFnM fun i : Fin 16 => do
        return BitVec.ofNat 16 (← (do
          remR (← addR dbg 65536 (toU16 v)[i].toNat (← subR dbg 65536 m (toU16 u)[i].toNat)) m)) :
            R (Vector (BitVec 16) 16)) with
    | error e => simp only [hv] at h1; cases h1
    | ok x =>
      simp only [hv, Except.ok_bind] at h1
      have h0 := ofFnM_inv _ hv 0
      simp only [dg_u16, Nat.zero_lt_succ, dif_pos] at hd hdz
      simp only [Fin.getElem_fin, Fin.val_zero, hd, hdz] at h0
      rw [subR_ok dbg (by omega), Except.ok_bind] at h0
      cases dbg with
      | true => simp [addR, show ¬ (m - 1 + m < 65536) by omega] at h0; cases h0
      | false =>
        simp only [debugAssertR, Bool.not_false, Bool.true_or, assertR, if_true, Except.ok_bind] at h1
        injection h1 with h1
        subst h1
        simp only [dg_u16, toU16_ofU16, Nat.zero_lt_succ, dif_pos] at h5
        simp only [addR, Nat.sub_zero, show ¬ (m - 1 + m < 65536) by omega, if_false, Except.ok_bind,
          remR_ok hm.1, Bool.false_eq_true] at h0
        injection h0 with h0
        rw [← h0, BitVec.toNat_ofNat] at h5
        have e2 : (m - 1 + m) % 65536 = m - 1 + m - 65536 := by omega
        rw [e2, Nat.mod_eq_of_lt (a := m - 1 + m - 65536) (by omega)] at h5
        omega

example := C06_sub_exact_iff true 129 (by meets)

/-- C06, scalar multiplication: exact on all non-zero domains the constructor accepts. -/
theorem C06_mul_exact (dbg : Bool) (m : Nat) (_ : 1 ≤ m ∧ m ≤ 65534) : MulExact dbg m :=
  fun _ _ ha hx => mul_okG dbg ha.dom hx

example := C06_mul_exact true 257 (by meets)

/-- C06, negation: exact on all non-zero domains the constructor accepts except 2 (there the code
complements the bits, which is never the additive inverse). -/
theorem C06_neg_exact_iff (dbg : Bool) (m : Nat) (hm : 1 ≤ m ∧ m ≤ 65534) :
    NegExact dbg m ↔ m ≠ 2 := by
  constructor
  · rintro h rfl
    obtain ⟨c, h1, _, h3⟩ := h ⟨.binary, Vector.replicate 32 0⟩ (isLabel_two _)
    have h0 := h3 0
    simp only [Wire.neg] at h1
    rw [map_ok ⟨.binary, Vector.replicate 32 0⟩ _ (fun x => 0xFF ^^^ x) (fun _ => rfl)] at h1
    injection h1 with h1
    subst h1
    revert h0; decide
  · intro h2 a ha
    obtain ⟨c, h1, h3, h4⟩ := neg_okG dbg hm.1 ha
    refine ⟨c, h1, h3, fun i => ?_⟩
    have := ha.lt i
    rw [h4 h2, Nat.mod_add_mod, show m - digit a i + digit a i = m by omega, Nat.mod_self]

example := C06_neg_exact_iff true 129 (by meets)

/-- C06 on the supported domains: all operations exact (negation except on bits).  Missing from
`C06_full`: the domains 129..254 and 32769..65534, binary negation, and domain 0, on which the code
is wrong, see the `iff` theorems above and `C06_full_false`. -/
theorem C06_arithmetic_partial (dbg : Bool) (m : Nat)
    (hm : (1 ≤ m ∧ m ≤ 128) ∨ (255 ≤ m ∧ m ≤ 32768)) :
    AddExact dbg m ∧ SubExact dbg m ∧ (m ≠ 2 → NegExact dbg m) ∧ MulExact dbg m :=
  ⟨(C06_add_exact_iff dbg m (by omega)).mpr hm, (C06_sub_exact_iff dbg m (by omega)).mpr hm,
    (C06_neg_exact_iff dbg m (by omega)).mpr, C06_mul_exact dbg m (by omega)⟩

example := C06_arithmetic_partial true 257 (by meets)

/-- A label of the domain 121. -/
theorem label121 : IsLabel 121 ⟨.u8 121, Vector.replicate 32 7⟩ := by
  refine ⟨rfl, fun i => ?_⟩
  rw [dg_u8]
  simp
  split <;> decide

/-- C06, group law on the supported domains: subtracting what was added gives back the label. -/
theorem C06_add_sub_cancel (dbg : Bool) (m : Nat)
    (hm : (1 ≤ m ∧ m ≤ 128) ∨ (255 ≤ m ∧ m ≤ 32768)) (a b : Wire) (ha : IsLabel m a)
    (hb : IsLabel m b) :
    ∃ c, Wire.add dbg a b = .ok c ∧ Wire.sub dbg c b = .ok a := by
  obtain ⟨c, h1, h2, h3⟩ := addZ dbg hm ha hb
  obtain ⟨d, h4, h5, h6⟩ := subZ dbg hm h2 hb
  refine ⟨c, h1, ?_⟩
  rw [h4]; congr 1
  apply label_ext h5 ha
  intro i; rw [h6, h3]; ring

example := C06_add_sub_cancel true 121 (by decide) _ _ label121 label121

/-- C06, group law: addition of labels is associative and commutative. -/
theorem C06_add_comm_assoc (dbg : Bool) (m : Nat)
    (hm : (1 ≤ m ∧ m ≤ 128) ∨ (255 ≤ m ∧ m ≤ 32768)) (a b c : Wire) (ha : IsLabel m a)
    (hb : IsLabel m b) (hc : IsLabel m c) :
    Wire.add dbg a b = Wire.add dbg b a ∧
    (do Wire.add dbg (← Wire.add dbg a b) c) = ((do Wire.add dbg a (← Wire.add dbg b c)) : R Wire) := by
  obtain ⟨ab, h1, h2, h3⟩ := addZ dbg hm ha hb
  obtain ⟨ba, k1, k2, k3⟩ := addZ dbg hm hb ha
  obtain ⟨bc, l1, l2, l3⟩ := addZ dbg hm hb hc
  obtain ⟨x, m1, m2, m3⟩ := addZ dbg hm h2 hc
  obtain ⟨y, n1, n2, n3⟩ := addZ dbg hm ha l2
  constructor
  · rw [h1, k1, label_ext h2 k2 (fun i => by rw [h3, k3]; ring)]
  · simp only [h1, l1, Except.ok_bind, m1, n1]
    rw [label_ext m2 n2 (fun i => by rw [m3, n3, h3, l3]; ring)]

example := C06_add_comm_assoc true 121 (by decide) _ _ _ label121 label121 label121

/-- The full statement is false of the code. -/
theorem C06_full_false (dbg : Bool) : ¬ C06_full dbg := by
  intro h
  have h1 := (h 200 (Vector.replicate 32 0) _ rfl).1
  have := (C06_add_exact_iff dbg 200 (by omega)).mp h1
  omega

/-- The constructor accepts domain 0 (meant as 2^16), but every operation on such labels panics in
debug builds. -/
theorem C06_zero_domain_panics (raw : WireBytes) :
    ∃ w, Wire.new 0 raw = .ok w ∧ Wire.add true w w = .error .panic ∧
      Wire.sub true w w = .error .panic ∧ Wire.neg true w = .error .panic ∧
      ∀ x, Wire.mul true w x = .error .panic := by
  have key : ∀ o : Vector (BitVec 16) 16,
      debugAssertR true (o.all fun x => x.toNat < (⟨.u16max, raw⟩ : Wire).dom) = .error .panic := by
    intro o
    have : (o.all fun x => x.toNat < (⟨.u16max, raw⟩ : Wire).dom) = false := by
      rw [Bool.eq_false_iff]; intro h
      have := (Vector.all_eq_true.mp h) 0 (by decide)
      simp [Wire.dom, Domain.num] at this
    rw [this]; rfl
  refine ⟨⟨.u16max, raw⟩, rfl, ?_, ?_, ?_, ?_⟩
  · simp only [Wire.add, Wire.mapWithAsU16]
    rw [debugAssertR_ok (by simp), Except.ok_bind, ofFnM_ok _ (fun i : Fin 16 => BitVec.ofNat 16
      (((toU16 raw)[i].toNat + (toU16 raw)[i].toNat) % 65536)), Except.ok_bind]
    · rw [key, errb]
    · intro i; exact okb _ _
  · simp only [Wire.sub, Wire.mapWithAsU16]
    rw [debugAssertR_ok (by simp), Except.ok_bind, ofFnM_ok _ (fun i : Fin 16 => BitVec.ofNat 16
      (((toU16 raw)[i].toNat + 65536 - (toU16 raw)[i].toNat) % 65536)), Except.ok_bind]
    · rw [key, errb]
    · intro i; exact okb _ _
  · simp only [Wire.neg, Wire.mapAsU16]
    rw [ofFnM_ok _ (fun i : Fin 16 => BitVec.ofNat 16
      ((65536 - (toU16 raw)[i].toNat) % 65536)), Except.ok_bind]
    · rw [key, errb]
    · intro i; exact okb _ _
  · intro x
    rfl

/-- In release builds the operations on labels of domain 0 are exact modulo 2^16. -/
theorem C06_zero_domain_release (a b : WireBytes) (x : Nat) :
    (∃ w, Wire.new 0 a = .ok w ∧ w.domain = .u16max ∧ w.values = a) ∧
    (∃ c, Wire.add false ⟨.u16max, a⟩ ⟨.u16max, b⟩ = .ok c ∧ c.domain = .u16max ∧
      ∀ i, digit c i = (digit ⟨.u16max, a⟩ i + digit ⟨.u16max, b⟩ i) % 65536) ∧
    (∃ c, Wire.sub false ⟨.u16max, a⟩ ⟨.u16max, b⟩ = .ok c ∧ c.domain = .u16max ∧
      ∀ i, (digit c i + digit ⟨.u16max, b⟩ i) % 65536 = digit ⟨.u16max, a⟩ i) ∧
    (∃ c, Wire.neg false ⟨.u16max, a⟩ = .ok c ∧ c.domain = .u16max ∧
      ∀ i, (digit c i + digit ⟨.u16max, a⟩ i) % 65536 = 0) ∧
    (∃ c, Wire.mul false ⟨.u16max, a⟩ x = .ok c ∧ c.domain = .u16max ∧
      ∀ i, digit c i = (x * digit ⟨.u16max, a⟩ i) % 65536) := by
  have hdig : ∀ (f : Fin 16 → Nat) (i : Nat), digit ⟨.u16max, ofU16 (Vector.ofFn fun j => BitVec.ofNat 16 (f j))⟩ i =
      if h : i < 16 then f ⟨i, h⟩ % 65536 else 0 := by
    intro f i
    rw [dg_u16max]
    by_cases h : i < 16
    · simp [h, toU16_ofU16]
    · simp [h]
  have hlt : ∀ (v : WireBytes) (i : Nat) (h : i < 16), (toU16 v)[i].toNat < 65536 := fun v i h => (toU16 v)[i].isLt
  refine ⟨⟨_, rfl, rfl, rfl⟩, ?_, ?_, ?_, ?_⟩
  · refine ⟨⟨.u16max, ofU16 (Vector.ofFn fun i : Fin 16 => BitVec.ofNat 16
      (((toU16 a)[i].toNat + (toU16 b)[i].toNat) % 65536))⟩, ?_, rfl, fun i => ?_⟩
    · simp only [Wire.add, Wire.mapWithAsU16]
      rw [debugAssertR_ok (by simp), Except.ok_bind, ofFnM_ok _ (fun i : Fin 16 => BitVec.ofNat 16
        (((toU16 a)[i].toNat + (toU16 b)[i].toNat) % 65536)), Except.ok_bind]
      · rfl
      · intro i; exact okb _ _
    · rw [hdig]; simp only [dg_u16max]
      by_cases h : i < 16 <;> simp [h]
  · refine ⟨⟨.u16max, ofU16 (Vector.ofFn fun i : Fin 16 => BitVec.ofNat 16
      (((toU16 a)[i].toNat + 65536 - (toU16 b)[i].toNat) % 65536))⟩, ?_, rfl, fun i => ?_⟩
    · simp only [Wire.sub, Wire.mapWithAsU16]
      rw [debugAssertR_ok (by simp), Except.ok_bind, ofFnM_ok _ (fun i : Fin 16 => BitVec.ofNat 16
        (((toU16 a)[i].toNat + 65536 - (toU16 b)[i].toNat) % 65536)), Except.ok_bind]
      · rfl
      · intro i; exact okb _ _
    · rw [hdig]; simp only [dg_u16max]
      by_cases h : i < 16
      · have := hlt a i h
        have := hlt b i h
        simp only [h, dif_pos, Fin.getElem_fin]
        omega
      · simp [h]
  · refine ⟨⟨.u16max, ofU16 (Vector.ofFn fun i : Fin 16 => BitVec.ofNat 16
      ((65536 - (toU16 a)[i].toNat) % 65536))⟩, ?_, rfl, fun i => ?_⟩
    · simp only [Wire.neg, Wire.mapAsU16]
      rw [ofFnM_ok _ (fun i : Fin 16 => BitVec.ofNat 16
        ((65536 - (toU16 a)[i].toNat) % 65536)), Except.ok_bind]
      · rfl
      · intro i; exact okb _ _
    · rw [hdig]; simp only [dg_u16max]
      by_cases h : i < 16
      · have := hlt a i h
        simp only [h, dif_pos, Fin.getElem_fin]
        omega
      · simp [h]
  · refine ⟨⟨.u16max, ofU16 (Vector.ofFn fun i : Fin 16 => BitVec.ofNat 16
      ((x * (toU16 a)[i].toNat) % 65536))⟩, ?_, rfl, fun i => ?_⟩
    · simp only [Wire.mul, Wire.mapAsU16]
      rw [show debugAssertR false (x < (⟨.u16max, a⟩ : Wire).dom) = .ok () from rfl, Except.ok_bind,
        ofFnM_ok _ (fun i : Fin 16 => BitVec.ofNat 16 ((x * (toU16 a)[i].toNat) % 65536)), Except.ok_bind]
      · rfl
      · intro i; exact okb _ _
    · rw [hdig]; simp only [dg_u16max]
      by_cases h : i < 16 <;> simp [h]

/-- A concrete label with wrong sum: in domain 200, 150 + 150 gives 44 instead of 100. -/
example : (do return digit (← Wire.add true ⟨.u8 200, Vector.replicate 32 150⟩
    ⟨.u8 200, Vector.replicate 32 150⟩) 0) = (.ok 44 : R Nat) := by
  simp only [Wire.add]
  rw [mapWith_ok true _ _ _ (fun x y => (x + y) % 256 % 200) rfl (fun _ => rfl), Except.ok_bind]
  rfl

/-- Hypotheses are met by non-trivial labels. -/
example : ∃ w, IsLabel 257 w ∧ digit w 0 = 200 := exists_const (by omega) (by omega) (by omega)

/-! ### C07 -/

/-- C07: the colour of `zero + delta * x` is the colour of `zero` plus `x` modulo the domain. -/
theorem C07_color (dbg : Bool) (m : Nat) (hm : GoodDomain m) (raw : WireBytes) (z : Wire)
    (hz : IsLabel m z) (x : Nat) (hx : x < m) :
    ∃ δ d w, Wire.delta m raw = .ok δ ∧ Wire.mul dbg δ x = .ok d ∧ Wire.add dbg z d = .ok w ∧
      IsLabel m w ∧ w.color = (z.color + x) % m := by
  obtain ⟨δ, h1, h2⟩ := wireDelta_ok hm raw
  obtain ⟨d, h3, h4, h5⟩ := mulZ dbg hm h2.dom hx
  obtain ⟨w, h6, h7, h8⟩ := addZ dbg hm hz h4
  refine ⟨δ, d, w, h1, h3, h6, h7, ?_⟩
  rw [color_carry hz h7 h2 (v := x) (fun i => by rw [h8, h5]), Nat.add_comm]

example := C07_color true 121 (by meets) (Witness.bytes 1) _ label121 100 (by meets)

/-- C07, consequence: different values on one wire have different colours, and every colour of the
domain occurs. -/
theorem C07_color_bijective (dbg : Bool) (m : Nat) (hm : GoodDomain m) (raw : WireBytes) (z : Wire)
    (hz : IsLabel m z) :
    ∃ δ, Wire.delta m raw = .ok δ ∧ ∃ L : Nat → Wire,
      (∀ x, x < m → (do Wire.add dbg z (← Wire.mul dbg δ x)) = .ok (L x) ∧ (L x).color < m) ∧
      (∀ x y, x < m → y < m → (L x).color = (L y).color → x = y) ∧
      (∀ k, k < m → ∃ x, x < m ∧ (L x).color = k) := by
  obtain ⟨δ, h1, _⟩ := wireDelta_ok hm raw
  have key : ∀ x, ∃ w, x < m → (do Wire.add dbg z (← Wire.mul dbg δ x)) = .ok w ∧
      w.color = (z.color + x) % m := by
    intro x
    by_cases hx : x < m
    · obtain ⟨δ', d, w, h2, h3, h4, _, h6⟩ := C07_color dbg m hm raw z hz x hx
      rw [h1] at h2; injection h2 with h2; subst h2
      exact ⟨w, fun _ => ⟨by simp only [h3, Except.ok_bind, h4], h6⟩⟩
    · exact ⟨z, fun h => absurd h hx⟩
  choose L hL using key
  have hm0 := good_pos hm
  have hzc : z.color < m := by rw [color_eq]; exact hz.lt _
  refine ⟨δ, h1, L, fun x hx => ⟨(hL x hx).1, ?_⟩, fun x y hx hy h => ?_, fun k hk => ?_⟩
  · rw [(hL x hx).2]; exact Nat.mod_lt _ hm0
  · rw [(hL x hx).2, (hL y hy).2] at h
    have : x % m = y % m := by
      have := (Nat.ModEq.add_left_cancel' z.color h : x ≡ y [MOD m])
      exact this
    rwa [Nat.mod_eq_of_lt hx, Nat.mod_eq_of_lt hy] at this
  · refine ⟨(k + (m - z.color)) % m, Nat.mod_lt _ hm0, ?_⟩
    rw [(hL _ (Nat.mod_lt _ hm0)).2, Nat.add_mod_mod,
      show z.color + (k + (m - z.color)) = k + m by omega, Nat.add_mod_right]
    exact Nat.mod_eq_of_lt hk

/-- Hypotheses are met: domain 5 with any raw bytes. -/
example (raw : WireBytes) : ∃ z, Wire.new 5 raw = .ok z ∧ IsLabel 5 z ∧ GoodDomain 5 := by
  obtain ⟨z, h1, h2⟩ := wireNew_ok (m := 5) (by decide) raw
  exact ⟨z, h1, h2, by decide⟩

end FP.Props
