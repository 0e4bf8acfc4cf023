import Verif.Proof.ManyFpake
import Verif.Proof.Legacy
/-
Runs of the key exchange with a comparison domain on which label arithmetic wraps around before it is
reduced (129..254 and 32769..65534).
-/
namespace FP
open Spec

/-- A domain the constructor accepts but on which addition and subtraction overflow. -/
def BadDomain (D : Nat) : Prop := (129 ≤ D ∧ D ≤ 254) ∨ (32769 ≤ D ∧ D ≤ 65534)

/-- The number of values of the machine integer behind a component. -/
def limit (D : Nat) : Nat := if D < 255 then 256 else 65536

/-- The label with colour `b` all of whose other components are `a`. -/
def lab (D a b : Nat) : Wire :=
  if D < 255 then ⟨.u8 D, Vector.ofFn fun i : Fin 32 => BitVec.ofNat 8 (if i.val = 31 then b else a)⟩
  else ⟨.u16 D, ofU16 (Vector.ofFn fun i : Fin 16 => BitVec.ofNat 16 (if i.val = 15 then b else a))⟩

theorem BadDomain.lim {D : Nat} (h : BadDomain D) :
    (D < 255 ∧ limit D = 256 ∧ 129 ≤ D ∧ D ≤ 254) ∨ (¬ D < 255 ∧ limit D = 65536 ∧ 32769 ≤ D ∧ D ≤ 65534) := by
  unfold BadDomain at h
  unfold limit
  split <;> omega

theorem lab_new {D : Nat} (h : BadDomain D) (a b : Nat) : Domain.new D = .ok (lab D a b).domain := by
  unfold Domain.new lab
  rcases h.lim with ⟨h1, -, h2, h3⟩ | ⟨h1, -, h2, h3⟩
  · rw [if_neg (by omega), if_neg (by omega), if_pos h1, if_pos h1]
  · rw [if_neg (by omega), if_neg (by omega), if_neg h1, if_neg (by omega), if_pos (by omega), if_neg h1]

theorem lab_domain (D a b a' b' : Nat) : (lab D a b).domain = (lab D a' b').domain := by
  unfold lab; split <;> rfl

theorem lab_color {D : Nat} (h : BadDomain D) {a b : Nat} (hb : b < D) : (lab D a b).color = b := by
  unfold lab
  rcases h.lim with ⟨h1, -, h2, h3⟩ | ⟨h1, -, h2, h3⟩
  · rw [if_pos h1]; simp [Wire.color]; omega
  · rw [if_neg h1]; simp [Wire.color, toU16_ofU16]; omega

theorem lab_dom {D : Nat} (a b : Nat) : (lab D a b).dom = D := by
  unfold lab; split <;> rfl

/-- Any operation that acts on components. -/
theorem lab_map2 {D : Nat} (dbg : Bool) (h : BadDomain D) {a b a' b' : Nat} (ha : a < D) (hb : b < D) (ha' : a' < D) (hb' : b' < D)
    (op : Nat → Nat → R Nat) {c d : Nat} (hc : op a a' = .ok c) (hd : op b b' = .ok d) (hcD : c < D) (hdD : d < D) :
    (D < 255 → (lab D a b).mapWith dbg (lab D a' b') op = .ok (lab D c d)) ∧
    (¬ D < 255 → (lab D a b).mapWithAsU16 dbg (lab D a' b') op = .ok (lab D c d)) := by
  constructor
  · intro h1
    have hD : D ≤ 254 := by omega
    unfold lab
    rw [if_pos h1, if_pos h1, if_pos h1]
    unfold Wire.mapWith
    dsimp only
    rw [debugAssertR_ok (by simp), okb, ofFnM_ok _ (fun i : Fin 32 => BitVec.ofNat 8 (if i.val = 31 then d else c))]
    · rfl
    · intro i
      simp only [Fin.getElem_fin, Vector.getElem_ofFn, BitVec.toNat_ofNat]
      split
      · rw [Nat.mod_eq_of_lt (by omega), Nat.mod_eq_of_lt (by omega), hd]; rfl
      · rw [Nat.mod_eq_of_lt (by omega), Nat.mod_eq_of_lt (by omega), hc]; rfl
  · intro h1
    have hD : D ≤ 65534 := by unfold BadDomain at h; omega
    unfold lab
    rw [if_neg h1, if_neg h1, if_neg h1]
    unfold Wire.mapWithAsU16
    dsimp only
    rw [debugAssertR_ok (by simp), okb, toU16_ofU16, toU16_ofU16,
      ofFnM_ok _ (fun i : Fin 16 => BitVec.ofNat 16 (if i.val = 15 then d else c)), okb, debugAssertR_ok, okb]
    · rfl
    · rw [Vector.all_eq_true]
      intro i hi
      simp only [Vector.getElem_ofFn, BitVec.toNat_ofNat, decide_eq_true_eq, Wire.dom, Domain.num]
      split <;> omega
    · intro i
      simp only [Fin.getElem_fin, Vector.getElem_ofFn, BitVec.toNat_ofNat]
      split
      · rw [Nat.mod_eq_of_lt (by omega), Nat.mod_eq_of_lt (by omega), hd]; rfl
      · rw [Nat.mod_eq_of_lt (by omega), Nat.mod_eq_of_lt (by omega), hc]; rfl

theorem lab_map1 {D : Nat} (dbg : Bool) (h : BadDomain D) {a b : Nat} (ha : a < D) (hb : b < D)
    (op : Nat → R Nat) {c d : Nat} (hc : op a = .ok c) (hd : op b = .ok d) (hcD : c < D) (hdD : d < D) :
    (D < 255 → (lab D a b).map op = .ok (lab D c d)) ∧
    (¬ D < 255 → (lab D a b).mapAsU16 dbg op = .ok (lab D c d)) := by
  constructor
  · intro h1
    unfold lab
    rw [if_pos h1, if_pos h1]
    unfold Wire.map
    dsimp only
    rw [ofFnM_ok _ (fun i : Fin 32 => BitVec.ofNat 8 (if i.val = 31 then d else c))]
    · rfl
    · intro i
      simp only [Fin.getElem_fin, Vector.getElem_ofFn, BitVec.toNat_ofNat]
      split
      · rw [Nat.mod_eq_of_lt (by omega), hd]; rfl
      · rw [Nat.mod_eq_of_lt (by omega), hc]; rfl
  · intro h1
    have hD : D ≤ 65534 := by unfold BadDomain at h; omega
    unfold lab
    rw [if_neg h1, if_neg h1]
    unfold Wire.mapAsU16
    dsimp only
    rw [toU16_ofU16,
      ofFnM_ok _ (fun i : Fin 16 => BitVec.ofNat 16 (if i.val = 15 then d else c)), okb, debugAssertR_ok, okb]
    · rfl
    · rw [Vector.all_eq_true]
      intro i hi
      simp only [Vector.getElem_ofFn, BitVec.toNat_ofNat, decide_eq_true_eq, Wire.dom, Domain.num]
      split <;> omega
    · intro i
      simp only [Fin.getElem_fin, Vector.getElem_ofFn, BitVec.toNat_ofNat]
      split
      · rw [Nat.mod_eq_of_lt (by omega), hd]; rfl
      · rw [Nat.mod_eq_of_lt (by omega), hc]; rfl

theorem lab_small {D : Nat} (h1 : D < 255) (a b : Nat) : (lab D a b).domain = .u8 D := by
  unfold lab; rw [if_pos h1]

theorem lab_large {D : Nat} (h1 : ¬ D < 255) (a b : Nat) : (lab D a b).domain = .u16 D := by
  unfold lab; rw [if_neg h1]

theorem lab_add (dbg : Bool) {D : Nat} (h : BadDomain D) {a b a' b' : Nat} (ha : a < D) (hb : b < D) (ha' : a' < D) (hb' : b' < D) :
    Wire.add dbg (lab D a b) (lab D a' b') = .ok (lab D ((a + a') % limit D % D) ((b + b') % limit D % D)) := by
  have hp : 0 < D := by omega
  have := lab_map2 (a := a) (b := b) (a' := a') (b' := b') dbg h ha hb ha' hb' (fun x y => remR ((x + y) % limit D) D) (remR_ok hp _) (remR_ok hp _) (Nat.mod_lt _ hp) (Nat.mod_lt _ hp)
  unfold Wire.add
  rcases h.lim with ⟨h1, h2, -⟩ | ⟨h1, h2, -⟩
  · rw [lab_small h1]; rw [h2] at this ⊢; exact this.1 h1
  · rw [lab_large h1]; rw [h2] at this ⊢; exact this.2 h1

theorem lab_sub {D : Nat} (h : BadDomain D) {a b a' b' : Nat} (ha : a < D) (hb : b < D) (ha' : a' < D) (hb' : b' < D) :
    Wire.sub false (lab D a b) (lab D a' b') = .ok (lab D ((a + (D - a')) % limit D % D) ((b + (D - b')) % limit D % D)) := by
  have hp : 0 < D := by omega
  have hadd : ∀ W x y, addR false W x y = .ok ((x + y) % W) := by
    intro W x y; unfold addR; split
    · rw [Nat.mod_eq_of_lt (by assumption)]
    · rfl
  have := lab_map2 (a := a) (b := b) (a' := a') (b' := b') false h ha hb ha' hb'
    (fun x y => do remR (← addR false (limit D) x (← subR false (limit D) D y)) D)
    (c := (a + (D - a')) % limit D % D) (d := (b + (D - b')) % limit D % D)
    (by rw [subR_ok false ha'.le, okb, hadd, okb, remR_ok hp])
    (by rw [subR_ok false hb'.le, okb, hadd, okb, remR_ok hp]) (Nat.mod_lt _ hp) (Nat.mod_lt _ hp)
  unfold Wire.sub
  rcases h.lim with ⟨h1, h2, -⟩ | ⟨h1, h2, -⟩
  · rw [lab_small h1]; rw [h2] at this ⊢; exact this.1 h1
  · rw [lab_large h1]; rw [h2] at this ⊢; exact this.2 h1

theorem lab_neg (dbg : Bool) {D : Nat} (h : BadDomain D) {a b : Nat} (ha : a < D) (hb : b < D) :
    Wire.neg dbg (lab D a b) = .ok (lab D ((D - a) % D) ((D - b) % D)) := by
  have hp : 0 < D := by omega
  have := lab_map1 (a := a) (b := b) dbg h ha hb (fun x => do remR (← subR dbg (limit D) D x) D)
    (c := (D - a) % D) (d := (D - b) % D)
    (by rw [subR_ok dbg ha.le, okb, remR_ok hp])
    (by rw [subR_ok dbg hb.le, okb, remR_ok hp]) (Nat.mod_lt _ hp) (Nat.mod_lt _ hp)
  unfold Wire.neg
  rcases h.lim with ⟨h1, h2, -⟩ | ⟨h1, h2, -⟩
  · rw [lab_small h1]; rw [h2] at this; exact this.1 h1
  · rw [lab_large h1]; rw [h2] at this; exact this.2 h1

theorem lab_mul (dbg : Bool) {D : Nat} (h : BadDomain D) {a b x : Nat} (ha : a < D) (hb : b < D) (hx : x < D) :
    Wire.mul dbg (lab D a b) x = .ok (lab D (a * x % D) (b * x % D)) := by
  have hp : 0 < D := by omega
  unfold Wire.mul
  rw [debugAssertR_ok (by rw [lab_dom]; simpa using hx), okb]
  rcases h.lim with ⟨h1, h2, h3, h4⟩ | ⟨h1, h2, h3, h4⟩
  · have e1 : a * x < 65536 := by have := Nat.mul_le_mul (show a ≤ 254 by omega) (show x ≤ 254 by omega); omega
    have e2 : b * x < 65536 := by have := Nat.mul_le_mul (show b ≤ 254 by omega) (show x ≤ 254 by omega); omega
    have := (lab_map1 (a := a) (b := b) dbg h ha hb (fun y => do remR (← mulR dbg 65536 y x) D)
      (c := a * x % D) (d := b * x % D)
      (by rw [mulR_ok dbg e1, okb, remR_ok hp])
      (by rw [mulR_ok dbg e2, okb, remR_ok hp]) (Nat.mod_lt _ hp) (Nat.mod_lt _ hp)).1 h1
    rw [lab_small h1]; exact this
  · have e1 : a * x < 4294967296 := by have := Nat.mul_le_mul (show a ≤ 65534 by omega) (show x ≤ 65534 by omega); omega
    have e2 : b * x < 4294967296 := by have := Nat.mul_le_mul (show b ≤ 65534 by omega) (show x ≤ 65534 by omega); omega
    have := (lab_map1 (a := a) (b := b) dbg h ha hb (fun y => do remR (← mulR dbg 4294967296 y x) D)
      (c := a * x % D) (d := b * x % D)
      (by rw [mulR_ok dbg e1, okb, remR_ok hp])
      (by rw [mulR_ok dbg e2, okb, remR_ok hp]) (Nat.mod_lt _ hp) (Nat.mod_lt _ hp)).2 h1
    rw [lab_large h1]; exact this

/-- A hash that is already reduced is the label. -/
theorem lab_fromArray (dbg : Bool) {D : Nat} (h : BadDomain D) {a b : Nat} (ha : a < D) (hb : b < D) (a' b' : Nat) :
    Wire.fromArray dbg (lab D a b).values (lab D a' b').domain = .ok (lab D a b) := by
  have hp : 0 < D := by omega
  have := lab_map1 (a := a) (b := b) dbg h ha hb (fun x => remR x D)
    (c := a) (d := b) (by rw [remR_ok hp, Nat.mod_eq_of_lt ha])
    (by rw [remR_ok hp, Nat.mod_eq_of_lt hb]) ha hb
  unfold Wire.fromArray
  rw [lab_domain D a' b' a b]
  rcases h.lim with ⟨h1, h2, -⟩ | ⟨h1, h2, -⟩
  · rw [lab_small h1]
    have e : (⟨.u8 D, (lab D a b).values⟩ : Wire) = lab D a b := by rw [← lab_small h1 a b]
    dsimp only
    rw [e]; exact this.1 h1
  · rw [lab_large h1]
    have e : (⟨.u16 D, (lab D a b).values⟩ : Wire) = lab D a b := by rw [← lab_large h1 a b]
    dsimp only
    rw [e]; exact this.2 h1

/-- Labels with different components are different byte strings. -/
theorem lab_inj {D : Nat} (h : BadDomain D) {a b a' b' : Nat} (ha : a < D) (ha' : a' < D)
    (he : (lab D a b).values = (lab D a' b').values) : a = a' := by
  unfold lab at he
  rcases h.lim with ⟨h1, -, h2, h3⟩ | ⟨h1, -, h2, h3⟩
  · rw [if_pos h1, if_pos h1] at he
    have := congrArg (fun v : WireBytes => v[0].toNat) he
    simp at this; omega
  · rw [if_neg h1, if_neg h1] at he
    have := congrArg (fun v : WireBytes => (toU16 v)[0].toNat) he
    simp [toU16_ofU16] at this; omega

/-- A bit label with first byte `a`, last byte `b` and zeros between. -/
def bw (a b : Byte) : Wire :=
  ⟨.binary, Vector.ofFn fun i : Fin 32 => if i.val = 0 then a else if i.val = 31 then b else 0⟩

theorem bw_add (dbg : Bool) (a b a' b' : Byte) : Wire.add dbg (bw a b) (bw a' b') = .ok (bw (a ^^^ a') (b ^^^ b')) := by
  rw [bin_add dbg rfl rfl]
  refine congrArg Except.ok (congrArg (Wire.mk _) (congrArg Vector.ofFn (funext fun i => ?_)))
  unfold bw
  simp only [Fin.getElem_fin, Vector.getElem_ofFn]
  split
  · rfl
  · split
    · rfl
    · exact BitVec.xor_self

theorem bw_sub (dbg : Bool) (a b a' b' : Byte) : Wire.sub dbg (bw a b) (bw a' b') = .ok (bw (a ^^^ a') (b ^^^ b')) :=
  (show Wire.sub dbg (bw a b) (bw a' b') = Wire.add dbg (bw a b) (bw a' b') from rfl).trans (bw_add dbg a b a' b')

theorem bw_mul_one (dbg : Bool) (a b : Byte) : Wire.mul dbg (bw a b) 1 = .ok (bw a b) := bin_mul_one dbg rfl

theorem bw_mul_zero (dbg : Bool) (a b : Byte) : Wire.mul dbg (bw a b) 0 = .ok (bw 0 0) := by
  unfold Wire.mul
  rw [debugAssertR_ok (by rfl), okb]
  show Wire.map _ _ = _
  rw [map_ok _ _ (fun _ => 0) (by intro i; rfl)]
  refine congrArg Except.ok (congrArg (Wire.mk _) (congrArg Vector.ofFn (funext fun i => ?_)))
  split
  · rfl
  · split <;> rfl

/-- The 32 bytes of a list. -/
def toVec (l : Bytes) : WireBytes := Vector.ofFn fun i : Fin 32 => l.getD i.val 0

theorem toVec_toList (v : WireBytes) : toVec v.toList = v := by
  unfold toVec
  apply Vector.ext
  intro i hi
  simp [List.getD_eq_getElem?_getD, hi]

/-- A hash with which the overflow shows: a gate hash is `[1, ..., 1, D - 1]` on two marked labels and
`[0, ..., 0, D - 2]` otherwise, an output hash is the label itself. -/
def wrapHash (D : Nat) (x : Bytes) : WireBytes :=
  if x.length = 40 then
    if x.drop 8 = (bw 5 0).bytes ∨ x.drop 8 = (lab D (D - 1) 0).bytes then (lab D 1 (D - 1)).values
    else (lab D 0 (D - 2)).values
  else toVec (x.drop 10)

/-- The release build with that hash. -/
def wrapEnv (D : Nat) : Env := ⟨false, wrapHash D⟩

theorem wrap_gate (D o : Nat) (w : Wire) : (wrapEnv D).sha256 (beBytes 8 o ++ w.bytes) =
    if w.values = (bw 5 0).values ∨ w.values = (lab D (D - 1) 0).values then (lab D 1 (D - 1)).values
    else (lab D 0 (D - 2)).values := by
  show wrapHash D _ = _
  unfold wrapHash
  have h8 := beBytes_length 8 o
  have hl : (beBytes 8 o ++ w.bytes).length = 40 := by simp [beBytes_length, Wire.bytes]
  have hd : (beBytes 8 o ++ w.bytes).drop 8 = w.bytes := by
    rw [List.drop_append_of_le_length (by omega), List.drop_of_length_le (by omega)]; rfl
  rw [if_pos hl, hd]
  unfold Wire.bytes
  simp only [Vector.toList_inj]

theorem wrap_out (D o x : Nat) (w : Wire) : hashOut (wrapEnv D) o x w = w.values := by
  show wrapHash D _ = _
  unfold wrapHash
  have h8 := beBytes_length 8 o
  have h2 := beBytes_length 2 x
  rw [if_neg (by simp [beBytes_length, Wire.bytes])]
  have hd : (beBytes 8 o ++ beBytes 2 x ++ w.bytes).drop 10 = w.bytes := by
    rw [List.drop_append_of_le_length (by simp; omega), List.drop_of_length_le (by simp; omega)]; rfl
  rw [hd]
  exact toVec_toList _

theorem bw_ne_lab {D : Nat} (h : BadDomain D) (a b : Byte) {x : Nat} (hx : 0 < x) (hxD : x < D) (y : Nat) :
    (bw a b).values ≠ (lab D x y).values := by
  intro he
  unfold lab bw at he
  rcases h.lim with ⟨h1, -, h2, h3⟩ | ⟨h1, -, h2, h3⟩
  · rw [if_pos h1] at he
    have := congrArg (fun v : WireBytes => v[1].toNat) he
    simp at this; omega
  · rw [if_neg h1] at he
    have := congrArg (fun v : WireBytes => (toU16 v)[1].toNat) he
    simp [toU16_ofU16, toU16_toNat] at this; omega

theorem wrap_marked {D : Nat} (o : Nat) (h : BadDomain D) (a' b' : Nat) :
    hashWire (wrapEnv D) o (bw 5 0) (lab D a' b') = .ok (lab D 1 (D - 1)) := by
  have hD : 129 ≤ D := by rcases h with h | h <;> omega
  unfold hashWire
  rw [wrap_gate, if_pos (Or.inl rfl)]
  exact lab_fromArray _ h (by omega) (by omega) _ _

theorem bw_first {a b a' b' : Byte} (h : (bw a b).values = (bw a' b').values) : a = a' ∧ b = b' := by
  unfold bw at h
  have h0 := congrArg (fun v : WireBytes => v[0]) h
  have h1 := congrArg (fun v : WireBytes => v[31]) h
  simp at h0 h1
  exact ⟨h0, h1⟩

theorem wrap_plain {D : Nat} (o : Nat) (h : BadDomain D) {a b : Byte} (hne : ¬ (a = 5 ∧ b = 0)) (a' b' : Nat) :
    hashWire (wrapEnv D) o (bw a b) (lab D a' b') = .ok (lab D 0 (D - 2)) := by
  have hD : 129 ≤ D := by rcases h with h | h <;> omega
  unfold hashWire
  rw [wrap_gate, if_neg]
  · exact lab_fromArray _ h (by omega) (by omega) _ _
  · rintro (he | he)
    · exact hne (bw_first he)
    · exact bw_ne_lab h a b (by omega) (by omega) _ he

/-- The component the evaluator gets where the garbler has `D - 1`. -/
def wrapped (D : Nat) : Nat := (D - 1 + D) % limit D % D

theorem wrapped_eq {D : Nat} (h : BadDomain D) : wrapped D = 2 * D - 1 - limit D ∧ 0 < wrapped D ∧ wrapped D < D - 1 := by
  unfold wrapped
  rcases h.lim with ⟨h1, h4, h2, h3⟩ | ⟨h1, h4, h2, h3⟩
  · rw [h4, show (D - 1 + D) % 256 = 2 * D - 257 by omega, Nat.mod_eq_of_lt (by omega)]; omega
  · rw [h4, show (D - 1 + D) % 65536 = 2 * D - 65537 by omega, Nat.mod_eq_of_lt (by omega)]; omega

theorem wrap_red {D : Nat} (h : BadDomain D) : D % limit D % D = 0 := by
  rcases h.lim with ⟨h1, h4, h2, h3⟩ | ⟨h1, h4, h2, h3⟩ <;> rw [h4, Nat.mod_eq_of_lt (a := D) (by omega), Nat.mod_self]

theorem wrap_id {D x : Nat} (h : BadDomain D) (hx : x < D) : x % limit D % D = x := by
  rcases h.lim with ⟨h1, h4, h2, h3⟩ | ⟨h1, h4, h2, h3⟩ <;>
    rw [h4, Nat.mod_eq_of_lt (a := x) (by omega), Nat.mod_eq_of_lt hx]

theorem lab_add_eq (dbg : Bool) {D : Nat} (h : BadDomain D) {a b a' b' c d : Nat} (ha : a < D) (hb : b < D) (ha' : a' < D) (hb' : b' < D)
    (hc : a + a' = c ∧ c < D ∨ a + a' = D ∧ c = 0) (hd : b + b' = d ∧ d < D ∨ b + b' = D ∧ d = 0) :
    Wire.add dbg (lab D a b) (lab D a' b') = .ok (lab D c d) := by
  have key : ∀ {x y : Nat}, (x = y ∧ y < D ∨ x = D ∧ y = 0) → x % limit D % D = y := by
    rintro x y (⟨rfl, hy⟩ | ⟨rfl, rfl⟩)
    · exact wrap_id h hy
    · exact wrap_red h
  rw [lab_add dbg h ha hb ha' hb', key hc, key hd]

theorem lab_mul_delta (dbg : Bool) {D : Nat} (h : BadDomain D) {x : Nat} (hx : x < D) :
    Wire.mul dbg (lab D 0 1) x = .ok (lab D 0 x) := by
  have hD' : 129 ≤ D := by rcases h with h | h <;> omega
  rw [lab_mul dbg h (by omega) (by omega) hx, Nat.zero_mul, Nat.zero_mod, Nat.one_mul, Nat.mod_eq_of_lt hx]

theorem lab_neg_zero (dbg : Bool) {D : Nat} (h : BadDomain D) : Wire.neg dbg (lab D 0 0) = .ok (lab D 0 0) := by
  have hD' : 129 ≤ D := by rcases h with h | h <;> omega
  rw [lab_neg dbg h (by omega) (by omega), Nat.sub_zero, Nat.mod_self]

theorem lab_neg_one (dbg : Bool) {D : Nat} (h : BadDomain D) : Wire.neg dbg (lab D 1 0) = .ok (lab D (D - 1) 0) := by
  have hD' : 129 ≤ D := by rcases h with h | h <;> omega
  rw [lab_neg dbg h (by omega) (by omega), Nat.sub_zero, Nat.mod_self, Nat.mod_eq_of_lt (a := D - 1) (by omega)]

/-- Projecting an unmarked bit label. -/
theorem wrapProj_plain {D : Nat} (h : BadDomain D) {dl : HMap Nat Wire} (h2 : List.lookup 2 dl = some (bw 0 1))
    (hD : List.lookup D dl = some (lab D 0 1)) {wires : List Wire} {o k : Nat} (hk : wires[k]? = some (bw 0 0)) :
    garbleProj (wrapEnv D) dl wires ⟨o, 2, [k], .proj (.map D)⟩ (.map D) =
      .ok (lab D 0 0, [lab D 0 (D - 2), lab D 0 (D - 1)]) := by
  have hD' : 129 ≤ D := by rcases h with h | h <;> omega
  have hp : 0 < D := by omega
  have hc : (bw 0 0).color = 0 := rfl
  have e0 : ([k] : List Nat)[0]? = some k := rfl
  have e00 : (0 : Byte) ^^^ 0 = 0 := rfl
  have e01 : (0 : Byte) ^^^ 1 = 1 := rfl
  have hr : ∀ x < D, remR x D = .ok x := fun x hx => by rw [remR_ok hp, Nat.mod_eq_of_lt hx]
  have hs : subR (wrapEnv D).dbg 65536 2 0 = .ok 2 := rfl
  have hadd0 : addR (wrapEnv D).dbg 65536 0 0 = .ok 0 := rfl
  have hadd1 : addR (wrapEnv D).dbg 65536 1 0 = .ok 1 := rfl
  have hr0 : remR 0 2 = .ok 0 := rfl
  have hr1 : remR 1 2 = .ok 1 := rfl
  have a1 := lab_add_eq (wrapEnv D).dbg h (a := 0) (b := D - 2) (a' := 0) (b' := 2) (c := 0) (d := 0)
    (by omega) (by omega) (by omega) (by omega) (by omega) (by omega)
  have a2 := lab_add_eq (wrapEnv D).dbg h (a := 0) (b := D - 2) (a' := 0) (b' := 0) (c := 0) (d := D - 2)
    (by omega) (by omega) (by omega) (by omega) (by omega) (by omega)
  have a3 := lab_add_eq (wrapEnv D).dbg h (a := 0) (b := D - 2) (a' := 0) (b' := 1) (c := 0) (d := D - 1)
    (by omega) (by omega) (by omega) (by omega) (by omega) (by omega)
  have hrange : List.range 2 = [0, 1] := rfl
  have hrep : List.replicate 2 Wire.empty = [Wire.empty, Wire.empty] := rfl
  have hset0 : ∀ c, setR [Wire.empty, Wire.empty] 0 c = .ok [c, Wire.empty] := fun _ => rfl
  have hset1 : ∀ a c, setR [a, Wire.empty] 1 c = .ok [a, c] := fun _ _ => rfl
  simp only [garbleProj, ProjKind.dom, idxR_ok e0, okb, idxR_ok hk, hc, HMap.getR_ok h2, HMap.getR_ok hD, bw_mul_zero, bw_sub,
    e00, wrap_plain (D := D) o h (a := 0) (b := 0) (by decide), wrap_plain (D := D) o h (a := 0) (b := 1) (by decide),
    hs, ProjKind.project, hr 2 (by omega), hr 1 (by omega), hr 0 hp, lab_mul_delta _ h (show 2 < D by omega),
    lab_mul_delta _ h (show 1 < D by omega), lab_mul_delta _ h hp, a1, a2, a3, lab_neg_zero _ h, hrange, hrep, List.foldlM_cons,
    List.foldlM_nil, bw_add, bw_mul_one, e01, hadd0, hadd1, hr0, hr1, hset0, hset1, purek]

/-- Projecting a marked bit label. -/
theorem wrapProj_marked {D : Nat} (h : BadDomain D) {dl : HMap Nat Wire} (h2 : List.lookup 2 dl = some (bw 0 1))
    (hD : List.lookup D dl = some (lab D 0 1)) {wires : List Wire} {o k : Nat} (hk : wires[k]? = some (bw 5 1)) :
    garbleProj (wrapEnv D) dl wires ⟨o, 2, [k], .proj (.map D)⟩ (.map D) =
      .ok (lab D (D - 1) 0, [lab D 0 0, lab D (D - 1) (D - 2)]) := by
  have hD' : 129 ≤ D := by rcases h with h | h <;> omega
  have hp : 0 < D := by omega
  have hc : (bw 5 1).color = 1 := rfl
  have e0 : ([k] : List Nat)[0]? = some k := rfl
  have e00 : (5 : Byte) ^^^ 0 = 5 := rfl
  have e01 : (1 : Byte) ^^^ 0 = 1 := rfl
  have e02 : (1 : Byte) ^^^ 1 = 0 := rfl
  have hr : ∀ x < D, remR x D = .ok x := fun x hx => by rw [remR_ok hp, Nat.mod_eq_of_lt hx]
  have hs : subR (wrapEnv D).dbg 65536 2 1 = .ok 1 := rfl
  have hadd0 : addR (wrapEnv D).dbg 65536 0 1 = .ok 1 := rfl
  have hadd1 : addR (wrapEnv D).dbg 65536 1 1 = .ok 2 := rfl
  have hr0 : remR 1 2 = .ok 1 := rfl
  have hr1 : remR 2 2 = .ok 0 := rfl
  have a1 := lab_add_eq (wrapEnv D).dbg h (a := 1) (b := D - 1) (a' := 0) (b' := 1) (c := 1) (d := 0)
    (by omega) (by omega) (by omega) (by omega) (by omega) (by omega)
  have a2 := lab_add_eq (wrapEnv D).dbg h (a := 0) (b := D - 2) (a' := D - 1) (b' := 0) (c := D - 1) (d := D - 2)
    (by omega) (by omega) (by omega) (by omega) (by omega) (by omega)
  have a3 := lab_add_eq (wrapEnv D).dbg h (a := D - 1) (b := D - 2) (a' := 0) (b' := 0) (c := D - 1) (d := D - 2)
    (by omega) (by omega) (by omega) (by omega) (by omega) (by omega)
  have a4 := lab_add_eq (wrapEnv D).dbg h (a := 1) (b := D - 1) (a' := D - 1) (b' := 0) (c := 0) (d := D - 1)
    (by omega) (by omega) (by omega) (by omega) (by omega) (by omega)
  have a5 := lab_add_eq (wrapEnv D).dbg h (a := 0) (b := D - 1) (a' := 0) (b' := 1) (c := 0) (d := 0)
    (by omega) (by omega) (by omega) (by omega) (by omega) (by omega)
  have hrange : List.range 2 = [0, 1] := rfl
  have hrep : List.replicate 2 Wire.empty = [Wire.empty, Wire.empty] := rfl
  have hset0 : ∀ c, setR [Wire.empty, Wire.empty] 1 c = .ok [Wire.empty, c] := fun _ => rfl
  have hset1 : ∀ a c, setR [Wire.empty, a] 0 c = .ok [c, a] := fun _ _ => rfl
  simp only [garbleProj, ProjKind.dom, idxR_ok e0, okb, idxR_ok hk, hc, HMap.getR_ok h2, HMap.getR_ok hD, bw_mul_zero, bw_sub,
    e00, e01, e02, wrap_plain (D := D) o h (a := 5) (b := 1) (by decide), wrap_marked (D := D) o h,
    hs, ProjKind.project, hr 1 (by omega), hr 0 hp,
    lab_mul_delta _ h (show 1 < D by omega), lab_mul_delta _ h hp, a1, a2, a3, a4, a5, lab_neg_one _ h, hrange, hrep, List.foldlM_cons,
    List.foldlM_nil, bw_add, bw_mul_one, hadd0, hadd1, hr0, hr1, hset0, hset1, purek]

/-- Filling a table row by row when every row can be computed. -/
theorem table_ok (dbg : Bool) {m c : Nat} (hm : 0 < m) (hfit : m + c ≤ 65536) (row : Nat → R Wire) (val : Nat → Wire)
    (hrow : ∀ x < m, row x = .ok (val x)) :
    ∃ tbl, (List.range m).foldlM (fun tbl x => do
        let cipher ← row x
        setR tbl (← remR (← addR dbg 65536 x c) m) cipher) (List.replicate m Wire.empty) = .ok tbl ∧
      ∀ x < m, tbl[(x + c) % m]? = some (val x) := by
  obtain ⟨tbl, h1, h2, h3⟩ := foldlM_inv (l := List.range m) (s := List.replicate m Wire.empty)
    (f := fun tbl x => do
        let cipher ← row x
        setR tbl (← remR (← addR dbg 65536 x c) m) cipher)
    (fun k (tbl : List Wire) => tbl.length = m ∧ ∀ x < k, tbl[(x + c) % m]? = some (val x))
    ⟨by simp, fun x hx => absurd hx (by omega)⟩ (by
      intro k x tbl hk ⟨hlen, hinv⟩
      have hkd : k < m := by
        have := (List.getElem?_eq_some_iff.mp hk).1; simpa using this
      obtain rfl : k = x := by rw [List.getElem?_range hkd] at hk; injection hk
      have hmodlt := Nat.mod_lt (k + c) hm
      refine ⟨tbl.set ((k + c) % m) (val k), ?_, by simp [hlen], ?_⟩
      · simp only [hrow k hkd, okb, addR_ok dbg (show k + c < 65536 by omega), remR_ok hm,
          setR_ok (val k) (show (k + c) % m < tbl.length by omega)]
      · intro x hx
        by_cases hxk : x = k
        · subst hxk
          simp [hlen, hmodlt]
        · rw [List.getElem?_set_ne (fun he => hxk (mod_shift_inj (by omega) hkd he.symm))]
          exact hinv x (by omega))
  exact ⟨tbl, h1, fun x hx => h3 x (by simpa using hx)⟩

/-- The bit label that hashing gives. -/
def hashBit (D o : Nat) (w : Wire) : Wire := ⟨.binary, (wrapEnv D).sha256 (beBytes 8 o ++ w.bytes)⟩

theorem hashBit_ok (D o : Nat) (w t : Wire) (ht : t.domain = .binary) : hashWire (wrapEnv D) o w t = .ok (hashBit D o w) := by
  unfold hashWire
  rw [ht]
  rfl

theorem bin_neg (dbg : Bool) {w : Wire} (h : w.domain = .binary) : ∃ w', Wire.neg dbg w = .ok w' ∧ w'.domain = .binary := by
  unfold Wire.neg
  rw [h]
  dsimp only
  rw [map_ok _ _ (fun x => 0xFF ^^^ x) (fun _ => rfl)]
  exact ⟨_, rfl, h⟩

/-- The comparison gate. -/
theorem wrapProj_last {D T : Nat} (h : BadDomain D) {dl : HMap Nat Wire} (h2 : List.lookup 2 dl = some (bw 0 1))
    (hD : List.lookup D dl = some (lab D 0 1)) {wires : List Wire} {o k a : Nat} (ha : a < D)
    (hk : wires[k]? = some (lab D a 0)) (hT : 0 < T) :
    ∃ w tbl, garbleProj (wrapEnv D) dl wires ⟨o, D, [k], .proj (.less T)⟩ (.less T) = .ok (w, tbl) ∧ w.domain = .binary ∧
      tbl[0]? = some (oneLabel (oneLabel (hashBit D o (lab D a 0)) w) (bw 0 1)) := by
  have hD' : 129 ≤ D ∧ D ≤ 65534 := by rcases h with h | h <;> omega
  have hp : 0 < D := by omega
  have hc := lab_color h (a := a) hp
  have e0 : ([k] : List Nat)[0]? = some k := rfl
  have hs : subR (wrapEnv D).dbg 65536 D 0 = .ok D := subR_ok _ (Nat.zero_le _)
  have hbit : ∀ x, ∃ v, Wire.mul (wrapEnv D).dbg (bw 0 1) (if x < T then 1 else 0) = .ok v ∧ v.domain = .binary := by
    intro x
    split
    · exact ⟨_, bw_mul_one _ _ _, rfl⟩
    · exact ⟨_, bw_mul_zero _ _ _, rfl⟩
  obtain ⟨v0, hv0, hv0d⟩ := hbit D
  have hsub := lab_sub h (a := a) (b := 0) (a' := 0) (b' := 0) ha hp hp hp
  obtain ⟨w, hw, hwd⟩ := bin_neg (wrapEnv D).dbg (w := oneLabel (hashBit D o (lab D ((a + (D - 0)) % limit D % D) ((0 + (D - 0)) % limit D % D))) v0) rfl
  choose v hv hvd using hbit
  have hrow : ∀ x < D, (do
      let hashed ← hashWire (wrapEnv D) o (← Wire.add (wrapEnv D).dbg (lab D a 0) (← Wire.mul (wrapEnv D).dbg (lab D 0 1) x)) w
      Wire.add (wrapEnv D).dbg (← Wire.add (wrapEnv D).dbg hashed w)
        (← Wire.mul (wrapEnv D).dbg (bw 0 1) (← (ProjKind.less T).project x))) =
      .ok (oneLabel (oneLabel (hashBit D o (lab D a x)) w) (v x)) := by
    intro x hx
    have hadd := lab_add_eq (wrapEnv D).dbg h (a := a) (b := 0) (a' := 0) (b' := x) (c := a) (d := x) ha hp hp hx (by omega) (by omega)
    have b1 := bin_add (wrapEnv D).dbg (w := hashBit D o (lab D a x)) (δ := w) rfl hwd
    have b2 := bin_add (wrapEnv D).dbg (w := oneLabel (hashBit D o (lab D a x)) w) (δ := v x) rfl (hvd x)
    simp only [lab_mul_delta _ h hx, okb, hadd, hashBit_ok D o _ w hwd, b1, ProjKind.project, hv x, b2]
  obtain ⟨tbl, ht1, ht2⟩ := table_ok (wrapEnv D).dbg (m := D) (c := 0) hp (by omega) _ _ hrow
  refine ⟨w, tbl, ?_, hwd, ?_⟩
  · have b0 := bin_add (wrapEnv D).dbg (w := hashBit D o (lab D ((a + (D - 0)) % limit D % D) ((0 + (D - 0)) % limit D % D))) (δ := v0) rfl hv0d
    have hsub' : Wire.sub (wrapEnv D).dbg (lab D a 0) (lab D 0 0) = _ := hsub
    simp only [bind_assoc] at ht1
    simp only [garbleProj, ProjKind.dom, idxR_ok e0, okb, idxR_ok hk, hc, HMap.getR_ok h2, HMap.getR_ok hD, lab_mul_delta _ h hp,
      hsub', hashBit_ok D o _ (bw 0 1) rfl, hs, ProjKind.project, hv0, b0, hw]
    simp only [ProjKind.project, okb] at ht1
    rw [ht1]
    rfl
  · have := ht2 0 hp
    rw [Nat.add_zero, Nat.zero_mod] at this
    rw [this]
    have hv1 : v 0 = bw 0 1 := by
      have := hv 0
      rw [if_pos hT, bw_mul_one] at this
      injection this with this
      exact this.symm
    rw [hv1]

/-- The zero labels of the difference wires: all plain except the first one of a marked run. -/
def xlab (m : Bool) (i : Nat) : Wire := if m = true ∧ i = 0 then bw 5 1 else bw 0 0

/-- The zero labels of the projected wires. -/
def glab (D : Nat) (m : Bool) (i : Nat) : Wire := if m = true ∧ i = 0 then lab D (D - 1) 0 else lab D 0 0

/-- The labels an evaluator gets there for the value 0. -/
def vlab (D : Nat) (m : Bool) (i : Nat) : Wire := if m = true ∧ i = 0 then lab D (wrapped D) 0 else lab D 0 0

theorem wrapProj {D : Nat} (h : BadDomain D) {dl : HMap Nat Wire} (h2 : List.lookup 2 dl = some (bw 0 1))
    (hD : List.lookup D dl = some (lab D 0 1)) {wires : List Wire} {o k i : Nat} {m : Bool} (hk : wires[k]? = some (xlab m i)) :
    ∃ tbl c hw, garbleProj (wrapEnv D) dl wires ⟨o, 2, [k], .proj (.map D)⟩ (.map D) = .ok (glab D m i, tbl) ∧
      tbl[(xlab m i).color]? = some c ∧ hashWire (wrapEnv D) o (xlab m i) c = .ok hw ∧ Wire.sub false c hw = .ok (vlab D m i) := by
  have hD' : 129 ≤ D := by rcases h with h | h <;> omega
  unfold xlab glab vlab at *
  by_cases hm : m = true ∧ i = 0
  · rw [if_pos hm] at hk ⊢
    rw [if_pos hm, if_pos hm]
    refine ⟨_, lab D (D - 1) (D - 2), _, wrapProj_marked h h2 hD hk, rfl, wrap_plain o h (by decide) _ _, ?_⟩
    rw [lab_sub h (by omega) (by omega) (by omega) (by omega), Nat.sub_zero,
      show D - 2 + (D - (D - 2)) = D by omega, wrap_red h]
    rfl
  · rw [if_neg hm] at hk ⊢
    rw [if_neg hm, if_neg hm]
    refine ⟨_, lab D 0 (D - 2), _, wrapProj_plain h h2 hD hk, rfl, wrap_plain o h (by decide) _ _, ?_⟩
    rw [lab_sub h (by omega) (by omega) (by omega) (by omega), Nat.sub_zero, Nat.zero_add,
      show D - 2 + (D - (D - 2)) = D by omega, wrap_red h]

/-- Summing labels of which at most the first is not zero. -/
theorem wrap_sum (dbg : Bool) {D a : Nat} (h : BadDomain D) (ha : a < D) (l : List Wire) (hl : ∀ w ∈ l, w = lab D 0 0) :
    Wire.sum dbg (lab D a 0 :: l) = .ok (lab D a 0) := by
  have hp : 0 < D := by omega
  show l.foldlM _ _ = _
  induction l with
  | nil => rfl
  | cons w l ih =>
    rw [List.foldlM_cons, hl w (by simp), lab_add_eq dbg h (c := a) (d := 0) ha hp hp hp (by omega) (by omega), okb]
    exact ih fun w hw => hl w (by simp [hw])

/-- Reading consecutive wires. -/
theorem read_range {f : Nat → R Wire} {val : Nat → Wire} {b n : Nat} (hn : 0 < n) (h : ∀ i < n, f (b + i) = .ok (val i)) :
    (List.range' b n).mapM f = .ok (val 0 :: (List.range' 1 (n - 1)).map val) := by
  have : List.range' b n = (List.range n).map (b + ·) := List.range'_eq_map_range ..
  rw [this]
  have h2 : ((List.range n).map (b + ·)).mapM f = .ok ((List.range n).map val) := by
    clear this
    have : ∀ l : List Nat, (∀ i ∈ l, i < n) → (l.map (b + ·)).mapM f = .ok (l.map val) := by
      intro l
      induction l with
      | nil => intro _; rfl
      | cons i l ih =>
        intro hl
        rw [List.map_cons, List.mapM_cons, h i (hl i (by simp)), okb, ih fun j hj => hl j (by simp [hj])]
        rfl
    exact this _ fun i hi => List.mem_range.mp hi
  rw [h2]
  obtain ⟨k, rfl⟩ : ∃ k, n = k + 1 := ⟨n - 1, by omega⟩
  rw [List.range_succ_eq_map, List.map_cons, Nat.add_sub_cancel, List.range'_eq_map_range, List.map_map, List.map_map]
  congr 3
  funext i
  simp only [Function.comp_apply, Nat.succ_eq_add_one, Nat.add_comm]

theorem byte_cancel (a w d b : Byte) : a ^^^ w ^^^ d ^^^ b = w ^^^ d ↔ a = b := by
  constructor
  · intro h
    apply BitVec.eq_of_getLsbD_eq
    intro i hi
    have := congrArg (fun x : Byte => x.getLsbD i) h
    simp only [BitVec.getLsbD_xor] at this
    revert this
    cases a.getLsbD i <;> cases w.getLsbD i <;> cases d.getLsbD i <;> cases b.getLsbD i <;> simp
  · rintro rfl
    apply BitVec.eq_of_getLsbD_eq
    intro i hi
    simp only [BitVec.getLsbD_xor]
    cases a.getLsbD i <;> cases w.getLsbD i <;> cases d.getLsbD i <;> rfl

theorem oneLabel_mask (a w d b : Wire) :
    (oneLabel (oneLabel (oneLabel a w) d) b).values = (oneLabel w d).values ↔ a.values = b.values := by
  unfold oneLabel
  constructor
  · intro h
    apply Vector.ext
    intro i hi
    have := congrArg (fun v : WireBytes => v[i]) h
    simp only [Vector.getElem_ofFn, Fin.getElem_fin] at this
    exact (byte_cancel _ _ _ _).mp this
  · intro h
    apply Vector.ext
    intro i hi
    simp only [Vector.getElem_ofFn, Fin.getElem_fin]
    exact (byte_cancel a.values[i] w.values[i] d.values[i] b.values[i]).mpr (congrArg (fun v : WireBytes => v[i]) h)

/-- The two hashes that make the difference. -/
theorem hashBit_differ {D : Nat} (h : BadDomain D) (o : Nat) :
    (hashBit D o (lab D (D - 1) 0)).values ≠ (hashBit D o (lab D (wrapped D) 0)).values := by
  have hD' : 129 ≤ D := by rcases h with h | h <;> omega
  have hw := wrapped_eq h
  have e1 : (hashBit D o (lab D (D - 1) 0)).values = (lab D 1 (D - 1)).values := by
    unfold hashBit
    rw [wrap_gate, if_pos (Or.inr rfl)]
  have e2 : (hashBit D o (lab D (wrapped D) 0)).values = (lab D 0 (D - 2)).values := by
    unfold hashBit
    rw [wrap_gate, if_neg]
    rintro (he | he)
    · exact bw_ne_lab h 5 0 hw.2.1 (by omega) _ he.symm
    · have := lab_inj h (by omega) (by omega) he
      omega
  rw [e1, e2]
  intro he
  have := lab_inj h (by omega) (by omega) he
  omega

/-- Garbling the tail of a threshold circuit, and what evaluating it on the value 0 gives. -/
theorem wrap_tail {D T p n : Nat} (h : BadDomain D) (hT : 0 < T) (hn : 0 < n) {dl : HMap Nat Wire}
    (h2 : List.lookup 2 dl = some (bw 0 1)) (hD : List.lookup D dl = some (lab D 0 1)) (m : Bool) {s : GarbleState}
    (hl : s.wires.length = p + n) (hx : ∀ i < n, s.wires[p + i]? = some (xlab m i)) (hd : s.d = []) :
    ∃ s' w v0 L, (tailGates p n D T).foldlM (fun s g => do
          garbleDecoding (wrapEnv D) dl (p + 2 * n + 1) (← garbleGate (wrapEnv D) dl s g) g) s = .ok s' ∧
      (∀ k < p + n, List.lookup k s'.f = List.lookup k s.f) ∧ s'.fHalf = s.fHalf ∧
      w.domain = .binary ∧ s'.d = [[v0, (oneLabel w (bw 0 1)).values]] ∧
      (m = false → L = oneLabel w (bw 0 1)) ∧ (m = true → L.values ≠ (oneLabel w (bw 0 1)).values) ∧
      ∀ (gc : GarbledCircuit) (ev : List (Option Wire)) (j : Nat), gc.f = s'.f → ev.length = p + 2 * n + 2 →
        (∀ i < n, ev[p + i]? = some (some (xlab m i))) →
        ∃ ev', (tailGates p n D T).foldlM (fun (s : List (Option Wire) × Nat) g => do
            let (w, j) ← evalGate (wrapEnv D) gc s.1 s.2 g
            return (← setR s.1 g.output (some w), j)) (ev, j) = .ok (ev', j) ∧ ev'.length = p + 2 * n + 2 ∧
          ev'[p + 2 * n + 1]? = some (some L) := by
  have hD' : 129 ≤ D ∧ D ≤ 65534 := by rcases h with h | h <;> omega
  have hp : 0 < D := by omega
  let step := fun (s : GarbleState) (g : Gate) => (do
    garbleDecoding (wrapEnv D) dl (p + 2 * n + 1) (← garbleGate (wrapEnv D) dl s g) g : R GarbleState)
  -- the projections
  obtain ⟨s1, e1, hw1, hf1, hfo1, hh1, hd1⟩ := foldlM_inv (f := step) (s := s)
    (l := (List.range n).map fun i => (⟨i + p + n, 2, [i + p], .proj (.map D)⟩ : Gate))
    (fun k s' => s'.wires = s.wires ++ (List.range k).map (glab D m) ∧
      (∀ i < k, ∃ tbl c hw, List.lookup (i + p + n) s'.f = some tbl ∧ tbl[(xlab m i).color]? = some c ∧
        hashWire (wrapEnv D) (i + p + n) (xlab m i) c = .ok hw ∧ Wire.sub false c hw = .ok (vlab D m i)) ∧
      (∀ k < p + n, List.lookup k s'.f = List.lookup k s.f) ∧ s'.fHalf = s.fHalf ∧ s'.d = [])
    ⟨by simp, fun i hi => absurd hi (by omega), fun _ _ => rfl, rfl, hd⟩ (by
      rintro k g t hk ⟨q1, q2, q3, q4, q5⟩
      have hkn : k < n := by
        have := (List.getElem?_eq_some_iff.mp hk).1; simpa using this
      have hg : g = ⟨k + p + n, 2, [k + p], .proj (.map D)⟩ := by
        rw [List.getElem?_map, List.getElem?_range hkn] at hk
        exact (Option.some.inj hk).symm
      subst hg
      have hwk : t.wires[k + p]? = some (xlab m k) := by
        rw [q1, List.getElem?_append_left (by omega), Nat.add_comm, hx k hkn]
      obtain ⟨tbl, c, hw, r1, r2, r3, r4⟩ := wrapProj h h2 hD (o := k + p + n) hwk
      refine ⟨{ t with wires := t.wires ++ [glab D m k], f := t.f.insert (k + p + n) tbl }, ?_, ?_, ?_, ?_, q4, q5⟩
      · simp only [step, garbleGate, r1, okb, purek, garbleDecoding]
        rw [if_neg (by omega)]
      · simp only [q1, List.range_succ, List.map_append, List.map_cons, List.map_nil, List.append_assoc]
      · intro i hi
        by_cases hik : i = k
        · subst hik
          exact ⟨tbl, c, hw, by simp [HMap.insert], r2, r3, r4⟩
        · obtain ⟨t1, c1, w1, g1, g2⟩ := q2 i (by omega)
          refine ⟨t1, c1, w1, ?_, g2⟩
          simp only [HMap.insert]
          rw [lookup_cons_eq, if_neg (by omega)]
          exact g1
      · intro i hi
        simp only [HMap.insert]
        rw [lookup_cons_eq, if_neg (by omega)]
        exact q3 i hi)
  rw [List.length_map, List.length_range] at hw1 hf1
  have hl1 : s1.wires.length = p + 2 * n := by rw [hw1]; simp; omega
  -- the sum
  have hr1 : ∀ i < n, idxR s1.wires (p + n + i) = .ok (glab D m i) := by
    intro i hi
    refine idxR_ok ?_
    rw [hw1, List.getElem?_append_right (by omega), hl, show p + n + i - (p + n) = i by omega]
    simp [hi]
  obtain ⟨a, ha, hga⟩ : ∃ a, a < D ∧ glab D m 0 = lab D a 0 := by
    unfold glab; split
    · exact ⟨_, by omega, rfl⟩
    · exact ⟨_, by omega, rfl⟩
  obtain ⟨b, hb, hvb⟩ : ∃ b, b < D ∧ vlab D m 0 = lab D b 0 := by
    have := (wrapped_eq h).2.2
    unfold vlab; split
    · exact ⟨_, by omega, rfl⟩
    · exact ⟨_, by omega, rfl⟩
  have hz : ∀ w ∈ (List.range' 1 (n - 1)).map (glab D m), w = lab D 0 0 := by
    intro w hw
    obtain ⟨i, hi, rfl⟩ := List.mem_map.mp hw
    have : i ≠ 0 := by rw [List.mem_range'_1] at hi; omega
    simp [glab, this]
  have hz' : ∀ w ∈ (List.range' 1 (n - 1)).map (vlab D m), w = lab D 0 0 := by
    intro w hw
    obtain ⟨i, hi, rfl⟩ := List.mem_map.mp hw
    have : i ≠ 0 := by rw [List.mem_range'_1] at hi; omega
    simp [vlab, this]
  have hs1 : step s1 ⟨p + 2 * n, D, List.range' (p + n) n, .add⟩ = .ok { s1 with wires := s1.wires ++ [lab D a 0] } := by
    simp only [step, garbleGate, read_range hn hr1, okb, hga, wrap_sum _ h ha _ hz, purek, garbleDecoding]
    rw [if_neg (by omega)]
  -- the comparison
  have hk2 : (s1.wires ++ [lab D a 0])[p + 2 * n]? = some (lab D a 0) := by
    rw [List.getElem?_append_right (by omega), hl1]; simp
  obtain ⟨w, tbl, c1, c2, c3⟩ := wrapProj_last (T := T) h h2 hD (o := p + 2 * n + 1) ha hk2 hT
  let s2 : GarbleState := { s1 with
    wires := s1.wires ++ [lab D a 0] ++ [w]
    f := s1.f.insert (p + 2 * n + 1) tbl
    d := [[(oneLabel w (bw 0 0)).values, (oneLabel w (bw 0 1)).values]] }
  have hs2 : step { s1 with wires := s1.wires ++ [lab D a 0] } ⟨p + 2 * n + 1, D, [p + 2 * n], .proj (.less T)⟩ = .ok s2 := by
    have hwo : (s1.wires ++ [lab D a 0] ++ [w])[p + 2 * n + 1]? = some w := by
      rw [List.getElem?_append_right (by simp; omega)]
      simp [hl1]
    have hrange : List.range 2 = [0, 1] := rfl
    simp only [step, garbleGate, c1, okb, purek, garbleDecoding, Gate.outputDomain, ProjKind.dom]
    rw [if_pos (by omega)]
    simp only [hrange, List.mapM_cons, List.mapM_nil, idxR_ok hwo, okb, HMap.getR_ok h2, bw_mul_zero, bw_mul_one,
      bin_add _ (w := w) (δ := bw 0 0) c2 rfl, bin_add _ (w := w) (δ := bw 0 1) c2 rfl, purek, wrap_out, hd1, List.nil_append, s2]
  let c0 := oneLabel (oneLabel (hashBit D (p + 2 * n + 1) (lab D a 0)) w) (bw 0 1)
  let L := oneLabel c0 (hashBit D (p + 2 * n + 1) (lab D b 0))
  refine ⟨s2, w, _, L, ?_, ?_, hh1, c2, rfl, ?_, ?_, ?_⟩
  · show (tailGates p n D T).foldlM step s = _
    unfold tailGates
    rw [List.foldlM_append, e1, okb]
    simp only [List.foldlM_cons, List.foldlM_nil, hs1, okb, hs2, purek]
  · intro k hk
    show List.lookup k (s1.f.insert (p + 2 * n + 1) tbl) = _
    simp only [HMap.insert]
    rw [lookup_cons_eq, if_neg (by omega)]
    exact hfo1 k hk
  · intro hm
    have h1 : a = 0 := by
      have := hga
      simp only [glab, hm, Bool.false_eq_true, false_and, if_false] at this
      exact (lab_inj h hp ha (congrArg Wire.values this)).symm
    have h2 : b = 0 := by
      have := hvb
      simp only [vlab, hm, Bool.false_eq_true, false_and, if_false] at this
      exact (lab_inj h hp hb (congrArg Wire.values this)).symm
    have : L.values = (oneLabel w (bw 0 1)).values := (oneLabel_mask _ _ _ _).mpr (by rw [h1, h2])
    show (⟨.binary, L.values⟩ : Wire) = ⟨.binary, (oneLabel w (bw 0 1)).values⟩
    rw [this]
  · intro hm he
    have h3 := (wrapped_eq h).2.2
    have h1 : a = D - 1 := by
      have := hga
      simp only [glab, hm, and_self, if_true] at this
      exact (lab_inj h (by omega) ha (congrArg Wire.values this)).symm
    have h2 : b = wrapped D := by
      have := hvb
      simp only [vlab, hm, and_self, if_true] at this
      exact (lab_inj h (by omega) hb (congrArg Wire.values this)).symm
    have := (oneLabel_mask _ _ _ _).mp he
    rw [h1, h2] at this
    exact hashBit_differ h _ this
  · intro gc ev j hgf hel hev
    let estep := fun (s : List (Option Wire) × Nat) (g : Gate) => (do
      let (w, j) ← evalGate (wrapEnv D) gc s.1 s.2 g
      return (← setR s.1 g.output (some w), j) : R (List (Option Wire) × Nat))
    obtain ⟨t1, f1, g1, g2, g3, g4⟩ := foldlM_inv (f := estep) (s := (ev, j))
      (l := (List.range n).map fun i => (⟨i + p + n, 2, [i + p], .proj (.map D)⟩ : Gate))
      (fun k t => t.1.length = p + 2 * n + 2 ∧ t.2 = j ∧ (∀ i < n, t.1[p + i]? = some (some (xlab m i))) ∧
        ∀ i < k, t.1[p + n + i]? = some (some (vlab D m i)))
      ⟨hel, rfl, hev, fun i hi => absurd hi (by omega)⟩ (by
        rintro k g t hk ⟨q1, q2, q3, q4⟩
        have hkn : k < n := by
          have := (List.getElem?_eq_some_iff.mp hk).1; simpa using this
        have hg : g = ⟨k + p + n, 2, [k + p], .proj (.map D)⟩ := by
          rw [List.getElem?_map, List.getElem?_range hkn] at hk
          exact (Option.some.inj hk).symm
        subst hg
        obtain ⟨tb, c, hw, r1, r2, r3, r4⟩ := hf1 k hkn
        have hlook : List.lookup (k + p + n) gc.f = some tb := by
          rw [hgf]
          show List.lookup _ (s1.f.insert (p + 2 * n + 1) tbl) = _
          simp only [HMap.insert]
          rw [lookup_cons_eq, if_neg (by omega)]
          exact r1
        have e0 : ([k + p] : List Nat)[0]? = some (k + p) := rfl
        have hrd : readInit t.1 (k + p) = .ok (xlab m k) := readInit_ok (by rw [Nat.add_comm]; exact q3 k hkn)
        have r4' : Wire.sub (wrapEnv D).dbg c hw = .ok (vlab D m k) := r4
        refine ⟨(t.1.set (k + p + n) (some (vlab D m k)), t.2), ?_, by simp [q1], q2, ?_, ?_⟩
        · simp only [estep, evalGate, idxR_ok e0, okb, hrd, HMap.getR_ok hlook, idxR_ok r2, r3, r4', purek,
            setR_ok (some (vlab D m k)) (show k + p + n < t.1.length by omega)]
        · intro i hi
          rw [List.getElem?_set_ne (by omega)]
          exact q3 i hi
        · intro i hi
          by_cases hik : i = k
          · subst hik
            rw [show p + n + i = i + p + n by omega]
            simp [show i + p + n < t.1.length by omega]
          · rw [List.getElem?_set_ne (by omega)]
            exact q4 i (by omega))
    rw [List.length_map, List.length_range] at g4
    have hrd : ∀ i < n, readInit t1.1 (p + n + i) = .ok (vlab D m i) := fun i hi => readInit_ok (g4 i hi)
    have f2 : estep t1 ⟨p + 2 * n, D, List.range' (p + n) n, .add⟩ = .ok (t1.1.set (p + 2 * n) (some (lab D b 0)), t1.2) := by
      simp only [estep, evalGate, read_range hn hrd, okb, hvb, wrap_sum _ h hb _ hz', purek,
        setR_ok (some (lab D b 0)) (show p + 2 * n < t1.1.length by omega)]
    have f3 : estep (t1.1.set (p + 2 * n) (some (lab D b 0)), t1.2) ⟨p + 2 * n + 1, D, [p + 2 * n], .proj (.less T)⟩ =
        .ok ((t1.1.set (p + 2 * n) (some (lab D b 0))).set (p + 2 * n + 1) (some L), t1.2) := by
      have hlook : List.lookup (p + 2 * n + 1) gc.f = some tbl := by
        rw [hgf]
        show List.lookup _ (s1.f.insert (p + 2 * n + 1) tbl) = _
        simp [HMap.insert]
      have e0 : ([p + 2 * n] : List Nat)[0]? = some (p + 2 * n) := rfl
      have hrd : readInit (t1.1.set (p + 2 * n) (some (lab D b 0))) (p + 2 * n) = .ok (lab D b 0) :=
        readInit_ok (by simp [show p + 2 * n < t1.1.length by omega])
      have hsub : Wire.sub (wrapEnv D).dbg c0 (hashBit D (p + 2 * n + 1) (lab D b 0)) = .ok L :=
        bin_add (wrapEnv D).dbg (w := c0) rfl rfl
      simp only [estep, evalGate, idxR_ok e0, okb, hrd, HMap.getR_ok hlook, lab_color h hp, idxR_ok c3,
        hashBit_ok D _ _ (oneLabel (oneLabel (hashBit D (p + 2 * n + 1) (lab D a 0)) w) (bw 0 1)) rfl]
      have hsub' : Wire.sub (wrapEnv D).dbg (oneLabel (oneLabel (hashBit D (p + 2 * n + 1) (lab D a 0)) w) (bw 0 1))
        (hashBit D (p + 2 * n + 1) (lab D b 0)) = .ok L := hsub
      simp only [hsub', okb, purek, setR_ok (some L) (show p + 2 * n + 1 < (t1.1.set (p + 2 * n) (some (lab D b 0))).length by simp; omega)]
    refine ⟨(t1.1.set (p + 2 * n) (some (lab D b 0))).set (p + 2 * n + 1) (some L), ?_, by simp [g1], ?_⟩
    · show (tailGates p n D T).foldlM estep (ev, j) = _
      unfold tailGates
      rw [List.foldlM_append, f1, okb]
      simp only [List.foldlM_cons, List.foldlM_nil, f2, okb, f3, purek]
      rw [g2]
    · simp [show p + 2 * n + 1 < t1.1.length by omega]

/-- The draws: deltas that are zero except for the forced last component. -/
def wrapRand (gin : Nat → Wire) : GarbleRand := ⟨fun _ => (bw 0 0).values, fun i => (gin i).values⟩

theorem wrap_delta2 : Wire.delta 2 (bw 0 0).values = .ok (bw 0 1) := by
  show Except.ok _ = Except.ok _
  refine congrArg Except.ok (congrArg (Wire.mk _) ?_)
  apply Vector.ext
  intro i hi
  by_cases h : i = 31
  · subst h; rfl
  · rw [Vector.getElem_set_ne _ _ (by omega)]
    simp only [bw, Vector.getElem_ofFn, h, if_false]

theorem wrap_deltaD {D : Nat} (h : BadDomain D) : Wire.delta D (bw 0 0).values = .ok (lab D 0 1) := by
  have hz : ∀ i (hi : i < 32), (bw 0 0).values[i] = 0 := by
    intro i hi
    simp only [bw, Vector.getElem_ofFn]
    split
    · rfl
    · split <;> rfl
  unfold Wire.delta Wire.new
  rw [lab_new h 0 1]
  rcases h.lim with ⟨h1, -, h2, h3⟩ | ⟨h1, -, h2, h3⟩
  · rw [lab_small h1, okb]
    show Except.ok _ = _
    unfold lab
    rw [if_pos h1]
    refine congrArg Except.ok (congrArg (Wire.mk _) ?_)
    apply Vector.ext
    intro i hi
    by_cases h : i = 31
    · subst h; simp
    · rw [Vector.getElem_set_ne _ _ (by omega)]
      have : (bw 0 0).values[i].toNat = 0 := by rw [hz i hi]; rfl
      simp only [Vector.getElem_ofFn, h, if_false, Fin.getElem_fin, this, Nat.zero_mod]
  · rw [lab_large h1, okb]
    show Except.ok _ = _
    unfold lab
    rw [if_neg h1]
    refine congrArg Except.ok (congrArg (Wire.mk _) ?_)
    dsimp only
    rw [toU16_ofU16]
    refine congrArg ofU16 ?_
    apply Vector.ext
    intro i hi
    by_cases h : i = 15
    · subst h; simp
    · rw [Vector.getElem_set_ne _ _ (by omega)]
      have : (toU16 (bw 0 0).values)[i].toNat = 0 := by
        rw [toU16_toNat _ i hi, hz, hz]; rfl
      simp only [Vector.getElem_ofFn, h, if_false, Fin.getElem_fin, this, Nat.zero_mod]

theorem wrap_deltas {D : Nat} (h : BadDomain D) (gin : Nat → Wire) {c : Circuit}
    (hd : ∀ g ∈ c.gates, (g.domain = 2 ∨ g.domain = D) ∧ ∀ p, g.kind = .proj p → p.dom = 2 ∨ p.dom = D)
    {g : Gate} {p : ProjKind} (hg : g ∈ c.gates) (hgD : g.domain = D) (hgk : g.kind = .proj p) (hgp : p.dom = 2) :
    ∃ dl, garbleDeltas (wrapRand gin) c = .ok dl ∧ List.lookup 2 dl = some (bw 0 1) ∧ List.lookup D dl = some (lab D 0 1) := by
  have hD' : D ≠ 2 := by rcases h with h | h <;> omega
  let good (m : HMap Nat Wire) : Prop := ∀ k δ, List.lookup k m = some δ → Wire.delta k (bw 0 0).values = .ok δ
  have ens : ∀ m k, good m → (k = 2 ∨ k = D) → ∃ m', ensureDelta (wrapRand gin) m k = .ok m' ∧ good m' ∧ (List.lookup k m').isSome ∧
      ∀ k', (List.lookup k' m).isSome → (List.lookup k' m').isSome := by
    intro m k hm hk
    unfold ensureDelta
    cases hl : List.lookup k m with
    | some δ => exact ⟨m, rfl, hm, by rw [hl]; rfl, fun _ h => h⟩
    | none =>
      obtain ⟨δ, hδ⟩ : ∃ δ, Wire.delta k ((wrapRand gin).delta k) = .ok δ := by
        rcases hk with rfl | rfl
        · exact ⟨_, wrap_delta2⟩
        · exact ⟨_, wrap_deltaD h⟩
      refine ⟨m.insert k δ, by simp only [hδ, okb, purek], ?_, ?_, ?_⟩
      · intro k' δ' h'
        rw [HMap.insert, lookup_cons_eq] at h'
        split at h'
        · injection h' with h'; subst h'; rename_i hkk; exact hkk ▸ hδ
        · exact hm _ _ h'
      · rw [HMap.insert, lookup_cons_eq, if_pos rfl]; rfl
      · intro k' hk'
        rw [HMap.insert, lookup_cons_eq]
        split
        · rfl
        · exact hk'
  obtain ⟨dl, e1, e2, e3⟩ := foldlM_inv (l := c.gates) (s := ([] : HMap Nat Wire))
    (f := fun m g => do
      let m ← ensureDelta (wrapRand gin) m g.domain
      match g.kind with
      | .proj p => ensureDelta (wrapRand gin) m p.dom
      | _ => return m)
    (fun i m => good m ∧ ∀ (k : Nat) (g : Gate), k < i → c.gates[k]? = some g →
      (List.lookup g.domain m).isSome ∧ ∀ p, g.kind = .proj p → (List.lookup p.dom m).isSome)
    ⟨by intro k δ h; simp at h, by intro k g h; omega⟩ (by
      intro i g m hgi ⟨hall, hprev⟩
      obtain ⟨g1, g2⟩ := hd g (List.mem_of_getElem? hgi)
      obtain ⟨m1, q1, q2, q3, q4⟩ := ens m g.domain hall g1
      have rest : ∀ m', good m' → (∀ k', (List.lookup k' m1).isSome → (List.lookup k' m').isSome) →
          (∀ p, g.kind = .proj p → (List.lookup p.dom m').isSome) →
          good m' ∧ ∀ (k : Nat) (g : Gate), k < i + 1 → c.gates[k]? = some g →
            (List.lookup g.domain m').isSome ∧ ∀ p, g.kind = .proj p → (List.lookup p.dom m').isSome := by
        intro m' hm' hup hpr
        refine ⟨hm', fun k g' hk hg' => ?_⟩
        by_cases hki : k = i
        · subst hki
          rw [hgi] at hg'
          obtain rfl := Option.some.inj hg'
          exact ⟨hup _ q3, hpr⟩
        · obtain ⟨r1, r2⟩ := hprev k g' (by omega) hg'
          exact ⟨hup _ (q4 _ r1), fun p hp => hup _ (q4 _ (r2 p hp))⟩
      cases hk : g.kind with
      | proj p =>
        obtain ⟨m2, t1, t2, t3, t4⟩ := ens m1 p.dom q2 (g2 p hk)
        refine ⟨m2, by simp only [q1, okb, t1], rest m2 t2 t4 ?_⟩
        intro p' hp'
        rw [hk] at hp'
        injection hp' with hp'
        exact hp' ▸ t3
      | add => exact ⟨m1, by simp only [q1, okb, purek], rest m1 q2 (fun _ h => h) (by intro p hp; rw [hk] at hp; cases hp)⟩
      | mul _ => exact ⟨m1, by simp only [q1, okb, purek], rest m1 q2 (fun _ h => h) (by intro p hp; rw [hk] at hp; cases hp)⟩
      | and => exact ⟨m1, by simp only [q1, okb, purek], rest m1 q2 (fun _ h => h) (by intro p hp; rw [hk] at hp; cases hp)⟩)
  obtain ⟨k, hk⟩ := List.getElem?_of_mem hg
  obtain ⟨r1, r2⟩ := e3 k g (List.getElem?_eq_some_iff.mp hk).1 hk
  have r2 := r2 p hgk
  rw [hgp] at r2
  rw [hgD] at r1
  obtain ⟨x, hx⟩ := Option.isSome_iff_exists.mp r1
  obtain ⟨y, hy⟩ := Option.isSome_iff_exists.mp r2
  refine ⟨dl, e1, ?_, ?_⟩
  · have := e2 _ _ hy
    rw [wrap_delta2] at this
    injection this with this
    rw [hy, this]
  · have := e2 _ _ hx
    rw [wrap_deltaD h] at this
    injection this with this
    rw [hx, this]

/-- A threshold circuit with arbitrary sums in front. -/
def frontCircuit (N n D T : Nat) (inputs : Nat → List Nat) : Circuit :=
  ⟨N + 2 * n + 2, N, 1, ((List.range n).map fun i => ⟨i + N, 2, inputs i, .add⟩) ++ tailGates N n D T, List.replicate N 2⟩

/-- One label per input, for the given bits. -/
def given (gin : Nat → Wire) (bits : List Bool) (k : Nat) : Wire :=
  if bits.getD k false then oneLabel (gin k) (bw 0 1) else gin k

theorem wrap_half {D T n N : Nat} (h : BadDomain D) (hT : 0 < T) (hn : 0 < n) (inputs : Nat → List Nat)
    (hin : ∀ i < n, ∀ k ∈ inputs i, k < N) (gin : Nat → Wire) (hbin : ∀ k < N, (gin k).domain = .binary) (m : Bool)
    (hsum : ∀ i < n, Wire.sum false ((inputs i).map gin) = .ok (xlab m i)) :
    ∃ run d K, garbleRun (wrapEnv D) (wrapRand gin) (frontCircuit N n D T inputs) = .ok run ∧
      garbleBinary (wrapEnv D) (wrapRand gin) (frontCircuit N n D T inputs) =
        .ok (⟨frontCircuit N n D T inputs, run.state.f, run.state.fHalf⟩,
          (List.range N).map (fun i => (gin i, oneLabel (gin i) (bw 0 1))), d) ∧
      outputKey d = .ok K ∧
      ∀ bits : List Bool, bits.length = N → (∀ i < n, Wire.sum false ((inputs i).map (given gin bits)) = .ok (xlab m i)) →
        ∃ K', evaluatedKey (wrapEnv D) ⟨frontCircuit N n D T inputs, run.state.f, run.state.fHalf⟩
            (pick ((List.range N).map (fun i => (gin i, oneLabel (gin i) (bw 0 1)))) bits) = .ok K' ∧
          (m = false → K' = K) ∧ (m = true → K' ≠ K) := by
  have hD' : D ≠ 2 := by rcases h with h | h <;> omega
  obtain ⟨dl, hdl, h2, hD⟩ := wrap_deltas h gin (c := frontCircuit N n D T inputs) (by
    intro g hg
    simp only [frontCircuit, tailGates, List.mem_append, List.mem_map, List.mem_range, List.mem_cons, List.not_mem_nil, or_false] at hg
    rcases hg with ⟨i, -, rfl⟩ | ⟨i, -, rfl⟩ | rfl | rfl
    · exact ⟨.inl rfl, by intro p hp; cases hp⟩
    · refine ⟨.inl rfl, ?_⟩
      intro p hp
      injection hp with hp
      exact .inr (hp ▸ rfl)
    · exact ⟨.inr rfl, by intro p hp; cases hp⟩
    · refine ⟨.inr rfl, ?_⟩
      intro p hp
      injection hp with hp
      exact .inl (hp ▸ rfl)) (g := ⟨N + 2 * n + 1, D, [N + 2 * n], .proj (.less T)⟩) (p := .less T)
    (by simp [frontCircuit, tailGates]) rfl rfl rfl
  have hins : (frontCircuit N n D T inputs).inputDomains.zipIdx.mapM
      (fun (p : Nat × Nat) => Wire.new p.1 ((wrapRand gin).input p.2)) = .ok ((List.range N).map gin) := by
    have e : (frontCircuit N n D T inputs).inputDomains.zipIdx = (List.range N).map fun i => (2, i) := by
      show (List.replicate N 2).zipIdx = _
      apply List.ext_getElem
      · simp
      · intro i h1 h2; simp
    rw [e]
    obtain ⟨l, hl⟩ : ∃ l, l = List.range N := ⟨_, rfl⟩
    have hlt : ∀ i ∈ l, i < N := fun i hi => by rw [hl] at hi; exact List.mem_range.mp hi
    rw [← hl]
    clear hl
    induction l with
    | nil => rfl
    | cons i l ih =>
      rw [List.map_cons, List.mapM_cons, ih fun i hi => hlt i (by simp [hi])]
      have : Wire.new 2 ((wrapRand gin).input i) = .ok (gin i) := by
        show Except.ok (⟨.binary, (gin i).values⟩ : Wire) = _
        rw [← hbin i (hlt i (by simp))]
      rw [this]
      rfl
  let step := fun (s : GarbleState) (g : Gate) => (do
    garbleDecoding (wrapEnv D) dl (N + 2 * n + 1) (← garbleGate (wrapEnv D) dl s g) g : R GarbleState)
  -- the sums in front
  obtain ⟨s1, e1, hw1, hf1, hh1, hd1⟩ := foldlM_inv (f := step) (s := ⟨(List.range N).map gin, [], [], [], 0⟩)
    (l := (List.range n).map fun i => (⟨i + N, 2, inputs i, .add⟩ : Gate))
    (fun k s' => s'.wires = (List.range N).map gin ++ (List.range k).map (xlab m) ∧ s'.f = [] ∧ s'.fHalf = [] ∧ s'.d = [])
    ⟨by simp, rfl, rfl, rfl⟩ (by
      rintro k g t hk ⟨q1, q2, q3, q4⟩
      have hkn : k < n := by
        have := (List.getElem?_eq_some_iff.mp hk).1; simpa using this
      have hg : g = ⟨k + N, 2, inputs k, .add⟩ := by
        rw [List.getElem?_map, List.getElem?_range hkn] at hk
        exact (Option.some.inj hk).symm
      subst hg
      have hrd : (inputs k).mapM (idxR t.wires) = .ok ((inputs k).map gin) := by
        refine mapM_ok fun j hj => ?_
        have := hin k hkn j hj
        refine idxR_ok ?_
        rw [q1, List.getElem?_append_left (by simpa using this)]
        simp [this]
      have hs' : Wire.sum (wrapEnv D).dbg ((inputs k).map gin) = .ok (xlab m k) := hsum k hkn
      refine ⟨{ t with wires := t.wires ++ [xlab m k] }, ?_, ?_, q2, q3, q4⟩
      · simp only [step, garbleGate, hrd, okb, hs', purek, garbleDecoding]
        rw [if_neg (by omega)]
      · simp only [q1, List.range_succ, List.map_append, List.map_cons, List.map_nil, List.append_assoc])
  rw [List.length_map, List.length_range] at hw1
  obtain ⟨s2, w, v0, L, e2, -, hh2, hwd, hd2, hL0, hL1, hev⟩ := wrap_tail (T := T) (p := N) h hT hn h2 hD m (s := s1)
    (by rw [hw1]; simp) (by
      intro i hi
      rw [hw1, List.getElem?_append_right (by simp)]
      simp [hi]) hd1
  let run : GarbleRun := ⟨s2, dl, (List.range N).map gin, N + 2 * n + 1⟩
  have hrun : garbleRun (wrapEnv D) (wrapRand gin) (frontCircuit N n D T inputs) = .ok run := by
    unfold garbleRun
    have hsl : sliceR ((List.range N).map gin) 0 (frontCircuit N n D T inputs).numInputs = .ok ((List.range N).map gin) := by
      rw [sliceR_ok (Nat.zero_le _) (by simp [frontCircuit])]
      simp [frontCircuit, List.take_of_length_le]
    have hst : subR (wrapEnv D).dbg (2 ^ 64) (frontCircuit N n D T inputs).numWires (frontCircuit N n D T inputs).numOutputs =
        .ok (N + 2 * n + 1) := by
      rw [subR_ok _ (by simp [frontCircuit])]
      simp [frontCircuit]
    simp only [hdl, okb]
    rw [hins]
    simp only [okb, hsl, hst]
    have hfold : (frontCircuit N n D T inputs).gates.foldlM step ⟨(List.range N).map gin, [], [], [], 0⟩ = .ok s2 := by
      show (_ ++ tailGates N n D T).foldlM step _ = _
      rw [List.foldlM_append, e1, okb]
      exact e2
    simp only [step] at hfold
    rw [hfold]
    rfl
  refine ⟨run, ⟨s2.d, N + 2 * n + 1⟩, (oneLabel w (bw 0 1)).values, hrun, ?_, ?_, ?_⟩
  · unfold garbleBinary garble
    rw [hrun]
    simp only [okb, purek]
    have hones : ((List.range N).map gin).mapM (fun w => Wire.add (wrapEnv D).dbg w (bw 0 1)) =
        .ok (((List.range N).map gin).map (oneLabel · (bw 0 1))) := by
      refine mapM_ok fun w hw => ?_
      obtain ⟨i, hi, rfl⟩ := List.mem_map.mp hw
      exact bin_add _ (hbin i (List.mem_range.mp hi)) rfl
    have hall : (((List.range N).map gin).all fun w => w.dom == 2) = true := by
      rw [List.all_eq_true]
      intro w hw
      obtain ⟨i, hi, rfl⟩ := List.mem_map.mp hw
      simp [bin_dom (hbin i (List.mem_range.mp hi))]
    have hk : BinaryEncodingKey.ofKey (wrapEnv D).dbg ⟨run.encWires, run.delta⟩ =
        .ok ⟨(List.range N).map gin, ((List.range N).map gin).map (oneLabel · (bw 0 1))⟩ := by
      show BinaryEncodingKey.ofKey (wrapEnv D).dbg ⟨(List.range N).map gin, dl⟩ = _
      simp only [BinaryEncodingKey.ofKey, hall, assertR, if_true, okb, HMap.getR_ok h2, hones, purek]
    rw [hk, okb]
    unfold BinaryEncodingKey.zipped
    dsimp only
    rw [List.length_map, List.length_range, mapM_ok (g := fun i => (gin i, oneLabel (gin i) (bw 0 1)))]
    · rfl
    · intro i hi
      have hi := List.mem_range.mp hi
      have g1 : ((List.range N).map gin)[i]? = some (gin i) := by simp [hi]
      have g2 : (((List.range N).map gin).map (oneLabel · (bw 0 1)))[i]? = some (oneLabel (gin i) (bw 0 1)) := by simp [hi]
      simp only [idxR_ok g1, okb, idxR_ok g2, purek]
  · unfold outputKey
    simp only [hd2]
    rfl
  · intro bits hbl hbs
    let X := pick ((List.range N).map (fun i => (gin i, oneLabel (gin i) (bw 0 1)))) bits
    have hXl : X.length = N := by
      show (pick _ _).length = _
      rw [pick_length (by simp [hbl])]; simp
    have hXi : ∀ i (hi : i < X.length), X[i] = given gin bits i := by
      intro i hi
      have hib : i < bits.length := by omega
      simp only [X, pick, List.getElem_zipWith, List.getElem_map, List.getElem_range, given, List.getD_eq_getElem?_getD,
        List.getElem?_eq_getElem hib, Option.getD_some]
    obtain ⟨ev, l1, l2, l3, -⟩ := loadInputs (N := N + 2 * n + 2) hXl (by omega)
    let gc : GarbledCircuit := ⟨frontCircuit N n D T inputs, s2.f, s2.fHalf⟩
    let estep := fun (s : List (Option Wire) × Nat) (g : Gate) => (do
      let (w, j) ← evalGate (wrapEnv D) gc s.1 s.2 g
      return (← setR s.1 g.output (some w), j) : R (List (Option Wire) × Nat))
    obtain ⟨t1, f1, g1, g2, g3, g4⟩ := foldlM_inv (f := estep) (s := (ev, 0))
      (l := (List.range n).map fun i => (⟨i + N, 2, inputs i, .add⟩ : Gate))
      (fun k t => t.1.length = N + 2 * n + 2 ∧ t.2 = 0 ∧ (∀ i < N, t.1[i]? = some (some (given gin bits i))) ∧
        ∀ i < k, t.1[N + i]? = some (some (xlab m i)))
      ⟨l2, rfl, fun i hi => by rw [l3 i (by omega), hXi], fun i hi => absurd hi (by omega)⟩ (by
        rintro k g t hk ⟨q1, q2, q3, q4⟩
        have hkn : k < n := by
          have := (List.getElem?_eq_some_iff.mp hk).1; simpa using this
        have hg : g = ⟨k + N, 2, inputs k, .add⟩ := by
          rw [List.getElem?_map, List.getElem?_range hkn] at hk
          exact (Option.some.inj hk).symm
        subst hg
        have hrd : (inputs k).mapM (readInit t.1) = .ok ((inputs k).map (given gin bits)) :=
          mapM_ok fun j hj => readInit_ok (q3 j (hin k hkn j hj))
        have hs' : Wire.sum (wrapEnv D).dbg ((inputs k).map (given gin bits)) = .ok (xlab m k) := hbs k hkn
        refine ⟨(t.1.set (k + N) (some (xlab m k)), t.2), ?_, by simp [q1], q2, ?_, ?_⟩
        · simp only [estep, evalGate, hrd, okb, hs', purek, setR_ok (some (xlab m k)) (show k + N < t.1.length by omega)]
        · intro i hi
          rw [List.getElem?_set_ne (by omega)]
          exact q3 i hi
        · intro i hi
          by_cases hik : i = k
          · subst hik
            rw [Nat.add_comm N i]
            simp [show i + N < t.1.length by omega]
          · rw [List.getElem?_set_ne (by omega)]
            exact q4 i (by omega))
    rw [List.length_map, List.length_range] at g4
    obtain ⟨ev', f2, k1, k2⟩ := hev gc t1.1 0 rfl g1 g4
    refine ⟨L.values, ?_, fun hm => by rw [hL0 hm], fun hm => hL1 hm⟩
    have hfold : gc.circuit.gates.foldlM estep (ev, 0) = .ok (ev', 0) := by
      show (_ ++ tailGates N n D T).foldlM estep _ = _
      rw [List.foldlM_append, f1, okb]
      have : t1 = (t1.1, 0) := by rw [← g2]
      rw [this]
      exact f2
    have hevl : evaluate (wrapEnv D) gc X = .ok [L] := by
      unfold evaluate
      have c1 : gc.circuit.numInputs = N := rfl
      have c2 : gc.circuit.numWires = N + 2 * n + 2 := rfl
      have c3 : gc.circuit.numOutputs = 1 := rfl
      dsimp only
      rw [debugAssertR_ok (by simp [hXl, c1]), okb, c1, c2, c3, l1, okb]
      simp only [estep] at hfold
      rw [hfold, okb]
      dsimp only
      rw [subR_ok _ (by omega), okb, sliceR_ok (by omega) (by omega), okb]
      have : (ev'.drop (N + 2 * n + 2 - 1)).take (N + 2 * n + 2 - (N + 2 * n + 2 - 1)) = [some L] := by
        rw [show N + 2 * n + 2 - 1 = N + 2 * n + 1 by omega, show N + 2 * n + 2 - (N + 2 * n + 1) = 1 by omega,
          List.drop_eq_getElem_cons (by omega)]
        have := (List.getElem?_eq_some_iff.mp k2).2
        simp [this]
      rw [this]
      rfl
    unfold evaluatedKey
    show (evaluate (wrapEnv D) gc X >>= _) = _
    rw [hevl, okb]
    have : subR (wrapEnv D).dbg (2 ^ 64) (frontCircuit N n D T inputs).numWires 1 = .ok (N + 2 * n + 1) := by
      rw [subR_ok _ (by simp [frontCircuit])]; simp [frontCircuit]
    rw [this, okb]
    simp only [idxR, List.getElem?_cons_zero, okb, purek, wrap_out]

/-! ### The threshold circuits -/

theorem bw_one (a b : Byte) : oneLabel (bw a b) (bw 0 1) = bw a (b ^^^ 1) := by
  have h := (bin_add false (w := bw a b) (δ := bw 0 1) rfl rfl).symm.trans (bw_add false a b 0 1)
  have e : a ^^^ 0 = a := BitVec.xor_zero
  rw [e] at h
  exact Except.ok.inj h

/-- The labels for false: only the first wire of the second password carries the mark. -/
def markAt (m : Bool) (n k : Nat) : Wire := if m = true ∧ k = n then bw 5 1 else bw 0 0

theorem markAt_binary (m : Bool) (n k : Nat) : (markAt m n k).domain = .binary := by
  unfold markAt; split <;> rfl

theorem given_mark (m : Bool) (n k : Nat) (bits : List Bool) : given (markAt m n) bits k =
    bw (if m = true ∧ k = n then 5 else 0) ((if m = true ∧ k = n then 1 else 0) ^^^ (if bits.getD k false then 1 else 0)) := by
  unfold given markAt
  by_cases h : m = true ∧ k = n
  · rw [if_pos h, if_pos h, if_pos h]
    split
    · exact bw_one _ _
    · rfl
  · rw [if_neg h, if_neg h, if_neg h]
    split
    · exact bw_one _ _
    · rfl

theorem xlab_eq (m : Bool) (i : Nat) : xlab m i = bw (if m = true ∧ i = 0 then 5 else 0) (if m = true ∧ i = 0 then 1 else 0) := by
  unfold xlab; split <;> rfl

theorem given_nil (gin : Nat → Wire) : given gin [] = gin := rfl

theorem sum_two (m : Bool) {n i : Nat} (hi : i < n) (bits : List Bool) (h : bits.getD i false = bits.getD (i + n) false) :
    Wire.sum false ([i, i + n].map (given (markAt m n) bits)) = .ok (xlab m i) := by
  simp only [List.map_cons, List.map_nil, Wire.sum, List.foldlM_cons, List.foldlM_nil]
  rw [given_mark, given_mark, bw_add, okb, xlab_eq, h]
  have h1 : ¬ (m = true ∧ i = n) := by omega
  have h2 : (m = true ∧ i + n = n) ↔ (m = true ∧ i = 0) := by
    constructor <;> (rintro ⟨a, b⟩; exact ⟨a, by omega⟩)
  simp only [if_neg h1, h2]
  refine congrArg Except.ok ?_
  split <;> split <;> rfl

theorem sum_three (m : Bool) {n i : Nat} (hi : i < n) (bits : List Bool)
    (h : (bits.getD i false != bits.getD (i + n) false) = bits.getD (i + 2 * n) false) :
    Wire.sum false ([i, i + n, i + 2 * n].map (given (markAt m n) bits)) = .ok (xlab m i) := by
  simp only [List.map_cons, List.map_nil, Wire.sum, List.foldlM_cons, List.foldlM_nil]
  rw [given_mark, given_mark, given_mark, bw_add, okb, bw_add, okb, xlab_eq, ← h]
  have h1 : ¬ (m = true ∧ i = n) := by omega
  have h2 : (m = true ∧ i + n = n) ↔ (m = true ∧ i = 0) := by
    constructor <;> (rintro ⟨a, b⟩; exact ⟨a, by omega⟩)
  have h3 : ¬ (m = true ∧ i + 2 * n = n) := by omega
  simp only [if_neg h1, if_neg h3, h2]
  refine congrArg Except.ok ?_
  generalize bits.getD i false = x
  generalize bits.getD (i + n) false = y
  cases x <;> cases y <;> (split <;> rfl)

theorem thr_front (n D T : Nat) : thrCircuit n D T = frontCircuit (n * 2) n D T (fun i => [i, i + n]) := by
  unfold thrCircuit frontCircuit xorGates
  rw [Nat.mul_comm 2 n]
  have : 4 * n + 2 = n * 2 + n * 2 + 2 := by omega
  rw [this]

theorem thr3_front (n D T : Nat) : thrCircuit3 n D T = frontCircuit (n * 3) n D T (fun i => [i, i + n, i + 2 * n]) := by
  unfold thrCircuit3 frontCircuit xorGates3
  rw [Nat.mul_comm 3 n]
  have : 5 * n + 2 = n * 3 + 2 * n + 2 := by omega
  rw [this]

theorem wrap_thr {D T n : Nat} (h : BadDomain D) (hT : 0 < T) (hn : 0 < n) (m : Bool) :
    ∃ run z d K, garbleRun (wrapEnv D) (wrapRand (markAt m n)) (thrCircuit n D T) = .ok run ∧
      garbleBinary (wrapEnv D) (wrapRand (markAt m n)) (thrCircuit n D T) =
        .ok (⟨thrCircuit n D T, run.state.f, run.state.fHalf⟩, z, d) ∧
      z.length = n * 2 ∧ (∀ p ∈ z, p.1.domain = .binary ∧ p.2.domain = .binary) ∧ outputKey d = .ok K ∧
      ∀ a : List Bool, a.length = n →
        ∃ K', evaluatedKey (wrapEnv D) ⟨thrCircuit n D T, run.state.f, run.state.fHalf⟩ (pick z (a ++ a)) = .ok K' ∧
          (m = false → K' = K) ∧ (m = true → K' ≠ K) := by
  rw [thr_front]
  obtain ⟨run, d, K, hr, hg, hK, hev⟩ := wrap_half (N := n * 2) h hT hn (fun i => [i, i + n])
    (by intro i hi k hk; simp at hk; omega) (markAt m n) (fun k _ => markAt_binary m n k) m
    (fun i hi => sum_two m hi [] rfl)
  refine ⟨run, _, d, K, hr, hg, by simp, ?_, hK, fun a ha => hev (a ++ a) (by simp; omega) fun i hi => ?_⟩
  · intro p hp
    obtain ⟨i, -, rfl⟩ := List.mem_map.mp hp
    exact ⟨markAt_binary m n i, rfl⟩
  · refine sum_two m hi _ ?_
    simp only [List.getD_eq_getElem?_getD]
    rw [List.getElem?_append_left (by omega), List.getElem?_append_right (by omega)]
    rw [ha, Nat.add_sub_cancel]

theorem wrap_thr3 {D T n : Nat} (h : BadDomain D) (hT : 0 < T) (hn : 0 < n) (m : Bool) :
    ∃ run z d K, garbleRun (wrapEnv D) (wrapRand (markAt m n)) (thrCircuit3 n D T) = .ok run ∧
      garbleBinary (wrapEnv D) (wrapRand (markAt m n)) (thrCircuit3 n D T) =
        .ok (⟨thrCircuit3 n D T, run.state.f, run.state.fHalf⟩, z, d) ∧
      z.length = n * 3 ∧ (∀ p ∈ z, p.1.domain = .binary ∧ p.2.domain = .binary) ∧ outputKey d = .ok K ∧
      ∀ a b : List Bool, a.length = n → b.length = n →
        ∃ K', evaluatedKey (wrapEnv D) ⟨thrCircuit3 n D T, run.state.f, run.state.fHalf⟩ (pick z (a ++ b ++ xorBits a b)) = .ok K' ∧
          (m = false → K' = K) ∧ (m = true → K' ≠ K) := by
  rw [thr3_front]
  obtain ⟨run, d, K, hr, hg, hK, hev⟩ := wrap_half (N := n * 3) h hT hn (fun i => [i, i + n, i + 2 * n])
    (by intro i hi k hk; simp at hk; omega) (markAt m n) (fun k _ => markAt_binary m n k) m
    (fun i hi => sum_three m hi [] rfl)
  refine ⟨run, _, d, K, hr, hg, by simp, ?_, hK, fun a b ha hb => hev (a ++ b ++ xorBits a b) (by simp [xorBits]; omega) fun i hi => ?_⟩
  · intro p hp
    obtain ⟨i, -, rfl⟩ := List.mem_map.mp hp
    exact ⟨markAt_binary m n i, rfl⟩
  · refine sum_three m hi _ ?_
    simp only [List.getD_eq_getElem?_getD]
    rw [List.getElem?_append_left (by simp; omega), List.getElem?_append_left (by omega),
      List.getElem?_append_left (by simp; omega), List.getElem?_append_right (by omega),
      List.getElem?_append_right (by simp; omega)]
    have e1 : i + n - a.length = i := by omega
    have e2 : i + 2 * n - (a ++ b).length = i := by simp; omega
    rw [e1, e2, List.getElem?_eq_getElem (by omega), List.getElem?_eq_getElem (by omega),
      List.getElem?_eq_getElem (by simp [xorBits]; omega)]
    simp [xorBits]

/-- What the two parties of a two-input circuit hold with this hash and these draws. -/
theorem wrap_held2 {E : Env} {D n t : Nat} {ord : MapOrder} (hE : E = wrapEnv D) (hord : ord.Valid) (hDn : D = n % 65536 + 1)
    (h : BadDomain D) (ht : t < 65535) (hn : 0 < n) (hfit : 4 * n + 2 < 2 ^ 64) (m : Bool) :
    ∃ c z K gc gc' d, Held2 E (wrapRand (markAt m n)) ord n t c z K gc gc' d ∧
      ∀ a : List Bool, a.length = n →
        ∃ K', evaluatedKey E gc' (pick ((z.drop 0).take n) a ++ pick ((z.drop n).take n) a) = .ok K' ∧
          (m = false → K' = K) ∧ (m = true → K' ≠ K) := by
  subst hE
  obtain ⟨run, z, d, K, hr, hg, hzl, hzb, hK, hev⟩ := wrap_thr (T := t + 1) h (by omega) hn m
  obtain ⟨gc', H, he⟩ := held2 (rnd := wrapRand (markAt m n)) (t := t) hord
    (buildCircuit_eq (addR_ok _ (by unfold BadDomain at h; omega)) (addR_ok _ (by omega)))
    (by unfold BadDomain at h; omega) (by omega) hfit (by rw [← hDn]; exact hr) (by rw [← hDn]; exact hg) hzl hzb hK
  refine ⟨_, z, K, _, gc', d, H, fun a ha => ?_⟩
  rw [he a a ha ha, ← hDn]
  exact hev a ha

/-- The same for three inputs. -/
theorem wrap_held3 {E : Env} {D n t : Nat} {ord : MapOrder} (hE : E = wrapEnv D) (hord : ord.Valid) (hDn : D = n % 65536 + 1)
    (h : BadDomain D) (ht : t < 65535) (hn : 0 < n) (hfit : 5 * n + 2 < 2 ^ 64) (m : Bool) :
    ∃ c z K gc gc' d, Held3 E (wrapRand (markAt m n)) ord n t c z K gc gc' d ∧
      ∀ a b c : List Bool, a.length = n → b.length = n → c = xorBits a b →
        ∃ K', evaluatedKey E gc' (pick (z.take n) a ++ pick ((z.drop n).take n) b ++ pick (z.drop (n * 2)) c) = .ok K' ∧
          (m = false → K' = K) ∧ (m = true → K' ≠ K) := by
  subst hE
  obtain ⟨run, z, d, K, hr, hg, hzl, hzb, hK, hev⟩ := wrap_thr3 (T := t + 1) h (by omega) hn m
  obtain ⟨gc', H, he⟩ := held3 (rnd := wrapRand (markAt m n)) (t := t) hord
    (buildCircuitV2_eq (addR_ok _ (by unfold BadDomain at h; omega)) (addR_ok _ (by omega)))
    (by unfold BadDomain at h; omega) (by omega) hfit (by rw [← hDn]; exact hr) (by rw [← hDn]; exact hg) hzl hzb hK
  refine ⟨_, z, K, _, gc', d, H, fun a b c ha hb hc => ?_⟩
  subst hc
  rw [he a b _ ha hb (by simp [xorBits, ha, hb]), ← hDn]
  exact hev a b ha hb

end FP
