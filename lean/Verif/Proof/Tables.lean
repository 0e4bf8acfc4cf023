import Verif.Spec.Tables
import Verif.Proof.Garble
import Verif.Proof.Unchosen
/-
The contents of the tables of AND gates.
-/
namespace FP
open Spec

/-- Bit `i` of a string of 32 bytes. -/
def xb (a : WireBytes) (i : Fin 32) (k : Nat) : Bool := a[i].getLsbD k

theorem xb_ext {a b : WireBytes} (h : ∀ i k, xb a i k = xb b i k) : a = b := by
  apply Vector.ext
  intro i hi
  apply BitVec.eq_of_getLsbD_eq
  intro k _
  exact h ⟨i, hi⟩ k

theorem xb_add (a b : WireBytes) (i : Fin 32) (k : Nat) : xb (add32 a b) i k = (xb a i k ^^ xb b i k) := by
  simp [xb, add32, BitVec.getLsbD_xor]

theorem xb_zero (i : Fin 32) (k : Nat) : xb zero32 i k = false := by simp [xb, zero32]

theorem xb_when (p : Bool) (a : WireBytes) (i : Fin 32) (k : Nat) : xb (when32 p a) i k = (p && xb a i k) := by
  cases p <;> simp [when32, xb_zero]

theorem add32_comm (a b : WireBytes) : add32 a b = add32 b a :=
  xb_ext fun i k => by rw [xb_add, xb_add, Bool.xor_comm]

theorem add32_assoc (a b c : WireBytes) : add32 (add32 a b) c = add32 a (add32 b c) :=
  xb_ext fun i k => by simp only [xb_add, Bool.xor_assoc]

theorem add32_self (a : WireBytes) : add32 a a = zero32 :=
  xb_ext fun i k => by rw [xb_add, xb_zero, Bool.xor_self]

theorem add32_zero (a : WireBytes) : add32 a zero32 = a :=
  xb_ext fun i k => by rw [xb_add, xb_zero, Bool.xor_false]

theorem add32_cancel (a b : WireBytes) : add32 (add32 a b) b = a := by
  rw [add32_assoc, add32_self, add32_zero]

theorem colour_add (a b : WireBytes) : colourBit (add32 a b) = (colourBit a ^^ colourBit b) := xb_add a b 31 0

theorem colour_when (p : Bool) (a : WireBytes) : colourBit (when32 p a) = (p && colourBit a) := xb_when p a 31 0

theorem colour_eq (v : WireBytes) : (Wire.color ⟨.binary, v⟩ ≠ 0) ↔ colourBit v = true := by
  rw [color_eq]
  unfold colorPos
  simp only [dg_bin]
  have : (248 : Nat) < 256 := by decide
  simp only [this, dif_pos, colourBit]
  cases v[31].getLsbD 0 <;> simp

theorem add_binary (dbg : Bool) (a b : WireBytes) :
    Wire.add dbg ⟨.binary, a⟩ ⟨.binary, b⟩ = .ok ⟨.binary, add32 a b⟩ := by
  unfold Wire.add
  rw [mapWith_ok dbg ⟨.binary, a⟩ ⟨.binary, b⟩ _ (fun x y => x ^^^ y) rfl (fun _ => rfl)]
  refine congrArg (fun v => Except.ok (⟨.binary, v⟩ : Wire)) ?_
  apply Vector.ext
  intro i hi
  simp only [Vector.getElem_ofFn, add32, Fin.getElem_fin]
  rw [ofNat_toNat_xor]

theorem hashHalf_eq (E : Env) (v : WireBytes) (j : Nat) :
    hashHalf E ⟨.binary, v⟩ j = ⟨.binary, tweaked E.sha256 v j⟩ := by
  unfold hashHalf tweaked Wire.bytes
  rw [rowBytes_eq]

/-- `garbleAnd` in closed form. -/
theorem garbleAnd_exact {E : Env} {dl : HMap Nat Wire} {wires : List Wire} {g : Gate} {j a b : Nat}
    {A B δ : WireBytes} (hia : g.inputs[0]? = some a) (hib : g.inputs[1]? = some b)
    (hwa : wires[a]? = some ⟨.binary, A⟩) (hwb : wires[b]? = some ⟨.binary, B⟩)
    (hδ : List.lookup 2 dl = some ⟨.binary, δ⟩) :
    garbleAnd E dl wires g j = .ok (⟨.binary, andLabel E.sha256 δ A B j⟩,
      (⟨.binary, garblerHalf E.sha256 δ A B j⟩, ⟨.binary, evaluatorHalf E.sha256 δ A B j⟩)) := by
  unfold garbleAnd andLabel garblerHalf evaluatorHalf
  simp only [HMap.getR_ok hδ, idxR_ok hia, idxR_ok hib, idxR_ok hwa, idxR_ok hwb, okb, add_binary, hashHalf_eq,
    colour_eq]
  cases colourBit A <;> cases colourBit B <;>
  simp only [when32, if_true, if_false, Bool.false_eq_true, add32_zero, okb, purek, add_binary]

theorem label_binary {w : Wire} (h : IsLabel 2 w) : w = ⟨.binary, w.values⟩ := by
  obtain ⟨d, v⟩ := w
  have := h.dom
  have h2 : Domain.new 2 = .ok .binary := rfl
  rw [h2] at this
  injection this with this
  simp only at this
  rw [← this]

theorem delta_binary {w : Wire} (h : IsDelta 2 w) : w = ⟨.binary, w.values⟩ ∧ colourBit w.values = true := by
  obtain ⟨d, v⟩ := w
  have hd := h.dom
  have h2 : Domain.new 2 = .ok .binary := rfl
  rw [h2] at hd
  injection hd with hd
  simp only at hd
  subst hd
  refine ⟨rfl, ?_⟩
  have := h.one
  rw [← color_eq] at this
  exact (colour_eq v).mp (by rw [this]; decide)

/-- The binary delta of a map. -/
def delta2 (dl : HMap Nat Wire) : WireBytes := ((List.lookup 2 dl).getD Wire.empty).values

theorem delta2_ok {dl : HMap Nat Wire} (h : DeltaOK dl 2) :
    List.lookup 2 dl = some ⟨.binary, delta2 dl⟩ ∧ colourBit (delta2 dl) = true := by
  obtain ⟨δ, h1, h2⟩ := h
  obtain ⟨h3, h4⟩ := delta_binary h2
  unfold delta2
  rw [h1, Option.getD_some]
  exact ⟨congrArg some h3, h4⟩

/-- What garbling a gate adds to the tables of AND gates. -/
theorem gate_half {E : Env} {dl : HMap Nat Wire} {doms : List Nat} {s : GarbleState} {g : Gate}
    (hs : LabInv doms s.wires) (hg : GateOK doms g) (h1 : DeltaOK dl g.domain) (h2 : DeltaOK dl g.outputDomain)
    {s1 : GarbleState} (h : garbleGate E dl s g = .ok s1) :
    ∃ w, s1.wires = s.wires ++ [w] ∧ IsLabel g.outputDomain w ∧ s1.d = s.d ∧
      if isAnd g then
        s1.fHalf = andEntry E.sha256 (delta2 dl) s.wires (g, s.j + 1) :: s.fHalf ∧ s1.j = s.j + 1 ∧
        w = ⟨.binary, andLabel E.sha256 (delta2 dl) (inputZeros s.wires g).1 (inputZeros s.wires g).2 (s.j + 1)⟩
      else s1.fHalf = s.fHalf ∧ s1.j = s.j := by
  obtain ⟨s1', w, hgg, hd1, hw1, hlw, -, -⟩ := gateStep (E := E) hs hg h1 h2
  rw [h] at hgg
  injection hgg with hgg
  subst hgg
  refine ⟨w, hw1, hlw, hd1, ?_⟩
  cases hk : g.kind with
  | and =>
    have har := hg.arity
    rw [hk] at har
    obtain ⟨hlen, hd2⟩ := har
    obtain ⟨a, b, hins⟩ := List.length_eq_two.mp hlen
    have ha : doms[a]? = some 2 := hd2 ▸ hg.inputs a (by simp [hins])
    have hb : doms[b]? = some 2 := hd2 ▸ hg.inputs b (by simp [hins])
    obtain ⟨wa, hwa, hla⟩ := hs.lab _ _ ha
    obtain ⟨wb, hwb, hlb⟩ := hs.lab _ _ hb
    have hex := garbleAnd_exact (E := E) (g := g) (j := s.j + 1) (a := a) (b := b) (by simp [hins]) (by simp [hins])
      (by rw [hwa, label_binary hla]) (by rw [hwb, label_binary hlb]) (delta2_ok (hd2 ▸ h1)).1
    have hza : inputZeros s.wires g = (wa.values, wb.values) := by
      simp [inputZeros, zeroAt, hins, hwa, hwb, List.getD]
    unfold garbleGate at h
    rw [hk] at h
    simp only [hex, okb, purek] at h
    injection h with h
    subst h
    simp only at hw1
    have : isAnd g = true := by simp [isAnd, hk]
    rw [if_pos this]
    simp only [andEntry, hza]
    exact ⟨rfl, trivial, (List.singleton_inj.mp (List.append_cancel_left hw1)).symm⟩
  | add =>
    have : isAnd g = false := by simp [isAnd, hk]
    rw [this, if_neg (by decide)]
    unfold garbleGate at h
    rw [hk] at h
    simp only [bind, Except.bind] at h
    split at h
    · cases h
    · split at h
      · cases h
      · cases h; exact ⟨rfl, rfl⟩
  | mul c =>
    have : isAnd g = false := by simp [isAnd, hk]
    rw [this, if_neg (by decide)]
    unfold garbleGate at h
    rw [hk] at h
    simp only [bind, Except.bind] at h
    split at h
    · cases h
    · split at h
      · cases h
      · split at h
        · cases h
        · cases h; exact ⟨rfl, rfl⟩
  | proj p =>
    have : isAnd g = false := by simp [isAnd, hk]
    rw [this, if_neg (by decide)]
    unfold garbleGate at h
    rw [hk] at h
    simp only [bind, Except.bind] at h
    split at h
    · cases h
    · cases h; exact ⟨rfl, rfl⟩

theorem decoding_frame {E : Env} {dl : HMap Nat Wire} {start : Nat} {s s' : GarbleState} {g : Gate}
    (h : garbleDecoding E dl start s g = .ok s') : ∃ d, s' = { s with d := d } := by
  unfold garbleDecoding at h
  split at h
  · simp only [bind, Except.bind] at h
    split at h
    · cases h
    · cases h; exact ⟨_, rfl⟩
  · cases h; exact ⟨s.d, rfl⟩

theorem zeroAt_append {Z : List Wire} (t : List Wire) {i : Nat} (h : i < Z.length) : zeroAt (Z ++ t) i = zeroAt Z i := by
  unfold zeroAt
  rw [List.getD_eq_getElem?_getD, List.getD_eq_getElem?_getD, List.getElem?_append_left h]

theorem inputZeros_append {doms : List Nat} {Z : List Wire} (t : List Wire) {g : Gate} (hs : LabInv doms Z)
    (hg : GateOK doms g) (ha : isAnd g = true) : inputZeros (Z ++ t) g = inputZeros Z g := by
  have hk : g.kind = .and := by
    unfold isAnd at ha
    split at ha
    · assumption
    · cases ha
  have har := hg.arity
  rw [hk] at har
  obtain ⟨a, b, hins⟩ := List.length_eq_two.mp har.1
  have h1 : a < Z.length := by
    rw [hs.len]; exact (List.getElem?_eq_some_iff.mp (hg.inputs a (by simp [hins]))).1
  have h2 : b < Z.length := by
    rw [hs.len]; exact (List.getElem?_eq_some_iff.mp (hg.inputs b (by simp [hins]))).1
  unfold inputZeros
  simp only [hins, List.getD_cons_zero, List.getD_cons_succ]
  rw [zeroAt_append t h1, zeroAt_append t h2]

/-- The tables after any list of gates. -/
theorem tables_fold {E : Env} {dl : HMap Nat Wire} {start : Nat} (gs : List Gate) :
    ∀ (doms : List Nat) (s s' : GarbleState), GatesOK doms gs → LabInv doms s.wires →
    (∀ g ∈ gs, DeltaOK dl g.domain ∧ DeltaOK dl g.outputDomain) →
    gs.foldlM (fun s g => do garbleDecoding E dl start (← garbleGate E dl s g) g) s = .ok s' →
    (∃ t, s'.wires = s.wires ++ t) ∧
    s'.fHalf = (((gs.filter isAnd).zipIdx (s.j + 1)).map (andEntry E.sha256 (delta2 dl) s'.wires)).reverse ++ s.fHalf ∧
    ∀ p ∈ (gs.filter isAnd).zipIdx (s.j + 1), s'.wires[p.1.output]? = some ⟨.binary, andLabel E.sha256 (delta2 dl)
      (inputZeros s'.wires p.1).1 (inputZeros s'.wires p.1).2 p.2⟩ := by
  induction gs with
  | nil =>
    intro doms s s' _ _ _ h
    cases h
    exact ⟨⟨[], by simp⟩, by simp, by simp⟩
  | cons g gs ih =>
    intro doms s s' hok hs hδ h
    obtain ⟨hg, hgs⟩ := hok
    rw [List.foldlM_cons] at h
    simp only [bind, Except.bind] at h
    split at h
    · cases h
    rename_i s2 h2
    split at h2
    · cases h2
    rename_i s1 h1
    obtain ⟨w, hw, hlw, hd, hrest⟩ := gate_half hs hg (hδ g (by simp)).1 (hδ g (by simp)).2 h1
    obtain ⟨d, hd2⟩ := decoding_frame h2
    have hw2 : s2.wires = s.wires ++ [w] := by rw [hd2]; exact hw
    have hlab := hs.snoc hlw
    rw [← hw2] at hlab
    obtain ⟨⟨t, ht⟩, hf, hz⟩ := ih _ s2 s' hgs hlab (fun g hg => hδ g (by simp [hg])) h
    have ht' : s'.wires = s.wires ++ ([w] ++ t) := by rw [ht, hw2, List.append_assoc]
    refine ⟨⟨_, ht'⟩, ?_⟩
    cases ha : isAnd g with
    | false =>
      rw [ha, if_neg (by decide)] at hrest
      have e1 : s2.fHalf = s.fHalf := by rw [hd2]; exact hrest.1
      have e2 : s2.j = s.j := by rw [hd2]; exact hrest.2
      rw [e1, e2] at hf
      rw [e2] at hz
      rw [List.filter_cons_of_neg (by simp [ha])]
      exact ⟨hf, hz⟩
    | true =>
      rw [ha, if_pos rfl] at hrest
      have e1 : s2.fHalf = andEntry E.sha256 (delta2 dl) s.wires (g, s.j + 1) :: s.fHalf := by rw [hd2]; exact hrest.1
      have e2 : s2.j = s.j + 1 := by rw [hd2]; exact hrest.2.1
      have hin : inputZeros s'.wires g = inputZeros s.wires g := by
        rw [ht']; exact inputZeros_append _ hs hg ha
      have e3 : andEntry E.sha256 (delta2 dl) s.wires (g, s.j + 1) =
          andEntry E.sha256 (delta2 dl) s'.wires (g, s.j + 1) := by
        simp only [andEntry, hin]
      rw [e1, e2, e3] at hf
      rw [e2] at hz
      rw [List.filter_cons_of_pos ha, List.zipIdx_cons]
      refine ⟨by rw [hf]; simp, ?_⟩
      intro p hp
      rcases List.mem_cons.mp hp with rfl | hp
      · simp only [hin]
        rw [ht', hg.output, ← hs.len, List.getElem?_append_right (Nat.le_refl _), ← hrest.2.2]
        simp
      · exact hz p hp

end FP
