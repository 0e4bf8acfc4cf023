import Verif.Proof.Decode
import Verif.Spec.Hamming
/-
Helpers for binary keys and for decoding.
-/
namespace FP
open Spec

theorem binary_isLabel {w : Wire} (h : w.domain = .binary) : IsLabel 2 w := by
  obtain ⟨d, v⟩ := w
  simp only at h; subst h; exact isLabel_two v

theorem bin_mul_zero_add (dbg : Bool) {w δ : Wire} (hw : w.domain = .binary)
    (hδ : δ.domain = .binary) :
    ((do Wire.add dbg w (← Wire.mul dbg δ 0)) : R Wire) = .ok w := by
  obtain ⟨d, h1, h2, h3⟩ := mulZ dbg (m := 2) (by decide) (binary_isLabel hδ).dom (x := 0) (by omega)
  obtain ⟨c, h4, h5, h6⟩ := addZ dbg (m := 2) (by decide) (binary_isLabel hw) h2
  rw [h1, okb, h4]; congr 1
  exact label_ext h5 (binary_isLabel hw) (fun i => by rw [h6, h3]; simp)

theorem bin_mul_one (dbg : Bool) {δ : Wire} (hδ : δ.domain = .binary) :
    Wire.mul dbg δ 1 = .ok δ := by
  obtain ⟨d, h1, h2, h3⟩ := mulZ dbg (m := 2) (by decide) (binary_isLabel hδ).dom (x := 1) (by omega)
  rw [h1]; congr 1
  exact label_ext h2 (binary_isLabel hδ) (fun i => by rw [h3]; simp)

/-- The label of bit 1. -/
def oneLabel (w δ : Wire) : Wire := ⟨.binary, Vector.ofFn fun i : Fin 32 => w.values[i] ^^^ δ.values[i]⟩

theorem bin_add (dbg : Bool) {w δ : Wire} (hw : w.domain = .binary) (hδ : δ.domain = .binary) :
    Wire.add dbg w δ = .ok (oneLabel w δ) := by
  obtain ⟨d, v⟩ := w
  obtain ⟨d', v'⟩ := δ
  simp only at hw hδ
  subst hw hδ
  simp only [Wire.add]
  have h := mapWith_ok dbg ⟨.binary, v⟩ ⟨.binary, v'⟩ (fun x y => .ok (x ^^^ y)) (fun x y => x ^^^ y) rfl
    (fun _ => rfl)
  have e : (Vector.ofFn fun i : Fin 32 => BitVec.ofNat 8 (v[i].toNat ^^^ v'[i].toNat)) =
      Vector.ofFn fun i : Fin 32 => v[i] ^^^ v'[i] := by
    apply Vector.ext
    intro i hi
    rw [Vector.getElem_ofFn, Vector.getElem_ofFn, ofNat_toNat_xor]
  rw [oneLabel]
  simp only at h ⊢
  rw [← e]
  exact h

theorem oneLabel_cancel {w δ : Wire} (hδ : δ.domain = .binary) : oneLabel w (oneLabel w δ) = δ := by
  obtain ⟨d', v'⟩ := δ
  simp only at hδ; subst hδ
  unfold oneLabel
  simp only
  have e : (Vector.ofFn fun i : Fin 32 => w.values[i] ^^^
      (Vector.ofFn fun i : Fin 32 => w.values[i] ^^^ v'[i])[i]) = v' := by
    apply Vector.ext
    intro i hi
    rw [Vector.getElem_ofFn]
    simp only [Fin.getElem_fin, Vector.getElem_ofFn]
    rw [← BitVec.xor_assoc, BitVec.xor_self, BitVec.zero_xor]
  rw [e]

theorem bin_dom {w : Wire} (h : w.domain = .binary) : w.dom = 2 := by simp [Wire.dom, h, Domain.num]

theorem mapM_congr_mem {α β} {f g : α → R β} {l : List α} (h : ∀ a ∈ l, f a = g a) :
    l.mapM f = l.mapM g := by
  induction l with
  | nil => rfl
  | cons a l ih =>
    rw [List.mapM_cons, List.mapM_cons, h a (by simp), ih fun a ha => h a (by simp [ha])]

/-- What the run of `garble` knows about the `i`-th output. -/
theorem outInfo (E : Env) (rnd : GarbleRand) {c : Circuit} (hc : WellTyped c) {run : GarbleRun}
    (hrun : garbleRun E rnd c = .ok run) (i : Nat) (hiZ : i < c.numOutputs) :
    run.outputsStartAt = c.numWires - c.numOutputs ∧ ∃ m z δ hs,
      (c.inputDomains ++ c.gates.map Gate.outputDomain)[c.numWires - c.numOutputs + i]? = some m ∧
      run.state.wires[c.numWires - c.numOutputs + i]? = some z ∧ IsLabel m z ∧ 0 < m ∧
      List.lookup m run.delta = some δ ∧ IsDelta m δ ∧ run.state.d[i]? = some hs ∧ hs.length = m ∧
      ∀ x, x < m → ∃ w, Carries run.delta m z x w ∧
        hs[x]? = some (hashOut E (c.numWires - c.numOutputs + i) x w) := by
  obtain ⟨run', hrun', hok⟩ := garbleRun_ok E rnd hc
  rw [hrun] at hrun'; cases hrun'
  have hst := hok.start
  have hw := hc.wires; have ho := hc.outputs; have hi := hc.inputs
  refine ⟨hst, ?_⟩
  have hlt : c.numWires - c.numOutputs + i < (c.inputDomains ++ c.gates.map Gate.outputDomain).length := by
    simp; omega
  have hm := List.getElem?_eq_getElem hlt
  obtain ⟨z, hs, hz, hd, hlen, hrow⟩ := hok.dec.hash (c.numWires - c.numOutputs + i) _ (by omega) hm
  obtain ⟨z', hz', hl⟩ := hok.lab.lab _ _ hm
  obtain rfl : z = z' := by rw [hz] at hz'; injection hz'
  have hin : c.inputDomains.length ≤ c.numWires - c.numOutputs + i := by omega
  have hm2 := hm
  rw [List.getElem?_append_right hin, List.getElem?_map] at hm2
  cases hg : c.gates[c.numWires - c.numOutputs + i - c.inputDomains.length]? with
  | none => rw [hg] at hm2; cases hm2
  | some g =>
    rw [hg] at hm2
    simp only [Option.map_some, Option.some.injEq] at hm2
    have hmem := List.mem_of_getElem? hg
    obtain ⟨dd, hgok⟩ := gatesOK_mem hc.gates hmem
    obtain ⟨δ, hδ, hδi⟩ := hok.deltas _ (usesDomain_range hmem hgok)
    rw [hm2] at hδ hδi
    refine ⟨_, z, δ, hs, hm, hz, hl, by have := hl.lt 0; omega, hδ, hδi, ?_, hlen, hrow⟩
    rw [← hd, hst]; congr 1; omega

theorem decodeSearch_inv {E : Env} {o : Nat} {z : Wire} {hs : List WireBytes} {ks : List Nat}
    {r : Option Nat} (h : decodeSearch E o z hs ks = .ok r) :
    (∀ k, r = some k → k ∈ ks ∧ hs[k]? = some (hashOut E o k z)) ∧
    (r = none → ∀ k ∈ ks, ∃ h, hs[k]? = some h ∧ h ≠ hashOut E o k z) := by
  induction ks with
  | nil => simp only [decodeSearch] at h; cases h; simp
  | cons k ks ih =>
    rw [decodeSearch] at h
    cases hk : hs[k]? with
    | none => simp only [idxR, hk, panicR, errb] at h; cases h
    | some y =>
      rw [idxR_ok hk, okb] at h
      by_cases he : hashOut E o k z = y
      · rw [if_pos he, purek] at h
        cases h
        refine ⟨fun k' hk' => ?_, fun h => by cases h⟩
        injection hk' with hk'
        subst hk'
        exact ⟨by simp, by rw [hk, he]⟩
      · rw [if_neg he] at h
        obtain ⟨h1, h2⟩ := ih h
        refine ⟨fun k' hk' => ⟨by simp [(h1 k' hk').1], (h1 k' hk').2⟩, fun hr k' hk' => ?_⟩
        rcases List.mem_cons.mp hk' with rfl | hk'
        · exact ⟨y, hk, fun h => he h.symm⟩
        · exact h2 hr k' hk'

theorem decodeSearch_total {E : Env} {o : Nat} {z : Wire} {hs : List WireBytes} {ks : List Nat}
    (h : ∀ k ∈ ks, k < hs.length) : ∃ r, decodeSearch E o z hs ks = .ok r := by
  induction ks with
  | nil => exact ⟨_, rfl⟩
  | cons k ks ih =>
    rw [decodeSearch, idxR_ok (List.getElem?_eq_getElem (h k (by simp))), okb]
    split
    · exact ⟨_, rfl⟩
    · exact ih fun k hk => h k (by simp [hk])

end FP
