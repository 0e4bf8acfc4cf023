import Verif.Proof.Garble
import Verif.Spec.Garble
/-
Decoding, and the example environment.
-/
namespace FP
open Spec

theorem beBytes_length (k x : Nat) : (beBytes k x).length = k := by simp [beBytes]

theorem bytes_length (w : Wire) : w.bytes.length = 32 := by simp [Wire.bytes]

theorem toyHash_append (p : Bytes) (w : Wire) : toyHash (p ++ w.bytes) = w.values := by
  unfold toyHash
  have : (p ++ w.bytes).length - 32 = p.length := by simp [bytes_length]
  rw [this]
  apply Vector.ext
  intro i hi
  have h : i < w.values.toList.length := by simpa using hi
  simp [Wire.bytes, List.getD, hi]

theorem toy_noCollision (dbg : Bool) (run : GarbleRun) : NoCollision (toyEnv dbg) run := by
  intro o m v v' w w' k ⟨z, δ, h1, h2, h3, h4, h5⟩ ⟨z', δ', h1', h2', h3', h4', h5'⟩ h
  have hd := h5.label.dom.symm.trans h5'.label.dom
  injection hd with hd
  unfold hashOut toyEnv at h
  simp only at h
  rw [toyHash_append, toyHash_append] at h
  obtain ⟨d, x⟩ := w
  obtain ⟨d', x'⟩ := w'
  simp only at hd h
  subst hd h; rfl

theorem carries_of_labelOf {dl : HMap Nat Wire} {m v : Nat} {z w δ : Wire}
    (hv : v < m) (hδ : List.lookup m dl = some δ) (h : IsLabelOf m z δ v w) : Carries dl m z v w := by
  refine ⟨hv, h.label, fun δ' hδ' i => ?_⟩
  obtain rfl : δ = δ' := by rw [hδ] at hδ'; injection hδ'
  unfold zd
  rw [h.eq i, ZMod.natCast_mod]; push_cast; ring

theorem garble_decode_ok {E : Env} {c : Circuit} {run : GarbleRun} (hc : WellTyped c)
    (h : RunOK E c run) (hnc : NoCollision E run) {x : List Nat} {Z : List Wire}
    (hZl : Z.length = c.numOutputs) (hxl : x.length = c.numInputs)
    (hZ : ∀ i, i < c.numOutputs → ∃ m z w v,
        (c.inputDomains ++ c.gates.map Gate.outputDomain)[run.outputsStartAt + i]? = some m ∧
        run.state.wires[run.outputsStartAt + i]? = some z ∧ Z[i]? = some w ∧
        (meaning c x)[i]? = some v ∧ Carries run.delta m z v w) :
    DecodingKey.decode E ⟨run.state.d, run.outputsStartAt⟩ Z = .ok (meaning c x) := by
  have hgood : ∀ (i m : Nat), run.outputsStartAt ≤ i →
      (c.inputDomains ++ c.gates.map Gate.outputDomain)[i]? = some m →
      GoodDomain m ∧ DeltaOK run.delta m := by
    intro i m hi hm
    have hin : c.inputDomains.length ≤ i := by
      have := hc.inputs; have := hc.wires; have := hc.outputs; have := h.start; omega
    rw [List.getElem?_append_right hin, List.getElem?_map] at hm
    cases hg : c.gates[i - c.inputDomains.length]? with
    | none => rw [hg] at hm; cases hm
    | some g =>
      rw [hg] at hm
      simp only [Option.map_some, Option.some.injEq] at hm
      subst hm
      have hmem := List.mem_of_getElem? hg
      obtain ⟨d, hok⟩ := gatesOK_mem hc.gates hmem
      exact ⟨hok.range, h.deltas _ (usesDomain_range hmem hok)⟩
  have key : ∀ (i : Nat) (w : Wire), Z[i]? = some w → ∃ v, (meaning c x)[i]? = some v ∧
      decodeOne E ⟨run.state.d, run.outputsStartAt⟩ (w, i) = .ok v := by
    intro i w hw
    have hi : i < c.numOutputs := by rw [← hZl]; exact (List.getElem?_eq_some_iff.mp hw).1
    obtain ⟨m, z, w', v, hm, hz, hw', hv, hcar⟩ := hZ i hi
    obtain rfl : w = w' := by rw [hw] at hw'; injection hw'
    obtain ⟨hgm, δ, hδ, hδi⟩ := hgood _ m (by omega) hm
    obtain ⟨z', hs, hz', hd, hlen, hrow⟩ := h.dec.hash _ m (by omega) hm
    obtain rfl : z = z' := by rw [hz] at hz'; injection hz'
    rw [show run.outputsStartAt + i - run.outputsStartAt = i by omega] at hd
    refine ⟨v, hv, ?_⟩
    have hzl : Domain.new m = .ok z.domain := by
      obtain ⟨z'', hz'', hl⟩ := h.lab.lab _ m hm
      rw [hz] at hz''; injection hz'' with hz''; subst hz''; exact hl.dom
    obtain ⟨wv, hcv, hhv⟩ := hrow v hcar.vlt
    have hwv : wv = w := label_ext hcv.lab hcar.lab (fun j => by rw [hcv.eq δ hδ, hcar.eq δ hδ])
    subst hwv
    have hsearch := decodeSearch_ok (E := E) (o := run.outputsStartAt + i) (W := wv) hlen
      hcar.vlt hhv (by
        intro k hk hh hkk heq
        obtain ⟨wk, hck, hhk⟩ := hrow k (by have := hcar.vlt; omega)
        rw [hhk] at hkk
        injection hkk with hkk
        rw [← hkk] at heq
        have hw := hnc _ m v k wv wk k ⟨z, δ, hz, hzl, hδ, hcar.vlt, hcar.labelOf hδ⟩
          ⟨z, δ, hz, hzl, hδ, hck.vlt, hck.labelOf hδ⟩ heq
        subst hw
        have := carries_inj hδi hδ hcar hck
        omega) 0 (by omega)
    rw [Nat.sub_zero, ← List.range_eq_range'] at hsearch
    simp only [decodeOne, idxR_ok hd, okb, IsLabel.domEq hgm hcar.lab.dom, hsearch, purek]
  unfold DecodingKey.decode
  obtain ⟨vs, hvs, _⟩ := mapM_exists (l := Z.zipIdx)
    (f := decodeOne E ⟨run.state.d, run.outputsStartAt⟩) (P := fun _ _ => True) (by
      intro p hp
      obtain ⟨a, b⟩ := p
      have := List.mem_zipIdx_iff_getElem?.mp hp
      obtain ⟨v, _, hv⟩ := key b a this
      exact ⟨v, hv, trivial⟩)
  rw [hvs]
  congr 1
  apply List.ext_getElem?
  intro i
  have hvl := mapM_length hvs
  by_cases hi : i < c.numOutputs
  · have hiZ : i < Z.length := by omega
    obtain ⟨v, hv, hd⟩ := key i Z[i] (List.getElem?_eq_getElem hiZ)
    obtain ⟨b, hb, hfb⟩ := mapM_getElem? hvs i (Z[i], i) (by simp [hiZ])
    rw [hd] at hfb
    injection hfb with hfb
    rw [hb, hv, hfb]
  · have h1 : vs[i]? = none := by simp at hvl ⊢; omega
    have h2 : (meaning c x)[i]? = none := by
      have := hc.wires; have := hc.outputs
      simp [meaning, wireValues_length, hxl]; omega
    rw [h1, h2]

end FP
