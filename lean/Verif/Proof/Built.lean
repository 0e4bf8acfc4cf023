import Verif.Spec.Built
import Verif.Proof.Builder
import Verif.Proof.Garble
import Verif.Proof.Circuit
/-
Helpers for circuits made with the builder.
-/
namespace FP
open Spec

theorem gatesFit_reads {good : Nat → Prop} {gs : List Gate} {doms : List Nat} (h : GatesFit good doms gs) :
    ∀ g ∈ gs, ∀ i ∈ g.inputs, i < doms.length → doms[i]? = some g.domain := by
  induction gs generalizing doms with
  | nil => simp
  | cons g0 gs ih =>
    intro g hg i hi hlt
    rcases List.mem_cons.mp hg with rfl | hg
    · exact h.1.inputs i hi
    · have := ih h.2 g hg i hi (by simp; omega)
      rwa [List.getElem?_append_left hlt] at this

/-- The input domains the builder computes, as domains of the wires read. -/
theorem inputDomains_reads {good : Nat → Prop} {gs : List Gate} {doms : List Nat} (h : GatesFit good doms gs)
    (hall : ∀ i ∈ inputReads doms.length gs, i < doms.length) :
    ((gs.filter fun g => g.inputs.any (· < doms.length)).flatMap fun g => g.inputs.map fun _ => g.domain) =
      (inputReads doms.length gs).map (doms.getD · 0) := by
  unfold inputReads
  rw [List.map_flatMap]
  refine List.flatMap_congr fun g hg => ?_
  refine List.map_congr_left fun i hi => ?_
  have hlt : i < doms.length := hall i (List.mem_flatMap.mpr ⟨g, hg, hi⟩)
  have := gatesFit_reads h g (List.mem_of_mem_filter hg) i hi hlt
  rw [List.getD_eq_getElem?_getD, this]; rfl

theorem map_getD_range (doms : List Nat) : (List.range doms.length).map (doms.getD · 0) = doms := by
  apply List.ext_getElem
  · simp
  · intro i h1 h2
    simp [List.getD_eq_getElem?_getD, h2]

theorem gatesFit_mem {good : Nat → Prop} {gs : List Gate} {doms : List Nat} (h : GatesFit good doms gs) {g : Gate}
    (hg : g ∈ gs) : ∃ ds, GateFits good ds g := by
  induction gs generalizing doms with
  | nil => cases hg
  | cons g' gs ih =>
    rcases List.mem_cons.mp hg with rfl | hg
    · exact ⟨_, h.1⟩
    · exact ih h.2 hg

theorem gatesFit_mentioned_lt {good : Nat → Prop} {gs : List Gate} {doms : List Nat} (h : GatesFit good doms gs) :
    ∀ w ∈ mentioned gs, w < doms.length + gs.length := by
  rintro w ⟨g, hg, hw | rfl⟩
  · exact gatesFit_inputs_lt h g hg w hw
  · have : g.output ∈ gs.map Gate.output := List.mem_map_of_mem hg
    rw [gatesFit_outputs h, List.mem_range'_1] at this
    omega

theorem mentioned_all {good : Nat → Prop} {gs : List Gate} {doms : List Nat} (h : GatesFit good doms gs)
    (hin : ∀ i, i < doms.length → ∃ g ∈ gs, i ∈ g.inputs) :
    (mentioned gs).ncard = doms.length + gs.length := by
  have : mentioned gs = (Finset.range (doms.length + gs.length) : Set Nat) := by
    ext w
    simp only [Finset.coe_range, Set.mem_Iio]
    refine ⟨gatesFit_mentioned_lt h w, fun hw => ?_⟩
    by_cases hlt : w < doms.length
    · obtain ⟨g, hg, hi⟩ := hin w hlt
      exact ⟨g, hg, .inl hi⟩
    · have : w ∈ gs.map Gate.output := by rw [gatesFit_outputs h, List.mem_range'_1]; omega
      obtain ⟨g, hg, hw⟩ := List.mem_map.mp this
      exact ⟨g, hg, .inr hw.symm⟩
  rw [this, Set.ncard_coe_finset, Finset.card_range]

theorem unread_output {gs : List Gate} {w : Nat} (h : w ∈ unreadWires gs) : w ∈ gs.map Gate.output := by
  obtain ⟨i, g, h1, rfl, -⟩ := h
  exact List.mem_map_of_mem (List.mem_of_getElem? h1)

theorem unread_card_le {good : Nat → Prop} {gs : List Gate} {doms : List Nat} (h : GatesFit good doms gs) :
    (unreadWires gs).ncard ≤ gs.length := by
  have hsub : unreadWires gs ⊆ ((List.range' doms.length gs.length).toFinset : Set Nat) := by
    intro w hw
    have := unread_output hw
    rw [gatesFit_outputs h] at this
    simpa using this
  have hle := Set.ncard_le_ncard hsub (Finset.finite_toSet _)
  rw [Set.ncard_coe_finset, List.toFinset_card_of_nodup List.nodup_range'] at hle
  simpa using hle

/-- An upward closed set of wires below `N`. -/
theorem upper_set {N : Nat} {s : Set Nat} (h1 : ∀ w ∈ s, w < N) (h2 : ∀ w ∈ s, ∀ v, w < v → v < N → v ∈ s) (w : Nat) :
    w ∈ s ↔ N - s.ncard ≤ w ∧ w < N := by
  classical
  have hfin : s.Finite := (Set.finite_Iio N).subset fun w hw => h1 w hw
  by_cases hs : s = ∅
  · subst hs; simp
  · obtain ⟨m, hm, hmin⟩ : ∃ m ∈ s, ∀ v ∈ s, m ≤ v := by
      have hne := Set.nonempty_iff_ne_empty.mpr hs
      exact ⟨sInf s, Nat.sInf_mem hne, fun v hv => Nat.sInf_le hv⟩
    have heq : s = (Finset.Ico m N : Set Nat) := by
      ext v
      simp only [Finset.coe_Ico, Set.mem_Ico]
      refine ⟨fun hv => ⟨hmin v hv, h1 v hv⟩, fun ⟨ha, hb⟩ => ?_⟩
      rcases Nat.eq_or_lt_of_le ha with rfl | hlt
      · exact hm
      · exact h2 m hm v hlt hb
    have hcard : s.ncard = N - m := by
      rw [heq, Set.ncard_coe_finset, Nat.card_Ico]
    have := h1 m hm
    rw [hcard]
    have : w ∈ s ↔ m ≤ w ∧ w < N := by
      conv_lhs => rw [heq]
      simp
    rw [this]
    omega

theorem described_addGates (gs : List Gate) :
    described (gs.map .addGate) = gs ∧ leadingOffsets (gs.map .addGate) = 0 := by
  have ho : ∀ gs : List Gate, offsetsIn (gs.map .addGate) = 0 := fun gs => by
    induction gs with
    | nil => rfl
    | cons g gs ih => exact ih
  constructor
  · induction gs with
    | nil => rfl
    | cons g gs ih =>
      rw [List.map_cons, described, ih, ho]
      simp [rewire]
  · cases gs <;> rfl

/-- The gates that read an input, when those of the second block do not. -/
theorem inputReads_block {N : Nat} {l : List Nat} (f : Nat → Gate) (tail : List Gate)
    (h1 : ∀ i ∈ l, (f i).inputs.any (· < N) = true) (h2 : ∀ g ∈ tail, ∀ i ∈ g.inputs, N ≤ i) :
    inputReads N (l.map f ++ tail) = l.flatMap fun i => (f i).inputs := by
  unfold inputReads
  rw [List.filter_append, List.filter_eq_self.mpr, List.filter_eq_nil_iff.mpr, List.append_nil, List.flatMap_map]
  · intro g hg h
    obtain ⟨i, hi, hlt⟩ := List.any_eq_true.mp h
    have := h2 g hg i hi
    simp at hlt
    omega
  · intro g hg
    obtain ⟨i, hi, rfl⟩ := List.mem_map.mp hg
    exact h1 i hi

theorem tail_reads {p n D T : Nat} : ∀ g ∈ tailGates p n D T, ∀ i ∈ g.inputs, p ≤ i := by
  intro g hg i hi
  unfold tailGates at hg
  rcases List.mem_append.mp hg with hg | hg
  · obtain ⟨k, -, rfl⟩ := List.mem_map.mp hg
    simp at hi; omega
  · simp only [List.mem_cons, List.not_mem_nil, or_false] at hg
    rcases hg with rfl | rfl
    · simp only [List.mem_range'_1] at hi; omega
    · simp at hi; omega

theorem thr_reads (n D T : Nat) : (inputReads (2 * n) (xorGates n ++ tailGates (2 * n) n D T)).Perm (List.range (2 * n)) := by
  unfold xorGates
  rw [inputReads_block _ _ (fun i hi => by simp at hi ⊢; omega) tail_reads, List.perm_ext_iff_of_nodup _ List.nodup_range]
  · intro w
    simp only [List.mem_flatMap, List.mem_range, List.mem_cons, List.not_mem_nil, or_false]
    constructor
    · rintro ⟨i, hi, rfl | rfl⟩ <;> omega
    · intro hw
      by_cases h : w < n
      · exact ⟨w, h, .inl rfl⟩
      · exact ⟨w - n, by omega, .inr (by omega)⟩
  · rw [List.nodup_flatMap]
    refine ⟨fun i hi => ?_, ?_⟩
    · simp at hi ⊢; omega
    · refine List.Nodup.pairwise_of_forall_ne List.nodup_range fun i hi j hj hne => ?_
      simp only [List.mem_range] at hi hj
      simp only [Function.onFun, List.disjoint_cons_left, List.mem_cons, List.not_mem_nil, or_false]
      refine ⟨by omega, by omega, List.disjoint_nil_left _⟩

theorem thr3_reads (n D T : Nat) : (inputReads (3 * n) (xorGates3 n ++ tailGates (3 * n) n D T)).Perm (List.range (3 * n)) := by
  unfold xorGates3
  rw [inputReads_block _ _ (fun i hi => by simp at hi ⊢; omega) tail_reads, List.perm_ext_iff_of_nodup _ List.nodup_range]
  · intro w
    simp only [List.mem_flatMap, List.mem_range, List.mem_cons, List.not_mem_nil, or_false]
    constructor
    · rintro ⟨i, hi, rfl | rfl | rfl⟩ <;> omega
    · intro hw
      by_cases h : w < n
      · exact ⟨w, h, .inl rfl⟩
      · by_cases h : w < 2 * n
        · exact ⟨w - n, by omega, .inr (.inl (by omega))⟩
        · exact ⟨w - 2 * n, by omega, .inr (.inr (by omega))⟩
  · rw [List.nodup_flatMap]
    refine ⟨fun i hi => ?_, ?_⟩
    · simp at hi ⊢; omega
    · refine List.Nodup.pairwise_of_forall_ne List.nodup_range fun i hi j hj hne => ?_
      simp only [List.mem_range] at hi hj
      simp only [Function.onFun, List.disjoint_cons_left, List.mem_cons, List.not_mem_nil, or_false]
      refine ⟨by omega, by omega, by omega, List.disjoint_nil_left _⟩

/-- Nothing but the last wire of a threshold circuit is unread. -/
theorem tail_unread {p n D T : Nat} (pre : List Gate) (hp : pre.length = n)
    (ho : (pre ++ tailGates p n D T).map Gate.output = List.range' p (pre ++ tailGates p n D T).length) :
    (unreadWires (pre ++ tailGates p n D T)).ncard = 1 := by
  have hlen : (pre ++ tailGates p n D T).length = 2 * n + 2 := by simp [tailGates, hp]; omega
  rw [hlen] at ho
  have hout : ∀ i g, (pre ++ tailGates p n D T)[i]? = some g → g.output = p + i ∧ i < 2 * n + 2 := by
    intro i g hg
    have h1 : ((pre ++ tailGates p n D T).map Gate.output)[i]? = some g.output := by rw [List.getElem?_map, hg]; rfl
    have h2 := (List.getElem?_eq_some_iff.mp hg).1
    rw [hlen] at h2
    rw [ho, List.getElem?_range' (by omega)] at h1
    have := Option.some.inj h1
    omega
  have hproj : ∀ k, k < n → (pre ++ tailGates p n D T)[n + k]? = some ⟨k + p + n, 2, [k + p], .proj (.map D)⟩ := by
    intro k hk
    rw [List.getElem?_append_right (by omega), hp, tailGates, List.getElem?_append_left (by simp; omega)]
    simp [hk]
  have hsum : (pre ++ tailGates p n D T)[2 * n]? = some ⟨p + 2 * n, D, List.range' (p + n) n, .add⟩ := by
    rw [List.getElem?_append_right (by omega), hp, tailGates, List.getElem?_append_right (by simp; omega)]
    have : 2 * n - n - ((List.range n).map fun i => (⟨i + p + n, 2, [i + p], .proj (.map D)⟩ : Gate)).length = 0 := by
      simp; omega
    rw [this]; rfl
  have hcmp : (pre ++ tailGates p n D T)[2 * n + 1]? = some ⟨p + 2 * n + 1, D, [p + 2 * n], .proj (.less T)⟩ := by
    rw [List.getElem?_append_right (by omega), hp, tailGates, List.getElem?_append_right (by simp; omega)]
    have : 2 * n + 1 - n - ((List.range n).map fun i => (⟨i + p + n, 2, [i + p], .proj (.map D)⟩ : Gate)).length = 1 := by
      simp; omega
    rw [this]; rfl
  have : unreadWires (pre ++ tailGates p n D T) = {p + 2 * n + 1} := by
    ext w
    simp only [Set.mem_singleton_iff]
    constructor
    · rintro ⟨i, g, hg, rfl, h⟩
      obtain ⟨h1, h2⟩ := hout i g hg
      by_contra hne
      by_cases ha : i < n
      · exact h (n + i) _ (by omega) (hproj i ha) (by rw [h1]; simp; omega)
      · by_cases hb : i < 2 * n
        · exact h (2 * n) _ (by omega) hsum (by rw [h1, List.mem_range'_1]; omega)
        · exact h (2 * n + 1) _ (by omega) hcmp (by rw [h1]; simp; omega)
    · rintro rfl
      refine ⟨2 * n + 1, _, hcmp, rfl, fun j g hj hg hm => ?_⟩
      have := (hout j g hg).2
      obtain rfl : j = 2 * n + 1 := by omega
      rw [hcmp] at hg
      cases hg
      simp at hm
  rw [this, Set.ncard_singleton]

end FP
