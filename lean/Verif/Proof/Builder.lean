import Verif.Spec.Builder
import Verif.Spec.Circuit
import Verif.Model.Garble
import Verif.Proof.Monad
/-
Helpers for the circuit builder and verifier.
-/
namespace FP
open Spec

theorem nodup_eraseDups (l : List Nat) : l.eraseDups.Nodup := by
  induction h : l.length using Nat.strongRecOn generalizing l with
  | _ n ih =>
    cases l with
    | nil => simp
    | cons a l =>
      rw [List.eraseDups_cons, List.nodup_cons]
      refine ⟨?_, ih _ ?_ _ rfl⟩
      · rw [List.mem_eraseDups]; simp
      · subst h
        exact Nat.lt_of_le_of_lt (List.length_filter_le _ _) (by simp)

theorem ncard_of_nodup {l : List Nat} {s : Set Nat} (hl : l.Nodup) (h : ∀ w, w ∈ l ↔ w ∈ s) :
    s.ncard = l.length := by
  have : s = (l.toFinset : Set Nat) := by ext w; simp [h]
  rw [this, Set.ncard_coe_finset, List.toFinset_card_of_nodup hl]

theorem mem_gateWires (gates : List Gate) (w : Nat) : w ∈ gateWires gates ↔ w ∈ mentioned gates := by
  unfold gateWires mentioned
  rw [List.mem_eraseDups]
  simp only [List.mem_append, List.mem_flatMap, List.mem_map, Set.mem_setOf_eq]
  constructor
  · rintro (⟨g, h1, h2⟩ | ⟨g, h1, h2⟩)
    · exact ⟨g, h1, .inl h2⟩
    · exact ⟨g, h1, .inr h2.symm⟩
  · rintro ⟨g, h1, h2 | h2⟩
    · exact .inl ⟨g, h1, h2⟩
    · exact .inr ⟨g, h1, h2.symm⟩

theorem gateWires_length (gates : List Gate) : (gateWires gates).length = (mentioned gates).ncard :=
  (ncard_of_nodup (nodup_eraseDups _) (mem_gateWires gates)).symm

theorem unreadWires_append (gates : List Gate) (g : Gate) (w : Nat) :
    w ∈ unreadWires (gates ++ [g]) ↔ (w ∈ unreadWires gates ∨ w = g.output) ∧ w ∉ g.inputs := by
  unfold unreadWires
  simp only [Set.mem_setOf_eq]
  constructor
  · rintro ⟨i, h, h1, h2, h3⟩
    have hi := (List.getElem?_eq_some_iff.mp h1).1
    simp only [List.length_append, List.length_cons, List.length_nil] at hi
    have hlast : (gates ++ [g])[gates.length]? = some g := by simp
    refine ⟨?_, h3 gates.length g (by omega) hlast⟩
    by_cases hig : i < gates.length
    · left
      rw [List.getElem?_append_left hig] at h1
      refine ⟨i, h, h1, h2, fun j g' hj hg' => h3 j g' hj ?_⟩
      rw [List.getElem?_append_left (List.getElem?_eq_some_iff.mp hg').1]; exact hg'
    · right
      obtain rfl : i = gates.length := by omega
      rw [hlast] at h1; injection h1 with h1
      rw [h1, h2]
  · rintro ⟨⟨i, h, h1, h2, h3⟩ | rfl, h4⟩
    · have hi := (List.getElem?_eq_some_iff.mp h1).1
      refine ⟨i, h, by rw [List.getElem?_append_left hi]; exact h1, h2, fun j g' hj hg' => ?_⟩
      by_cases hjg : j < gates.length
      · rw [List.getElem?_append_left hjg] at hg'; exact h3 j g' hj hg'
      · have := (List.getElem?_eq_some_iff.mp hg').1
        simp only [List.length_append, List.length_cons, List.length_nil] at this
        obtain rfl : j = gates.length := by omega
        simp only [List.getElem?_concat_length, Option.some.injEq] at hg'
        exact hg' ▸ h4
    · refine ⟨gates.length, g, by simp, rfl, fun j g' hj hg' => ?_⟩
      have := (List.getElem?_eq_some_iff.mp hg').1
      simp only [List.length_append, List.length_cons, List.length_nil] at this
      obtain rfl : j = gates.length := by omega
      simp only [List.getElem?_concat_length, Option.some.injEq] at hg'
      exact hg' ▸ h4

theorem unreadWires_rewire (f : Nat → Nat) (gates : List Gate)
    (hf : ∀ x ∈ mentioned gates, ∀ y ∈ mentioned gates, f x = f y → x = y) (w : Nat) :
    w ∈ unreadWires (gates.map (rewire f)) ↔ ∃ v ∈ unreadWires gates, f v = w := by
  unfold unreadWires
  simp only [Set.mem_setOf_eq, List.getElem?_map, Option.map_eq_some_iff]
  constructor
  · rintro ⟨i, g, ⟨g0, h1, rfl⟩, rfl, h3⟩
    refine ⟨g0.output, ⟨i, g0, h1, rfl, fun j g' hj hg' hm => ?_⟩, rfl⟩
    exact h3 j _ hj ⟨g', hg', rfl⟩ (List.mem_map.mpr ⟨_, hm, rfl⟩)
  · rintro ⟨v, ⟨i, g0, h1, rfl, h3⟩, rfl⟩
    refine ⟨i, _, ⟨g0, h1, rfl⟩, rfl, ?_⟩
    rintro j g' hj ⟨g1, hg1, rfl⟩ hm
    obtain ⟨x, hx, hx2⟩ := List.mem_map.mp hm
    have : x = g0.output := hf x ⟨g1, List.mem_of_getElem? hg1, .inl hx⟩ g0.output
      ⟨g0, List.mem_of_getElem? h1, .inr rfl⟩ hx2
    exact h3 j g1 hj hg1 (this ▸ hx)

theorem unread_mentioned {gates : List Gate} {w : Nat} (h : w ∈ unreadWires gates) :
    w ∈ mentioned gates := by
  obtain ⟨i, g, h1, rfl, -⟩ := h
  exact ⟨g, List.mem_of_getElem? h1, .inr rfl⟩

theorem builderAfter_append (dbg : Bool) (n : Nat) (h : List BuilderCall) (c : BuilderCall) :
    builderAfter dbg n (h ++ [c]) = (builderAfter dbg n h >>= fun b => match c with
      | .addGate g => .ok (b.addGate g)
      | .offset a => b.offset dbg a) := by
  unfold builderAfter
  rw [List.foldlM_append]
  refine bind_congr fun b => ?_
  rw [List.foldlM_cons]
  cases c with
  | addGate g => rfl
  | offset a => exact bind_pure _

/-- Addition of machine words in a release build. -/
def addWord (a x : Nat) : Nat := (x + a) % 2 ^ 64

theorem addWord_release (x a : Nat) : addR false (2 ^ 64) x a = .ok (addWord a x) := by
  unfold addR addWord
  split
  · rw [Nat.mod_eq_of_lt ‹_›]
  · rfl

theorem addWord_checked (x a : Nat) :
    addR true (2 ^ 64) x a = if x + a < 2 ^ 64 then .ok (addWord a x) else .error .panic := by
  unfold addR addWord
  split
  · rw [Nat.mod_eq_of_lt ‹_›]
  · rfl

/-- A builder with its wires renamedWires. -/
def renamedWires (f : Nat → Nat) (b : CircuitBuilder) : CircuitBuilder :=
  ⟨b.gates.map (rewire f), f b.nextWire, b.numInputs, b.unread.map f⟩

theorem offset_release (b : CircuitBuilder) (a : Nat) :
    b.offset false a = .ok (renamedWires (addWord a) b) := by
  unfold CircuitBuilder.offset
  rw [mapM_ok (g := rewire (addWord a)), okb, mapM_ok (g := addWord a), okb, addWord_release, okb]
  · rfl
  · intro x _; exact addWord_release x a
  · intro g _
    rw [addWord_release, okb, mapM_ok (g := addWord a), okb]
    · rfl
    · intro x _; exact addWord_release x a

theorem mapM_unless {α β : Type} {f : α → R β} {g : α → β} {P : α → Prop} [DecidablePred P]
    (hf : ∀ a, f a = if P a then .ok (g a) else .error .panic) (l : List α) :
    l.mapM f = if ∀ a ∈ l, P a then .ok (l.map g) else .error .panic := by
  induction l with
  | nil => simp; rfl
  | cons a l ih =>
    rw [List.mapM_cons, hf, ih]
    by_cases h1 : P a
    · by_cases h2 : ∀ a ∈ l, P a
      · rw [if_pos h1, if_pos h2, if_pos (by simpa using ⟨h1, h2⟩)]; rfl
      · rw [if_pos h1, if_neg h2, if_neg (by simpa [h1] using h2)]; rfl
    · have h3 : ¬ ∀ b ∈ a :: l, P b := fun h => h1 (h a (by simp))
      rw [if_neg h1, if_neg h3]; rfl

/-- The sums of `offset` fit. -/
def OffsetFits (b : CircuitBuilder) (a : Nat) : Prop :=
  (∀ g ∈ b.gates, g.output + a < 2 ^ 64 ∧ ∀ i ∈ g.inputs, i + a < 2 ^ 64) ∧
  (∀ x ∈ b.unread, x + a < 2 ^ 64) ∧ b.nextWire + a < 2 ^ 64

instance (b : CircuitBuilder) (a : Nat) : Decidable (OffsetFits b a) := by
  unfold OffsetFits; infer_instance

theorem offset_checked (b : CircuitBuilder) (a : Nat) :
    b.offset true a = if OffsetFits b a then .ok (renamedWires (addWord a) b) else .error .panic := by
  unfold CircuitBuilder.offset
  have hg : ∀ g : Gate, (do
      let output ← addR true (2 ^ 64) g.output a
      let inputs ← g.inputs.mapM fun i => addR true (2 ^ 64) i a
      return { g with output := output, inputs := inputs } : R Gate) =
      if g.output + a < 2 ^ 64 ∧ ∀ i ∈ g.inputs, i + a < 2 ^ 64 then .ok (rewire (addWord a) g)
      else .error .panic := by
    intro g
    rw [addWord_checked, mapM_unless (fun i => addWord_checked i a)]
    by_cases h1 : g.output + a < 2 ^ 64
    · by_cases h2 : ∀ i ∈ g.inputs, i + a < 2 ^ 64
      · rw [if_pos h1, if_pos h2, if_pos ⟨h1, h2⟩]; rfl
      · rw [if_pos h1, if_neg h2, if_neg (fun h => h2 h.2)]; rfl
    · have h3 : ¬ (g.output + a < 2 ^ 64 ∧ ∀ i ∈ g.inputs, i + a < 2 ^ 64) := fun h => h1 h.1
      rw [if_neg h1, if_neg h3]; rfl
  rw [mapM_unless hg, mapM_unless (fun i => addWord_checked i a), addWord_checked]
  by_cases h1 : ∀ g ∈ b.gates, g.output + a < 2 ^ 64 ∧ ∀ i ∈ g.inputs, i + a < 2 ^ 64
  · by_cases h2 : ∀ x ∈ b.unread, x + a < 2 ^ 64
    · by_cases h3 : b.nextWire + a < 2 ^ 64
      · have h4 : OffsetFits b a := ⟨h1, h2, h3⟩
        rw [if_pos h1, if_pos h2, if_pos h3, if_pos h4]; rfl
      · have h4 : ¬ OffsetFits b a := fun h => h3 h.2.2
        rw [if_pos h1, if_pos h2, if_neg h3, if_neg h4]; rfl
    · have h4 : ¬ OffsetFits b a := fun h => h2 h.2.1
      rw [if_pos h1, if_neg h2, if_neg h4]; rfl
  · have h4 : ¬ OffsetFits b a := fun h => h1 h.1
    rw [if_neg h1, if_neg h4]; rfl

theorem offset_same {b b' : CircuitBuilder} {dbg : Bool} {a : Nat} (h : b.offset dbg a = .ok b') :
    b' = renamedWires (addWord a) b := by
  cases dbg
  · rw [offset_release] at h; exact (Except.ok.inj h).symm
  · rw [offset_checked] at h
    split at h
    · exact (Except.ok.inj h).symm
    · cases h

theorem addWord_inj {a x y : Nat} (hx : x < 2 ^ 64) (hy : y < 2 ^ 64) (h : addWord a x = addWord a y) :
    x = y := by
  unfold addWord at h
  omega

theorem offsetsIn_append (h : List BuilderCall) (c : BuilderCall) :
    offsetsIn (h ++ [c]) = offsetsIn h + offsetsIn [c] := by
  induction h with
  | nil => simp [offsetsIn]
  | cons d h ih => cases d <;> simp [offsetsIn, ih]; omega

theorem rewire_rewire (f k : Nat → Nat) (g : Gate) : rewire f (rewire k g) = rewire (f ∘ k) g := by
  simp [rewire]

theorem described_addGate (h : List BuilderCall) (g : Gate) :
    described (h ++ [.addGate g]) = described h ++ [g] := by
  induction h with
  | nil => simp [described, rewire, offsetsIn]
  | cons d h ih => cases d <;> simp [described, ih, offsetsIn_append, offsetsIn]

theorem described_offset (h : List BuilderCall) (a : Nat) :
    described (h ++ [.offset a]) = (described h).map (rewire (· + a)) := by
  induction h with
  | nil => simp [described]
  | cons d h ih =>
    cases d
    · simp only [List.cons_append, described, ih, List.map_cons, rewire_rewire, offsetsIn_append,
        offsetsIn, Nat.add_zero]
      congr 2
      funext x
      simp only [Function.comp]; omega
    · simp only [List.cons_append, described, ih]

theorem described_leading (h : List BuilderCall) (a : Nat) :
    leadingOffsets (h ++ [.offset a]) =
      if described h = [] then leadingOffsets h + a else leadingOffsets h := by
  induction h with
  | nil => simp [described, leadingOffsets]
  | cons d h ih =>
    cases d
    · simp [described, leadingOffsets]
    · rw [List.cons_append, leadingOffsets, ih, leadingOffsets, described]
      split
      · rw [Nat.add_assoc]
      · rfl

theorem leading_addGate (h : List BuilderCall) (g : Gate) :
    leadingOffsets (h ++ [.addGate g]) = leadingOffsets h := by
  induction h with
  | nil => rfl
  | cons d h ih => cases d <;> simp [leadingOffsets, ih]

/-- What is true of the builder after a history. -/
structure BuilderInv (n : Nat) (h : List BuilderCall) (b : CircuitBuilder) : Prop where
  inputs : b.numInputs = n
  gates : b.gates = (described h).map (rewire (· % 2 ^ 64))
  range : ∀ w ∈ mentioned b.gates, w < 2 ^ 64
  nodup : b.unread.Nodup
  unread : ∀ w, w ∈ b.unread ↔ w ∈ unreadWires b.gates
  next : (b.gates = [] ∧ b.nextWire = leadingOffsets h % 2 ^ 64) ∨ b.nextWire ∈ mentioned b.gates

theorem builder_inv (dbg : Bool) (n : Nat) (h : List BuilderCall) (hr : ∀ c ∈ h, c.InRange)
    (b : CircuitBuilder) (hb : builderAfter dbg n h = .ok b) : BuilderInv n h b := by
  induction h using List.reverseRecOn generalizing b with
  | nil =>
    obtain rfl : CircuitBuilder.new n = b := Except.ok.inj hb
    constructor <;> simp [CircuitBuilder.new, described, mentioned, unreadWires, leadingOffsets]
  | append_singleton h c ih =>
    rw [builderAfter_append] at hb
    cases hb0 : builderAfter dbg n h with
    | error e => rw [hb0] at hb; cases hb
    | ok b0 =>
      rw [hb0, okb] at hb
      obtain ⟨i1, i2, i3, i4, i5, i6⟩ := ih (fun c hc => hr c (List.mem_append_left _ hc)) b0 hb0
      have hc := hr c (by simp)
      cases c with
      | addGate g =>
        obtain rfl : b0.addGate g = b := Except.ok.inj hb
        obtain ⟨hc1, hc2⟩ := hc
        have hg : rewire (· % 2 ^ 64) g = g := by
          unfold rewire
          simp only [Nat.mod_eq_of_lt hc1]
          have : g.inputs.map (· % 2 ^ 64) = g.inputs :=
            (List.map_congr_left fun i hi => Nat.mod_eq_of_lt (hc2 i hi)).trans (List.map_id _)
          rw [this]
        refine ⟨i1, ?_, ?_, ?_, fun w => ?_, ?_⟩
        · rw [described_addGate, List.map_append, List.map_cons, List.map_nil, hg, ← i2]; rfl
        · rintro w ⟨g', hg', hw⟩
          rcases List.mem_append.mp hg' with hg' | hg'
          · exact i3 w ⟨g', hg', hw⟩
          · obtain rfl := List.mem_singleton.mp hg'
            rcases hw with hw | rfl
            · exact hc2 w hw
            · exact hc1
        · exact (List.Nodup.insert i4).filter _
        · simp only [CircuitBuilder.addGate]
          rw [unreadWires_append, ← i5]
          simp only [List.mem_filter, List.mem_insert_iff, decide_eq_true_eq]
          constructor
          · rintro ⟨h1 | h1, h2⟩
            · exact ⟨.inr h1, h2⟩
            · exact ⟨.inl h1, h2⟩
          · rintro ⟨h1 | h1, h2⟩
            · exact ⟨.inr h1, h2⟩
            · exact ⟨.inl h1, h2⟩
        · exact .inr ⟨g, by simp [CircuitBuilder.addGate], .inr rfl⟩
      | offset a =>
        obtain rfl := offset_same hb
        have hinj : ∀ x ∈ mentioned b0.gates, ∀ y ∈ mentioned b0.gates,
            addWord a x = addWord a y → x = y :=
          fun x hx y hy => addWord_inj (i3 x hx) (i3 y hy)
        refine ⟨i1, ?_, ?_, ?_, fun w => ?_, ?_⟩
        · simp only [renamedWires]
          rw [i2, described_offset, List.map_map, List.map_map]
          refine List.map_congr_left fun g _ => ?_
          simp only [Function.comp, rewire_rewire]
          congr 1
          funext x
          simp only [Function.comp, addWord]; omega
        · rintro w ⟨g', hg', hw⟩
          obtain ⟨g, -, rfl⟩ := List.mem_map.mp hg'
          rcases hw with hw | rfl
          · obtain ⟨x, -, rfl⟩ := List.mem_map.mp hw
            exact Nat.mod_lt _ (by decide)
          · exact Nat.mod_lt _ (by decide)
        · refine List.Nodup.map_on (fun x hx y hy => ?_) i4
          exact hinj x (unread_mentioned ((i5 x).mp hx)) y (unread_mentioned ((i5 y).mp hy))
        · simp only [renamedWires]
          rw [unreadWires_rewire _ _ hinj]
          simp only [List.mem_map, i5]
        · rcases i6 with ⟨h1, h2⟩ | ⟨g, hg, h2⟩
          · left
            refine ⟨by simp [renamedWires, h1], ?_⟩
            have : described h = [] := by rw [i2] at h1; simpa using h1
            rw [described_leading, if_pos this]
            simp only [renamedWires, h2, addWord]; omega
          · right
            refine ⟨rewire (addWord a) g, List.mem_map_of_mem hg, ?_⟩
            rcases h2 with h2 | h2
            · exact .inl (List.mem_map_of_mem h2)
            · right; simp only [renamedWires, h2, rewire]

theorem builder_release (n : Nat) (h : List BuilderCall) : ∃ b, builderAfter false n h = .ok b := by
  induction h using List.reverseRecOn with
  | nil => exact ⟨_, rfl⟩
  | append_singleton h c ih =>
    obtain ⟨b, hb⟩ := ih
    rw [builderAfter_append, hb, okb]
    cases c with
    | addGate g => exact ⟨_, rfl⟩
    | offset a => exact ⟨_, offset_release b a⟩

theorem rewire_of_lt {gs : List Gate} (h : ∀ w ∈ mentioned gs, w < 2 ^ 64) :
    gs.map (rewire (· % 2 ^ 64)) = gs := by
  refine (List.map_congr_left fun g hg => ?_).trans (List.map_id _)
  unfold rewire
  simp only [Nat.mod_eq_of_lt (h _ ⟨g, hg, .inr rfl⟩)]
  have : g.inputs.map (· % 2 ^ 64) = g.inputs :=
    (List.map_congr_left fun i hi => Nat.mod_eq_of_lt (h _ ⟨g, hg, .inl hi⟩)).trans (List.map_id _)
  rw [this]; rfl

theorem mentioned_rewire (f : Nat → Nat) (gs : List Gate) (w : Nat) :
    w ∈ mentioned (gs.map (rewire f)) ↔ ∃ v ∈ mentioned gs, f v = w := by
  constructor
  · rintro ⟨g', hg', hw⟩
    obtain ⟨g, hg, rfl⟩ := List.mem_map.mp hg'
    rcases hw with hw | rfl
    · obtain ⟨x, hx, rfl⟩ := List.mem_map.mp hw
      exact ⟨x, ⟨g, hg, .inl hx⟩, rfl⟩
    · exact ⟨_, ⟨g, hg, .inr rfl⟩, rfl⟩
  · rintro ⟨v, ⟨g, hg, hv⟩, rfl⟩
    refine ⟨_, List.mem_map_of_mem hg, ?_⟩
    rcases hv with hv | rfl
    · exact .inl (List.mem_map_of_mem hv)
    · exact .inr rfl

theorem builder_checked (n : Nat) (h : List BuilderCall) (hr : ∀ c ∈ h, c.InRange) :
    (((∀ w ∈ mentioned (described h), w < 2 ^ 64) ∧ leadingOffsets h < 2 ^ 64) ∧
      ∃ b, builderAfter true n h = .ok b) ∨
    (¬ ((∀ w ∈ mentioned (described h), w < 2 ^ 64) ∧ leadingOffsets h < 2 ^ 64) ∧
      builderAfter true n h = .error .panic) := by
  induction h using List.reverseRecOn with
  | nil => exact .inl ⟨⟨by simp [described, mentioned], by simp [leadingOffsets]⟩, _, rfl⟩
  | append_singleton h c ih =>
    have hr0 : ∀ c ∈ h, c.InRange := fun c hc => hr c (List.mem_append_left _ hc)
    have hc := hr c (by simp)
    rw [builderAfter_append]
    rcases ih hr0 with ⟨⟨h1, h2⟩, b, hb⟩ | ⟨hn, hb⟩
    · have inv := builder_inv true n h hr0 b hb
      have hg : b.gates = described h := inv.gates.trans (rewire_of_lt h1)
      rw [hb, okb]
      cases c with
      | addGate g =>
        refine .inl ⟨⟨?_, by rw [leading_addGate]; exact h2⟩, _, rfl⟩
        rw [described_addGate]
        rintro w ⟨g', hg', hw⟩
        rcases List.mem_append.mp hg' with hg' | hg'
        · exact h1 w ⟨g', hg', hw⟩
        · obtain rfl := List.mem_singleton.mp hg'
          rcases hw with hw | rfl
          · exact hc.2 w hw
          · exact hc.1
      | offset a =>
        simp only [offset_checked]
        have key : OffsetFits b a ↔ (∀ w ∈ mentioned (described (h ++ [.offset a])), w < 2 ^ 64) ∧
            leadingOffsets (h ++ [.offset a]) < 2 ^ 64 := by
          rw [described_offset, described_leading]
          simp only [mentioned_rewire]
          constructor
          · rintro ⟨f1, f2, f3⟩
            constructor
            · rintro w ⟨v, ⟨g, hg', hv⟩, rfl⟩
              rw [← hg] at hg'
              rcases hv with hv | rfl
              · exact (f1 g hg').2 v hv
              · exact (f1 g hg').1
            · split
              · rename_i hd
                rcases inv.next with ⟨-, hx⟩ | ⟨g, hg', -⟩
                · rw [hx, Nat.mod_eq_of_lt h2] at f3; exact f3
                · rw [hg, hd] at hg'; simp at hg'
              · exact h2
          · rintro ⟨f1, f2⟩
            have f1' : ∀ v ∈ mentioned b.gates, v + a < 2 ^ 64 := by
              rw [hg]; exact fun v hv => f1 _ ⟨v, hv, rfl⟩
            refine ⟨fun g hg' => ⟨f1' _ ⟨g, hg', .inr rfl⟩, fun i hi => f1' _ ⟨g, hg', .inl hi⟩⟩,
              fun x hx => f1' x (unread_mentioned ((inv.unread x).mp hx)), ?_⟩
            rcases inv.next with ⟨h3, hx⟩ | hx
            · rw [hg] at h3
              rw [if_pos h3] at f2
              rw [hx, Nat.mod_eq_of_lt h2]; exact f2
            · exact f1' _ hx
        by_cases hf : OffsetFits b a
        · exact .inl ⟨key.mp hf, _, if_pos hf⟩
        · exact .inr ⟨fun h => hf (key.mpr h), if_neg hf⟩
    · refine .inr ⟨?_, by rw [hb]; rfl⟩
      rintro ⟨f1, f2⟩
      refine hn ⟨?_, ?_⟩
      · cases c with
        | addGate g =>
          rw [described_addGate] at f1
          exact fun w ⟨g', hg', hw⟩ => f1 w ⟨g', List.mem_append_left _ hg', hw⟩
        | offset a =>
          rw [described_offset] at f1
          intro w hw
          have := f1 _ ((mentioned_rewire _ _ _).mpr ⟨w, hw, rfl⟩)
          omega
      · cases c with
        | addGate g => rw [leading_addGate] at f2; exact f2
        | offset a =>
          rw [described_leading] at f2
          split at f2 <;> omega

theorem gatesFit_outputs {good : Nat → Prop} {gs : List Gate} {doms : List Nat} (h : GatesFit good doms gs) :
    gs.map Gate.output = List.range' doms.length gs.length := by
  induction gs generalizing doms with
  | nil => rfl
  | cons g gs ih =>
    rw [GatesFit] at h
    have := ih h.2
    simp only [List.length_append, List.length_cons, List.length_nil, Nat.zero_add] at this
    rw [List.map_cons, h.1.output, this, List.length_cons, List.range'_succ]

theorem gatesFit_inputs_lt {good : Nat → Prop} {gs : List Gate} {doms : List Nat} (h : GatesFit good doms gs) :
    ∀ g ∈ gs, ∀ i ∈ g.inputs, i < doms.length + gs.length := by
  induction gs generalizing doms with
  | nil => simp
  | cons g gs ih =>
    rw [GatesFit] at h
    intro g' hg' i hi
    rcases List.mem_cons.mp hg' with rfl | hg'
    · have := (List.getElem?_eq_some_iff.mp (h.1.inputs i hi)).1
      simp; omega
    · have := ih h.2 g' hg' i hi
      simp at this ⊢; omega

end FP
