import Verif.Spec.HalfForge
import Verif.Proof.HalfViews
import Verif.Proof.TablesMore
import Verif.Proof.Forge
/-
The hash function reprogrammed for another delta.
-/
namespace FP
open Spec

/-- One of the two labels the evaluator does not hold, at the AND gate with number `k`. -/
def Spot (gates : List Gate) (act : Nat → WireBytes) (δ δ' w : WireBytes) (k : Nat) : Prop :=
  ∃ p ∈ andGates gates, p.2 = k ∧
    (w = add32 (act (p.1.inputs.getD 0 0)) δ ∨ w = add32 (act (p.1.inputs.getD 0 0)) δ' ∨
      w = add32 (act (p.1.inputs.getD 1 0)) δ ∨ w = add32 (act (p.1.inputs.getD 1 0)) δ')

open Classical in
/-- What is hashed instead of `q`. -/
noncomputable def partner (gates : List Gate) (act : Nat → WireBytes) (δ δ' : WireBytes) (q : Bytes) : Bytes :=
  if h : ∃ t : WireBytes × Nat, q = t.1.toList ++ rowBytes t.2 ∧ Spot gates act δ δ' t.1 t.2 then
    (add32 h.choose.1 (add32 δ δ')).toList ++ rowBytes h.choose.2
  else q

/-- The hash of `q` is changed by `cor`. -/
def Fix2 (gates : List Gate) (act : Nat → WireBytes) (δ δ' : WireBytes) (V V' : Nat → Bool) (q : Bytes) (cor : WireBytes) :
    Prop :=
  ∃ p ∈ andGates gates,
    (q = (add32 (act (p.1.inputs.getD 0 0)) δ').toList ++ rowBytes p.2 ∧
      cor = add32 (when32 (colourBit (act (p.1.inputs.getD 1 0)) ^^ V (p.1.inputs.getD 1 0)) δ)
        (when32 (colourBit (act (p.1.inputs.getD 1 0)) ^^ V' (p.1.inputs.getD 1 0)) δ')) ∨
    (q = (add32 (act (p.1.inputs.getD 1 0)) δ').toList ++ rowBytes p.2 ∧
      cor = add32 (when32 (V (p.1.inputs.getD 0 0)) δ) (when32 (V' (p.1.inputs.getD 0 0)) δ'))

/-- The hash function for the other delta. -/
noncomputable def otherHash (gates : List Gate) (act : Nat → WireBytes) (δ δ' : WireBytes) (V V' : Nat → Bool)
    (sha : Bytes → WireBytes) (q : Bytes) : WireBytes :=
  add32 (sha (partner gates act δ δ' q)) (corr (Fix2 gates act δ δ' V V') q)

theorem add32_swap (w a b : WireBytes) : add32 (add32 w a) (add32 a b) = add32 w b := by
  apply xb_ext
  intro i k
  simp only [xb_add]
  cases xb w i k <;> cases xb a i k <;> cases xb b i k <;> rfl

theorem spot_lt {gates : List Gate} (hn : gates.length < 2 ^ 64) {act : Nat → WireBytes} {δ δ' w : WireBytes} {k : Nat}
    (h : Spot gates act δ δ' w k) : k < 2 ^ 64 := by
  obtain ⟨p, hp, rfl, -⟩ := h
  exact andGates_lt hn hp

theorem spot_partner {gates : List Gate} {act : Nat → WireBytes} {δ δ' w : WireBytes} {k : Nat}
    (h : Spot gates act δ δ' w k) : Spot gates act δ δ' (add32 w (add32 δ δ')) k := by
  obtain ⟨p, hp, e, h⟩ := h
  refine ⟨p, hp, e, ?_⟩
  rcases h with rfl | rfl | rfl | rfl
  · exact .inr (.inl (add32_swap _ _ _))
  · exact .inl (by rw [add32_comm δ δ', add32_swap])
  · exact .inr (.inr (.inr (add32_swap _ _ _)))
  · exact .inr (.inr (.inl (by rw [add32_comm δ δ', add32_swap])))

theorem spot_comm {gates : List Gate} {act : Nat → WireBytes} {δ δ' w : WireBytes} {k : Nat} :
    Spot gates act δ δ' w k ↔ Spot gates act δ' δ w k := by
  constructor <;> rintro ⟨p, hp, e, h | h | h | h⟩
  · exact ⟨p, hp, e, .inr (.inl h)⟩
  · exact ⟨p, hp, e, .inl h⟩
  · exact ⟨p, hp, e, .inr (.inr (.inr h))⟩
  · exact ⟨p, hp, e, .inr (.inr (.inl h))⟩
  · exact ⟨p, hp, e, .inr (.inl h)⟩
  · exact ⟨p, hp, e, .inl h⟩
  · exact ⟨p, hp, e, .inr (.inr (.inr h))⟩
  · exact ⟨p, hp, e, .inr (.inr (.inl h))⟩

theorem partner_spot {gates : List Gate} (hn : gates.length < 2 ^ 64) {act : Nat → WireBytes} {δ δ' w : WireBytes} {k : Nat}
    (h : Spot gates act δ δ' w k) :
    partner gates act δ δ' (w.toList ++ rowBytes k) = (add32 w (add32 δ δ')).toList ++ rowBytes k := by
  have hex : ∃ t : WireBytes × Nat, w.toList ++ rowBytes k = t.1.toList ++ rowBytes t.2 ∧ Spot gates act δ δ' t.1 t.2 :=
    ⟨(w, k), rfl, h⟩
  unfold partner
  rw [dif_pos hex]
  obtain ⟨h1, h2⟩ := hex.choose_spec
  obtain ⟨e1, e2⟩ := key_inj (spot_lt hn h) (spot_lt hn h2) h1
  rw [← e1, ← e2]

theorem partner_none {gates : List Gate} {act : Nat → WireBytes} {δ δ' : WireBytes} {q : Bytes}
    (h : ∀ w k, q = w.toList ++ rowBytes k → ¬ Spot gates act δ δ' w k) : partner gates act δ δ' q = q := by
  unfold partner
  rw [dif_neg]
  rintro ⟨t, h1, h2⟩
  exact h _ _ h1 h2

theorem fix2_spot {gates : List Gate} {act : Nat → WireBytes} {δ δ' : WireBytes} {V V' : Nat → Bool} {q : Bytes}
    {cor : WireBytes} (h : Fix2 gates act δ δ' V V' q cor) :
    ∃ w k, q = w.toList ++ rowBytes k ∧ Spot gates act δ δ' w k := by
  obtain ⟨p, hp, ⟨e, _⟩ | ⟨e, _⟩⟩ := h
  · exact ⟨_, _, e, p, hp, rfl, .inr (.inl rfl)⟩
  · exact ⟨_, _, e, p, hp, rfl, .inr (.inr (.inr rfl))⟩

theorem fix2_unique {gates : List Gate} (hn : gates.length < 2 ^ 64) {act : Nat → WireBytes} {δ δ' δ0 : WireBytes}
    {V V' : Nat → Bool} (ha : ActsApart gates act δ0) {q : Bytes} {c1 c2 : WireBytes}
    (h1 : Fix2 gates act δ δ' V V' q c1) (h2 : Fix2 gates act δ δ' V V' q c2) : c2 = c1 := by
  obtain ⟨p, hp, hp'⟩ := h1
  obtain ⟨r, hr, hr'⟩ := h2
  have lp := andGates_lt hn hp
  have lr := andGates_lt hn hr
  have hne := ha p.1 (andGates_mem hp).1 (andGates_mem hp).2
  rcases hp' with ⟨e1, f1⟩ | ⟨e1, f1⟩ <;> rcases hr' with ⟨e2, f2⟩ | ⟨e2, f2⟩ <;>
  (obtain ⟨k1, k2⟩ := key_inj lp lr (e1.symm.trans e2)
   obtain rfl := andGates_unique hp hr k2)
  · rw [f1, f2]
  · exact absurd (add32_right_inj k1) hne.1
  · exact absurd (add32_right_inj k1).symm hne.1
  · rw [f1, f2]

/-- The labels the evaluator holds are no spots. -/
theorem held_no_spot {gates : List Gate} {act : Nat → WireBytes} {δ δ' : WireBytes}
    (hδ : colourBit δ = true) (hδ' : colourBit δ' = true) (ha : ActsApart gates act δ) (ha' : ActsApart gates act δ')
    {p : Gate × Nat} (hp : p ∈ andGates gates) {w : WireBytes}
    (hw : w = act (p.1.inputs.getD 0 0) ∨ w = act (p.1.inputs.getD 1 0)) : ¬ Spot gates act δ δ' w p.2 := by
  rintro ⟨r, hr, e, h⟩
  obtain rfl := andGates_unique hr hp e
  have h1 := (ha r.1 (andGates_mem hp).1 (andGates_mem hp).2).2
  have h2 := (ha' r.1 (andGates_mem hp).1 (andGates_mem hp).2).2
  have flip : ∀ {a b d : WireBytes}, b = add32 a d → a = add32 b d := by
    intro a b d h; rw [h, add32_cancel]
  rcases hw with rfl | rfl <;> rcases h with h | h | h | h
  · exact add32_ne hδ h
  · exact add32_ne hδ' h
  · exact h1 h
  · exact h2 h
  · exact h1 (flip h)
  · exact h2 (flip h)
  · exact add32_ne hδ h
  · exact add32_ne hδ' h

theorem otherHash_none {gates : List Gate} {act : Nat → WireBytes} {δ δ' : WireBytes} {V V' : Nat → Bool}
    (sha : Bytes → WireBytes) {q : Bytes} (h : ∀ w k, q = w.toList ++ rowBytes k → ¬ Spot gates act δ δ' w k) :
    otherHash gates act δ δ' V V' sha q = sha q := by
  unfold otherHash
  rw [partner_none h, corr_none, add32_zero]
  intro cor hc
  obtain ⟨w, k, e, hs⟩ := fix2_spot hc
  exact h w k e hs

theorem hashRel_other {gates : List Gate} (hn : gates.length < 2 ^ 64) {act : Nat → WireBytes} {δ δ' : WireBytes}
    (hδ : colourBit δ = true) (hδ' : colourBit δ' = true) {V V' : Nat → Bool} (ha : ActsApart gates act δ)
    (ha' : ActsApart gates act δ') (sha : Bytes → WireBytes) {p : Gate × Nat} (hp : p ∈ andGates gates) :
    HashRel sha (otherHash gates act δ δ' V V' sha) δ δ' act V V' (p.1.inputs.getD 0 0) (p.1.inputs.getD 1 0) p.2 := by
  have lp := andGates_lt hn hp
  have same : ∀ w, (w = act (p.1.inputs.getD 0 0) ∨ w = act (p.1.inputs.getD 1 0)) →
      tweaked (otherHash gates act δ δ' V V' sha) w p.2 = tweaked sha w p.2 := by
    intro w hw
    unfold tweaked
    refine otherHash_none sha fun w' k e hs => ?_
    obtain ⟨e1, e2⟩ := key_inj lp (spot_lt hn hs) e
    subst e1 e2
    exact held_no_spot hδ hδ' ha ha' hp hw hs
  refine ⟨same _ (.inl rfl), same _ (.inr rfl), ?_, ?_⟩
  · unfold tweaked otherHash
    rw [partner_spot hn ⟨p, hp, rfl, .inr (.inl rfl)⟩, add32_comm δ δ', add32_swap,
      corr_some (fx := Fix2 gates act δ δ' V V') ⟨p, hp, .inl ⟨rfl, rfl⟩⟩]
    exact fun c' hc' => fix2_unique hn ha ⟨p, hp, .inl ⟨rfl, rfl⟩⟩ hc'
  · unfold tweaked otherHash
    rw [partner_spot hn ⟨p, hp, rfl, .inr (.inr (.inr rfl))⟩, add32_comm δ δ', add32_swap,
      corr_some (fx := Fix2 gates act δ δ' V V') ⟨p, hp, .inr ⟨rfl, rfl⟩⟩]
    exact fun c' hc' => fix2_unique hn ha ⟨p, hp, .inr ⟨rfl, rfl⟩⟩ hc'

theorem corr_congr {f f' : Bytes → WireBytes → Prop} {q q' : Bytes} (h : f q = f' q') : corr f q = corr f' q' := by
  by_cases he : ∃ cor, f q cor
  · have he' : ∃ cor, f' q' cor := h ▸ he
    unfold corr
    rw [dif_pos he, dif_pos he']
    congr
  · have he' : ¬ ∃ cor, f' q' cor := h ▸ he
    unfold corr
    rw [dif_neg he, dif_neg he']

/-- Going back. -/
theorem otherHash_back {gates : List Gate} (hn : gates.length < 2 ^ 64) {act : Nat → WireBytes} {δ δ' : WireBytes}
    {V V' : Nat → Bool} (sha : Bytes → WireBytes) (q : Bytes) :
    otherHash gates act δ' δ V' V (otherHash gates act δ δ' V V' sha) q = sha q := by
  by_cases h : ∃ w k, q = w.toList ++ rowBytes k ∧ Spot gates act δ δ' w k
  · obtain ⟨w, k, rfl, hs⟩ := h
    have lk := spot_lt hn hs
    unfold otherHash
    rw [partner_spot hn (spot_comm.mp hs), add32_comm δ' δ, partner_spot hn (spot_partner hs), add32_cancel]
    have : corr (Fix2 gates act δ δ' V V') ((add32 w (add32 δ δ')).toList ++ rowBytes k) =
        corr (Fix2 gates act δ' δ V' V) (w.toList ++ rowBytes k) := by
      apply corr_congr
      funext cor
      unfold Fix2
      refine propext (exists_congr fun p => and_congr_right fun hp => ?_)
      have lp := andGates_lt hn hp
      have key : ∀ a : WireBytes, ((add32 w (add32 δ δ')).toList ++ rowBytes k = (add32 a δ').toList ++ rowBytes p.2) ↔
          w.toList ++ rowBytes k = (add32 a δ).toList ++ rowBytes p.2 := by
        intro a
        constructor
        · intro e
          obtain ⟨e1, e2⟩ := key_inj lk lp e
          rw [e2, ← add32_cancel w (add32 δ δ'), e1, add32_comm δ δ', add32_swap]
        · intro e
          obtain ⟨e1, e2⟩ := key_inj lk lp e
          rw [e2, e1, add32_swap]
      rw [key, key, add32_comm (when32 (V (p.1.inputs.getD 0 0)) δ),
        add32_comm (when32 (colourBit (act (p.1.inputs.getD 1 0)) ^^ V (p.1.inputs.getD 1 0)) δ)]
    rw [this, add32_cancel]
  · push Not at h
    rw [otherHash_none _ fun w k e hs => h w k e (spot_comm.mpr hs), otherHash_none _ h]

/-! ### The hashes of the outputs -/

/-- One of the two labels the evaluator does not hold, at an output. -/
def OutSpot (s n : Nat) (act : Nat → WireBytes) (δ δ' : WireBytes) (h : Bytes) (w : WireBytes) : Prop :=
  ∃ o v, s ≤ o ∧ o < n ∧ h = beBytes 8 o ++ beBytes 2 v ∧ (w = add32 (act o) δ ∨ w = add32 (act o) δ')

open Classical in
/-- What is hashed instead of `q`. -/
noncomputable def outPartner (s n : Nat) (act : Nat → WireBytes) (δ δ' : WireBytes) (q : Bytes) : Bytes :=
  if h : ∃ t : Bytes × WireBytes, q = t.1 ++ t.2.toList ∧ OutSpot s n act δ δ' t.1 t.2 then
    h.choose.1 ++ (add32 h.choose.2 (add32 δ δ')).toList
  else q

theorem outSpot_len {s n : Nat} {act : Nat → WireBytes} {δ δ' w : WireBytes} {h : Bytes} (hs : OutSpot s n act δ δ' h w) :
    h.length = 10 := by
  obtain ⟨o, v, -, -, rfl, -⟩ := hs
  simp [beBytes]

theorem outSpot_comm {s n : Nat} {act : Nat → WireBytes} {δ δ' w : WireBytes} {h : Bytes} :
    OutSpot s n act δ δ' h w ↔ OutSpot s n act δ' δ h w := by
  constructor <;> rintro ⟨o, v, h1, h2, h3, h | h⟩
  · exact ⟨o, v, h1, h2, h3, .inr h⟩
  · exact ⟨o, v, h1, h2, h3, .inl h⟩
  · exact ⟨o, v, h1, h2, h3, .inr h⟩
  · exact ⟨o, v, h1, h2, h3, .inl h⟩

theorem outSpot_partner {s n : Nat} {act : Nat → WireBytes} {δ δ' w : WireBytes} {h : Bytes} (hs : OutSpot s n act δ δ' h w) :
    OutSpot s n act δ δ' h (add32 w (add32 δ δ')) := by
  obtain ⟨o, v, h1, h2, h3, h | h⟩ := hs
  · exact ⟨o, v, h1, h2, h3, .inr (by rw [h, add32_swap])⟩
  · exact ⟨o, v, h1, h2, h3, .inl (by rw [h, add32_comm δ δ', add32_swap])⟩

theorem outPartner_spot {s n : Nat} {act : Nat → WireBytes} {δ δ' w : WireBytes} {h : Bytes} (hs : OutSpot s n act δ δ' h w) :
    outPartner s n act δ δ' (h ++ w.toList) = h ++ (add32 w (add32 δ δ')).toList := by
  have hex : ∃ t : Bytes × WireBytes, h ++ w.toList = t.1 ++ t.2.toList ∧ OutSpot s n act δ δ' t.1 t.2 := ⟨(h, w), rfl, hs⟩
  unfold outPartner
  rw [dif_pos hex]
  obtain ⟨h1, h2⟩ := hex.choose_spec
  obtain ⟨e1, e2⟩ := List.append_inj h1 (by rw [outSpot_len hs, outSpot_len h2])
  rw [← e1, ← Vector.toList_inj.mp e2]

theorem outPartner_none {s n : Nat} {act : Nat → WireBytes} {δ δ' : WireBytes} {q : Bytes}
    (h : ∀ b w, q = b ++ w.toList → ¬ OutSpot s n act δ δ' b w) : outPartner s n act δ δ' q = q := by
  unfold outPartner
  rw [dif_neg]
  rintro ⟨t, h1, h2⟩
  exact h _ _ h1 h2

theorem outPartner_len {s n : Nat} {act : Nat → WireBytes} {δ δ' : WireBytes} {q : Bytes} (h : q.length ≠ 42) :
    outPartner s n act δ δ' q = q := by
  refine outPartner_none fun b w e hs => h ?_
  rw [e]
  simp [outSpot_len hs]

theorem outPartner_length {s n : Nat} {act : Nat → WireBytes} {δ δ' : WireBytes} (q : Bytes) :
    (outPartner s n act δ δ' q).length = q.length := by
  by_cases h : ∃ (b : Bytes) (w : WireBytes), q = b ++ w.toList ∧ OutSpot s n act δ δ' b w
  · obtain ⟨b, w, rfl, hs⟩ := h
    rw [outPartner_spot hs]
    simp
  · push Not at h
    rw [outPartner_none h]

theorem outPartner_back {s n : Nat} {act : Nat → WireBytes} {δ δ' : WireBytes} (q : Bytes) :
    outPartner s n act δ δ' (outPartner s n act δ' δ q) = q := by
  by_cases h : ∃ (b : Bytes) (w : WireBytes), q = b ++ w.toList ∧ OutSpot s n act δ δ' b w
  · obtain ⟨b, w, rfl, hs⟩ := h
    rw [outPartner_spot (outSpot_comm.mp hs), add32_comm δ' δ, outPartner_spot (outSpot_partner hs), add32_cancel]
  · push Not at h
    rw [outPartner_none (δ := δ') fun b w e hs => h b w e (outSpot_comm.mpr hs), outPartner_none h]

theorem spot_len {gates : List Gate} {act : Nat → WireBytes} {δ δ' : WireBytes} {q : Bytes} (hq : q.length ≠ 40) :
    ∀ w k, q = w.toList ++ rowBytes k → ¬ Spot gates act δ δ' w k := by
  intro w k e _
  apply hq
  rw [e]
  simp [rowBytes]

theorem otherHash_congr {gates : List Gate} (hn : gates.length < 2 ^ 64) {act : Nat → WireBytes} {δ δ' : WireBytes}
    {V V' : Nat → Bool} {f g : Bytes → WireBytes} (h : ∀ q, q.length = 40 → f q = g q) {q : Bytes} (hq : q.length = 40) :
    otherHash gates act δ δ' V V' f q = otherHash gates act δ δ' V V' g q := by
  unfold otherHash
  rw [h]
  by_cases hs : ∃ w k, q = w.toList ++ rowBytes k ∧ Spot gates act δ δ' w k
  · obtain ⟨w, k, rfl, hs⟩ := hs
    rw [partner_spot hn hs]
    simp [rowBytes]
  · push Not at hs
    rw [partner_none hs, hq]

/-- Both changes. -/
noncomputable def newHash (c : Circuit) (act : Nat → WireBytes) (δ δ' : WireBytes) (V V' : Nat → Bool)
    (sha : Bytes → WireBytes) : Bytes → WireBytes :=
  otherHash c.gates act δ δ' V V' fun q => sha (outPartner (c.numWires - c.numOutputs) c.numWires act δ δ' q)

theorem newHash_back {c : Circuit} (hn : c.gates.length < 2 ^ 64) {act : Nat → WireBytes} {δ δ' : WireBytes}
    {V V' : Nat → Bool} (sha : Bytes → WireBytes) (q : Bytes) :
    newHash c act δ' δ V' V (newHash c act δ δ' V V' sha) q = sha q := by
  unfold newHash
  by_cases hq : q.length = 40
  · rw [otherHash_congr hn (g := otherHash c.gates act δ δ' V V' sha) ?_ hq, otherHash_back hn]
    intro q hq
    rw [outPartner_len (by omega)]
    refine otherHash_congr hn ?_ hq
    intro q hq
    rw [outPartner_len (by omega)]
  · rw [otherHash_none _ (spot_len hq), otherHash_none _ (spot_len (by rw [outPartner_length]; exact hq)), outPartner_back]

theorem newHash_tweaked {c : Circuit} (hn : c.gates.length < 2 ^ 64) (act : Nat → WireBytes) (δ δ' : WireBytes)
    (V V' : Nat → Bool) (sha : Bytes → WireBytes) (w : WireBytes) (k : Nat) :
    tweaked (newHash c act δ δ' V V' sha) w k = tweaked (otherHash c.gates act δ δ' V V' sha) w k := by
  unfold tweaked newHash
  refine otherHash_congr hn ?_ (by simp [rowBytes])
  intro q hq
  rw [outPartner_len (by omega)]

theorem newHash_none {c : Circuit} {act : Nat → WireBytes} {δ δ' : WireBytes} {V V' : Nat → Bool}
    (sha : Bytes → WireBytes) {q : Bytes} (h : ∀ w k, q = w.toList ++ rowBytes k → ¬ Spot c.gates act δ δ' w k)
    (h' : ∀ b w, q = b ++ w.toList → ¬ OutSpot (c.numWires - c.numOutputs) c.numWires act δ δ' b w) :
    newHash c act δ δ' V V' sha q = sha q := by
  unfold newHash
  rw [otherHash_none _ h, outPartner_none h']

/-! ### The coins -/

/-- The coins with deltas `D` with which what an evaluator gets for `x` is what it gets for `x'`. -/
noncomputable def deltaCoins (c : Circuit) (x x' : List Nat) (D : Nat → WireBytes) (p : Coins) : Coins :=
  match garbleRun p.1 p.2 c with
  | .error _ => p
  | .ok run =>
    (⟨p.1.dbg, newHash c (heldLabel c x run) (delta2 run.delta) (deltaOf (D 2)) (wireBit c x) (wireBit c x')
        p.1.sha256⟩,
      ⟨D, fun i => add32 (p.2.input i) (add32 (when32 (x.getD i 0 == 1) (delta2 run.delta))
        (when32 (x'.getD i 0 == 1) (deltaOf (D 2))))⟩)

theorem wire_delta_two (raw : WireBytes) : Wire.delta 2 raw = .ok ⟨.binary, deltaOf raw⟩ := rfl

theorem run_delta {E : Env} {rnd : GarbleRand} {c : Circuit} {run : GarbleRun} (hb : BinaryGates c) (hne : c.gates ≠ [])
    (hrun : garbleRun E rnd c = .ok run) (hok : RunOK E c run) : delta2 run.delta = deltaOf (rnd.delta 2) := by
  obtain ⟨ws, h, -⟩ := garbleRun_parts hrun
  obtain ⟨h1, -⟩ := delta2_ok (delta_used hb hne hok)
  have := (garbleDeltas_raw rnd c).out _ h 2 _ h1
  rw [wire_delta_two] at this
  exact (congrArg Wire.values (Except.ok.inj this)).symm

theorem held_out {E : Env} {c : Circuit} (hc : WellTyped c) (hb : BinaryGates c) {x : List Nat} (hx : InputOK c x)
    {run : GarbleRun} (hok : RunOK E c run) {i : Nat} (hi : ¬ i < c.numWires) : wireBit c x i = false ∧
      zeroAt run.state.wires i = Wire.empty.values := by
  constructor
  · unfold wireBit
    have : (wireValues c.gates x).length = c.numWires := by
      rw [wireValues_length, hc.wires, ← hc.inputs, ← (inputOK_two hc hb hx).1]
    rw [List.getD_eq_getElem?_getD, List.getElem?_eq_none (by omega)]; rfl
  · have hl := hok.lab.len
    have : run.state.wires.length = c.numWires := by rw [hl, hc.wires]; simp [hc.inputs]
    unfold zeroAt
    rw [List.getD_eq_getElem?_getD, List.getElem?_eq_none (by omega)]; rfl

/-- The other coins lead to the same tables and the same labels. -/
theorem delta_run {E : Env} {rnd : GarbleRand} {c : Circuit} (hc : WellTyped c) (hb : BinaryGates c) (hne : c.gates ≠ [])
    (hn : c.gates.length < 2 ^ 64) {x x' : List Nat} (hx : InputOK c x) (hx' : InputOK c x') {run : GarbleRun}
    (D : Nat → WireBytes) (hrun : garbleRun E rnd c = .ok run) (hA : ActsApart c.gates (heldLabel c x run) (delta2 run.delta))
    (hA' : ActsApart c.gates (heldLabel c x run) (deltaOf (D 2))) :
    ∃ run', garbleRun (deltaCoins c x x' D (E, rnd)).1 (deltaCoins c x x' D (E, rnd)).2 c = .ok run' ∧
      RunOK (deltaCoins c x x' D (E, rnd)).1 c run' ∧ delta2 run'.delta = deltaOf (D 2) ∧
      run'.state.fHalf = run.state.fHalf ∧ run'.state.f = run.state.f ∧
      Seen c x' run' (deltaOf (D 2)) (heldLabel c x run) := by
  obtain ⟨run0, hr0, hok⟩ := garbleRun_ok E rnd hc
  rw [hrun] at hr0
  injection hr0 with hr0
  subst hr0
  have hseen := seen_ok hc hb hne x hok
  have e0 : deltaCoins c x x' D (E, rnd) = (⟨E.dbg, newHash c (heldLabel c x run) (delta2 run.delta)
        (deltaOf (D 2)) (wireBit c x) (wireBit c x') E.sha256⟩,
      ⟨D, fun i => add32 (rnd.input i) (add32 (when32 (x.getD i 0 == 1) (delta2 run.delta))
        (when32 (x'.getD i 0 == 1) (deltaOf (D 2))))⟩) := by
    unfold deltaCoins
    simp only [hrun]
  rw [e0]
  dsimp only
  generalize hE : (⟨E.dbg, newHash c (heldLabel c x run) (delta2 run.delta)
        (deltaOf (D 2)) (wireBit c x) (wireBit c x') E.sha256⟩ : Env) = E'
  generalize hR : (⟨D, fun i => add32 (rnd.input i) (add32 (when32 (x.getD i 0 == 1) (delta2 run.delta))
        (when32 (x'.getD i 0 == 1) (deltaOf (D 2))))⟩ : GarbleRand) = rnd'
  obtain ⟨run', hr', hok'⟩ := garbleRun_ok E' rnd' hc
  have ed : delta2 run'.delta = deltaOf (D 2) := by
    rw [run_delta hb hne hr' hok', ← hR]
  obtain ⟨ws, p1, p2, p3, p4, p5⟩ := garbleRun_parts hrun
  obtain ⟨ws', q1, q2, q3, q4, q5⟩ := garbleRun_parts hr'
  have est : run'.outputsStartAt = run.outputsStartAt := by rw [hok.start, hok'.start]
  have h2 := binary_inputs hc hb
  obtain ⟨hl, hws⟩ := inputs_binary h2 p2
  obtain ⟨hl', hws'⟩ := inputs_binary h2 q2
  obtain ⟨hxl, -⟩ := inputOK_two hc hb hx
  obtain ⟨hxl', -⟩ := inputOK_two hc hb hx'
  have hin : ∀ i < c.inputDomains.length, rnd.input i = add32 (heldLabel c x run i) (when32 (wireBit c x i) (delta2 run.delta)) := by
    intro i hi
    rw [held_input hc hb hrun hx (by rw [← hc.inputs]; exact hi), wireBit_input (by omega)]
    rw [add32_cancel]
  have hw0 : World (delta2 run.delta) (heldLabel c x run) (wireBit c x) c.inputDomains.length ws :=
    ⟨hl, fun i hi => by rw [hws i hi, ← hin i hi]⟩
  have hw0' : World (deltaOf (D 2)) (heldLabel c x run) (wireBit c x') c.inputDomains.length ws' := by
    refine ⟨hl', fun i hi => ?_⟩
    rw [hws' i hi, ← hR]
    dsimp only
    rw [hin i hi, wireBit_input (by omega), wireBit_input (by omega)]
    refine congrArg (fun v => some (⟨.binary, v⟩ : Wire)) ?_
    apply xb_ext
    intro j k
    simp only [xb_add, xb_when]
    cases (x.getD i 0 == 1) <;> cases (x'.getD i 0 == 1) <;> cases xb (delta2 run.delta) j k <;>
    cases xb (deltaOf (D 2)) j k <;> cases xb (heldLabel c x run i) j k <;> rfl
  rw [est] at q5
  obtain ⟨k1, k2⟩ := delta2_ok (delta_used hb hne hok')
  rw [ed] at k1 k2
  have hfold := worlds_fold (E := E) (E' := E') (by rw [← hE]) hseen.delta (delta_used hb hne hok)
    k1 (delta_used hb hne hok') c.gates c.inputDomains
    ⟨ws, [], [], [], 0⟩ ⟨ws', [], [], [], 0⟩ run.state run'.state h2 hc.gates hb hw0 hw0' (wireBit_gate hc hb hx).2
    (wireBit_gate hc hb hx').2 rfl rfl rfl p5 q5 (by
      intro i hi
      exact hseen.world.zero i (by rw [hc.wires, ← hc.inputs]; exact hi)) (by
      intro p hp
      rw [← hE]
      have hh := hashRel_other (V := wireBit c x) (V' := wireBit c x') hn hseen.colour k2 hA hA' E.sha256 hp
      refine ⟨?_, ?_, ?_, ?_⟩
      · rw [newHash_tweaked hn]; exact hh.left
      · rw [newHash_tweaked hn]; exact hh.right
      · rw [newHash_tweaked hn]; exact hh.left'
      · rw [newHash_tweaked hn]; exact hh.right')
  obtain ⟨f1, f2, f3⟩ := hfold
  rw [hc.inputs, ← hc.wires] at f1
  refine ⟨run', hr', hok', ed, f2, f3, k1, k2, ?_, f1⟩
  intro i
  by_cases hi : i < c.numWires
  · conv_lhs => unfold heldLabel
    rw [ed]
    have : zeroAt run'.state.wires i = add32 (heldLabel c x run i) (when32 (wireBit c x' i) (deltaOf (D 2))) := by
      unfold zeroAt
      rw [List.getD_eq_getElem?_getD, f1.zero i hi]
      rfl
    rw [this, add32_cancel]
  · obtain ⟨a1, a2⟩ := held_out hc hb hx hok hi
    obtain ⟨b1, b2⟩ := held_out hc hb hx' hok' hi
    unfold heldLabel
    rw [a1, a2, b1, b2]
    rfl

/-! ### What it means -/

theorem bitOn_wireBit {c : Circuit} (hc : WellTyped c) (hb : BinaryGates c) {x : List Nat} (hx : InputOK c x) (i : Nat) :
    bitOn c x i = (wireBit c x i).toNat := ((wireBit_gate hc hb hx).1 i).symm

theorem held_label {c : Circuit} (hc : WellTyped c) (hb : BinaryGates c) {x : List Nat} (hx : InputOK c x) {run : GarbleRun}
    {δ : WireBytes} {act : Nat → WireBytes} (hs : Seen c x run δ act) {o : Nat} (ho : o < c.numWires) (w : Wire) :
    (LabelIn run o 2 (bitOn c x o) w ↔ w = ⟨.binary, act o⟩) ∧
    (LabelIn run o 2 (1 - bitOn c x o) w ↔ w = ⟨.binary, add32 (act o) δ⟩) := by
  have hz := hs.world.zero o ho
  rw [bitOn_wireBit hc hb hx, labelIn_two hz hs.delta, labelIn_two hz hs.delta]
  have e1 : ∀ b : Bool, add32 (add32 (act o) (when32 b δ)) (when32 (b.toNat == 1) δ) = act o := by
    intro b
    have : (b.toNat == 1) = b := by cases b <;> rfl
    rw [this, add32_cancel]
  have e2 : ∀ b : Bool, add32 (add32 (act o) (when32 b δ)) (when32 (1 - b.toNat == 1) δ) = add32 (act o) δ := by
    intro b
    have : (1 - b.toNat == 1) = !b := by cases b <;> rfl
    rw [this]
    apply xb_ext
    intro i k
    simp only [xb_add, xb_when]
    cases b <;> cases xb (act o) i k <;> cases xb δ i k <;> rfl
  rw [e1, e2]
  constructor
  · refine and_iff_right ?_
    cases wireBit c x o <;> decide
  · refine and_iff_right ?_
    cases wireBit c x o <;> decide

theorem and_lt {c : Circuit} (hc : WellTyped c) {g : Gate} (hg : g ∈ c.gates) (ha : isAnd g = true) :
    g.inputs.getD 0 0 < c.numWires ∧ g.inputs.getD 1 0 < c.numWires := by
  rw [hc.wires, ← hc.inputs]
  exact and_inputs hc.gates g hg ha

theorem heldApart_iff {c : Circuit} (hc : WellTyped c) (hb : BinaryGates c) {x : List Nat} (hx : InputOK c x) {p : Coins}
    {run : GarbleRun} (hr : garbleRun p.1 p.2 c = .ok run) {δ : WireBytes} {act : Nat → WireBytes} (hs : Seen c x run δ act)
    (d : WireBytes) : HeldApart c x p d ↔ ∀ g ∈ c.gates, isAnd g = true →
      act (g.inputs.getD 0 0) ≠ add32 (act (g.inputs.getD 1 0)) d := by
  have key : HeldApart c x p d ↔ ∀ g ∈ c.gates, isAnd g = true → ∀ w w',
    LabelIn run (g.inputs.getD 0 0) 2 (bitOn c x (g.inputs.getD 0 0)) w →
    LabelIn run (g.inputs.getD 1 0) 2 (bitOn c x (g.inputs.getD 1 0)) w' → w.values ≠ add32 w'.values d := by
    constructor
    · rintro ⟨run', hr', h⟩
      rw [hr] at hr'
      obtain rfl := Except.ok.inj hr'
      exact h
    · exact fun h => ⟨run, hr, h⟩
  rw [key]
  refine forall_congr' fun g => forall_congr' fun hg => forall_congr' fun ha => ?_
  obtain ⟨l0, l1⟩ := and_lt hc hg ha
  constructor
  · intro h
    exact h ⟨.binary, act (g.inputs.getD 0 0)⟩ ⟨.binary, act (g.inputs.getD 1 0)⟩
      ((held_label hc hb hx hs l0 _).1.mpr rfl) ((held_label hc hb hx hs l1 _).1.mpr rfl)
  · intro h w w' h0 h1
    rw [(held_label hc hb hx hs l0 w).1.mp h0, (held_label hc hb hx hs l1 w').1.mp h1]
    exact h

theorem spot_hashed {c : Circuit} (hc : WellTyped c) (hb : BinaryGates c) {x x' : List Nat} (hx : InputOK c x)
    (hx' : InputOK c x') {p p' : Coins} {run run' : GarbleRun} (hr : garbleRun p.1 p.2 c = .ok run)
    (hr' : garbleRun p'.1 p'.2 c = .ok run') {δ δ' : WireBytes} {act : Nat → WireBytes} (hs : Seen c x run δ act)
    (hs' : Seen c x' run' δ' act) {w : WireBytes} {k : Nat} (h : Spot c.gates act δ δ' w k) :
    OtherHashed c x p (w.toList ++ rowBytes k) ∨ OtherHashed c x' p' (w.toList ++ rowBytes k) := by
  obtain ⟨t, ht, rfl, h⟩ := h
  obtain ⟨hg, ha⟩ := andGates_mem ht
  obtain ⟨l0, l1⟩ := and_lt hc hg ha
  have hin : t.1.inputs.getD 0 0 ∈ t.1.inputs ∧ t.1.inputs.getD 1 0 ∈ t.1.inputs := by
    obtain ⟨d, hd⟩ := gatesOK_mem hc.gates hg
    have hk : t.1.kind = .and := by
      unfold isAnd at ha
      split at ha
      · assumption
      · cases ha
    have har := hd.arity
    rw [hk] at har
    obtain ⟨a, b, hins⟩ := List.length_eq_two.mp har.1
    simp [hins]
  rcases h with rfl | rfl | rfl | rfl
  · exact .inl <| .inl ⟨run, hr, t, ht, _, hin.1, ⟨.binary, _⟩, (held_label hc hb hx hs l0 _).2.mpr rfl, rfl⟩
  · exact .inr <| .inl ⟨run', hr', t, ht, _, hin.1, ⟨.binary, _⟩, (held_label hc hb hx' hs' l0 _).2.mpr rfl, rfl⟩
  · exact .inl <| .inl ⟨run, hr, t, ht, _, hin.2, ⟨.binary, _⟩, (held_label hc hb hx hs l1 _).2.mpr rfl, rfl⟩
  · exact .inr <| .inl ⟨run', hr', t, ht, _, hin.2, ⟨.binary, _⟩, (held_label hc hb hx' hs' l1 _).2.mpr rfl, rfl⟩

theorem outSpot_hashed {c : Circuit} (hc : WellTyped c) (hb : BinaryGates c) {x x' : List Nat} (hx : InputOK c x)
    (hx' : InputOK c x') {p p' : Coins} {run run' : GarbleRun} (hr : garbleRun p.1 p.2 c = .ok run)
    (hr' : garbleRun p'.1 p'.2 c = .ok run') {δ δ' : WireBytes} {act : Nat → WireBytes} (hs : Seen c x run δ act)
    (hs' : Seen c x' run' δ' act) {b : Bytes} {w : WireBytes}
    (h : OutSpot (c.numWires - c.numOutputs) c.numWires act δ δ' b w) :
    OtherHashed c x p (b ++ w.toList) ∨ OtherHashed c x' p' (b ++ w.toList) := by
  obtain ⟨o, v, h1, h2, rfl, rfl | rfl⟩ := h
  · exact .inl <| .inr ⟨run, hr, o, v, ⟨.binary, _⟩, h1, h2, (held_label hc hb hx hs h2 _).2.mpr rfl, rfl⟩
  · exact .inr <| .inr ⟨run', hr', o, v, ⟨.binary, _⟩, h1, h2, (held_label hc hb hx' hs' h2 _).2.mpr rfl, rfl⟩

theorem newHash_out {c : Circuit} (hn : c.numWires < 2 ^ 64) {act : Nat → WireBytes} {δ δ' : WireBytes}
    (hδ : colourBit δ = true) (hδ' : colourBit δ' = true) {V V' : Nat → Bool} (sha : Bytes → WireBytes) {o : Nat} (v : Nat)
    (h1 : c.numWires - c.numOutputs ≤ o) (h2 : o < c.numWires) :
    newHash c act δ δ' V V' sha (beBytes 8 o ++ beBytes 2 v ++ (act o).toList) =
      sha (beBytes 8 o ++ beBytes 2 v ++ (act o).toList) ∧
    newHash c act δ δ' V V' sha (beBytes 8 o ++ beBytes 2 v ++ (add32 (act o) δ').toList) =
      sha (beBytes 8 o ++ beBytes 2 v ++ (add32 (act o) δ).toList) := by
  have hl : ∀ w : WireBytes, (beBytes 8 o ++ beBytes 2 v ++ w.toList).length ≠ 40 := by
    intro w; simp [beBytes]
  unfold newHash
  rw [otherHash_none _ (spot_len (hl _)), otherHash_none _ (spot_len (hl _))]
  constructor
  · rw [outPartner_none]
    rintro b w e ⟨o', v', h1', h2', rfl, hw⟩
    obtain ⟨e1, e2⟩ := List.append_inj e (by simp [beBytes])
    obtain ⟨e3, e4⟩ := List.append_inj e1 (by simp [beBytes])
    rw [rowBytes_eq, rowBytes_eq] at e3
    obtain rfl := rowBytes_inj (by omega) (by omega) e3
    rw [← Vector.toList_inj.mp e2] at hw
    rcases hw with hw | hw
    · exact add32_ne hδ hw
    · exact add32_ne hδ' hw
  · rw [outPartner_spot ⟨o, v, h1, h2, rfl, .inr rfl⟩, add32_comm δ δ', add32_swap]

/-- The decoding key is the same if the result is. -/
theorem decoding_held {E E' : Env} {c : Circuit} (hc : WellTyped c) (hb : BinaryGates c) (hn : c.numWires < 2 ^ 64)
    {x x' : List Nat} {run run' : GarbleRun} (h : RunOK E c run) (h' : RunOK E' c run') {δ δ' : WireBytes}
    {act : Nat → WireBytes} {V V' : Nat → Bool} (hs : Seen c x run δ act) (hs' : Seen c x' run' δ' act)
    (hsha : E'.sha256 = newHash c act δ δ' V V' E.sha256)
    (hz : ∀ i, c.numWires - c.numOutputs ≤ i → i < c.numWires → wireBit c x' i = wireBit c x i) :
    run'.state.d = run.state.d := by
  have hlen : (c.inputDomains ++ c.gates.map Gate.outputDomain).length = c.numWires := by
    simp [hc.wires, hc.inputs]
  have l1 := h.dec.len
  have l2 := h'.dec.len
  rw [h.start, hlen] at l1
  rw [h'.start, hlen] at l2
  apply List.ext_getElem?
  intro k
  by_cases hk : k < run.state.d.length
  · have hst : run.outputsStartAt = c.numWires - c.numOutputs := h.start
    have hst' : run'.outputsStartAt = c.numWires - c.numOutputs := h'.start
    have hi : k + (c.numWires - c.numOutputs) < c.numWires := by omega
    have hdom := wires_all hc hb hi
    obtain ⟨z, hs1, e1, e2, e3, e4⟩ := h.dec.hash _ 2 (by rw [hst]; omega) hdom
    obtain ⟨z', hs2, f1, f2, f3, f4⟩ := h'.dec.hash _ 2 (by rw [hst']; omega) hdom
    rw [hst, Nat.add_sub_cancel] at e2
    rw [hst', Nat.add_sub_cancel] at f2
    rw [e2, f2]
    refine congrArg some ?_
    rw [hs.world.zero _ hi] at e1
    rw [hs'.world.zero _ hi, hz _ (by omega) hi] at f1
    obtain rfl := Option.some.inj e1
    obtain rfl := Option.some.inj f1
    have hbit : ∀ {dl : HMap Nat Wire} {δ : WireBytes} {a : WireBytes} {b : Bool} {y : Nat} {w : Wire},
        List.lookup 2 dl = some ⟨.binary, δ⟩ → y < 2 → Carries dl 2 ⟨.binary, add32 a (when32 b δ)⟩ y w →
        w = ⟨.binary, add32 a (when32 (b ^^ (y == 1)) δ)⟩ := by
      intro dl δ a b y w hδ hy hcw
      have hy' : y = (y == 1).toNat := by
        rcases (by omega : y = 0 ∨ y = 1) with rfl | rfl <;> rfl
      have hl := label_binary hcw.lab
      rw [hl] at hcw ⊢
      generalize (y == 1) = v at *
      subst hy'
      have := (carries_bit hδ).mp hcw
      refine congrArg (Wire.mk .binary) ?_
      rw [← add32_cancel w.values (when32 v δ), ← this]
      apply xb_ext
      intro i k
      simp only [xb_add, xb_when]
      cases b <;> cases v <;> cases xb a i k <;> cases xb δ i k <;> rfl
    apply List.ext_getElem?
    intro y
    by_cases hy : y < 2
    · obtain ⟨w, c1, g1⟩ := e4 y hy
      obtain ⟨w', c2, g2⟩ := f4 y hy
      obtain rfl := hbit hs.delta hy c1
      obtain rfl := hbit hs'.delta hy c2
      rw [g1, g2]
      refine congrArg some ?_
      unfold hashOut
      rw [hsha]
      obtain ⟨n1, n2⟩ := newHash_out (V := V) (V' := V') hn hs.colour hs'.colour E.sha256 y (show _ ≤ k + (c.numWires - c.numOutputs) by omega) hi
      simp only [Wire.bytes]
      cases (wireBit c x (k + (c.numWires - c.numOutputs)) ^^ (y == 1))
      · simp only [when32, Bool.false_eq_true, if_false, add32_zero]; exact n1
      · simp only [when32, if_true]; exact n2
    · rw [List.getElem?_eq_none (by omega), List.getElem?_eq_none (by omega)]
  · rw [List.getElem?_eq_none (by omega), List.getElem?_eq_none (by omega)]

/-- Everything about the coins for the other delta. -/
theorem delta_ok {c : Circuit} (hc : WellTyped c) (hb : BinaryGates c) (hne : c.gates ≠ []) (hnw : c.numWires < 2 ^ 64)
    {x x' : List Nat} (hx : InputOK c x) (hx' : InputOK c x') (D : Nat → WireBytes) (p : Coins) (hA : Apart c p)
    (hH : HeldApart c x p (deltaOf (D 2))) :
    Apart c (deltaCoins c x x' D p) ∧ HeldApart c x' (deltaCoins c x x' D p) (deltaOf (p.2.delta 2)) ∧
      deltaCoins c x' x p.2.delta (deltaCoins c x x' D p) = p ∧
      (deltaCoins c x x' D p).1.dbg = p.1.dbg ∧ (deltaCoins c x x' D p).2.delta = D ∧
      evaluatorView c x' (deltaCoins c x x' D p) = evaluatorView c x p ∧
      (meaning c x' = meaning c x → decoderView c x' (deltaCoins c x x' D p) = decoderView c x p) ∧
      (∀ q, (deltaCoins c x x' D p).1.sha256 q ≠ p.1.sha256 q →
        OtherHashed c x p q ∨ OtherHashed c x' (deltaCoins c x x' D p) q) ∧
      ∃ act run run', garbleRun p.1 p.2 c = .ok run ∧
        garbleRun (deltaCoins c x x' D p).1 (deltaCoins c x x' D p).2 c = .ok run' ∧
        Seen c x run (deltaOf (p.2.delta 2)) act ∧ Seen c x' run' (deltaOf (D 2)) act := by
  have hn : c.gates.length < 2 ^ 64 := by
    have := hc.wires
    omega
  obtain ⟨E, rnd⟩ := p
  obtain ⟨run, hrun, hA⟩ := hA
  simp only at hrun
  obtain ⟨run0, hr0, hok⟩ := garbleRun_ok E rnd hc
  rw [hrun] at hr0
  obtain rfl := Except.ok.inj hr0
  have hseen := seen_ok hc hb hne x hok
  have hacts := (apart_iff hc hseen).mp hA
  have hH' := (heldApart_iff hc hb hx (p := (E, rnd)) hrun hseen _).mp hH
  have hacts' : ActsApart c.gates (heldLabel c x run) (deltaOf (D 2)) :=
    fun g hg ha => ⟨(hacts g hg ha).1, hH' g hg ha⟩
  have hdl := run_delta hb hne hrun hok
  obtain ⟨run', hrun', hok', ed, ef, ef', hseen'⟩ := delta_run hc hb hne hn hx hx' D hrun hacts hacts'
  have e0 : deltaCoins c x x' D (E, rnd) = (⟨E.dbg, newHash c (heldLabel c x run) (delta2 run.delta)
        (deltaOf (D 2)) (wireBit c x) (wireBit c x') E.sha256⟩,
      ⟨D, fun i => add32 (rnd.input i) (add32 (when32 (x.getD i 0 == 1) (delta2 run.delta))
        (when32 (x'.getD i 0 == 1) (deltaOf (D 2))))⟩) := by
    unfold deltaCoins
    simp only [hrun]
  have hdbg : (deltaCoins c x x' D (E, rnd)).1.dbg = E.dbg := by rw [e0]
  have hviewX := encode_seen hc hb hx hok hseen
  have hviewX' := encode_seen hc hb hx' hok' hseen'
  refine ⟨⟨run', hrun', (apart_iff hc hseen').mpr hacts'⟩, ?_, ?_, hdbg, by rw [e0], ?_, ?_, ?_, heldLabel c x run, run, run', hrun,
    hrun', hdl ▸ hseen, hseen'⟩
  · rw [heldApart_iff hc hb hx' hrun' hseen']
    intro g hg ha
    rw [← hdl]
    exact (hacts g hg ha).2
  · have e1 : deltaCoins c x' x rnd.delta (deltaCoins c x x' D (E, rnd)) =
        (⟨(deltaCoins c x x' D (E, rnd)).1.dbg, newHash c (heldLabel c x' run') (delta2 run'.delta)
          (deltaOf (rnd.delta 2)) (wireBit c x') (wireBit c x) (deltaCoins c x x' D (E, rnd)).1.sha256⟩,
        ⟨rnd.delta, fun i => add32 ((deltaCoins c x x' D (E, rnd)).2.input i)
          (add32 (when32 (x'.getD i 0 == 1) (delta2 run'.delta)) (when32 (x.getD i 0 == 1) (deltaOf (rnd.delta 2))))⟩) := by
      generalize deltaCoins c x x' D (E, rnd) = p at hrun'
      unfold deltaCoins
      simp only [hrun']
    show deltaCoins c x' x rnd.delta (deltaCoins c x x' D (E, rnd)) = (E, rnd)
    rw [e1, funext hseen'.held, ed, ← hdl, e0]
    dsimp only
    have h1 : newHash c (heldLabel c x run) (deltaOf (D 2)) (delta2 run.delta) (wireBit c x') (wireBit c x)
        (newHash c (heldLabel c x run) (delta2 run.delta) (deltaOf (D 2)) (wireBit c x) (wireBit c x') E.sha256) =
        E.sha256 := funext fun q => newHash_back hn E.sha256 q
    have h2 : (fun i => add32 (add32 (rnd.input i) (add32 (when32 (x.getD i 0 == 1) (delta2 run.delta))
        (when32 (x'.getD i 0 == 1) (deltaOf (D 2))))) (add32 (when32 (x'.getD i 0 == 1) (deltaOf (D 2)))
        (when32 (x.getD i 0 == 1) (delta2 run.delta)))) = rnd.input := by
      funext i
      rw [add32_comm (when32 (x'.getD i 0 == 1) (deltaOf (D 2))), add32_cancel]
    rw [h1, h2]
  · unfold evaluatorView
    simp only [garble_of_run hrun, garble_of_run hrun', okb, hviewX, hviewX', ef, ef']
  · intro hm
    have hst : run'.outputsStartAt = run.outputsStartAt := by rw [hok.start, hok'.start]
    have hdd : run'.state.d = run.state.d := by
      refine decoding_held hc hb hnw hok hok' hseen hseen' (V := wireBit c x) (V' := wireBit c x') (by rw [e0]) ?_
      intro i h1 h2
      unfold wireBit
      unfold meaning at hm
      have := congrArg (fun l => l.getD (i - (c.numWires - c.numOutputs)) 0) hm
      simp only [List.getD_eq_getElem?_getD, List.getElem?_drop] at this
      rw [show c.numWires - c.numOutputs + (i - (c.numWires - c.numOutputs)) = i by omega] at this
      rw [List.getD_eq_getElem?_getD, List.getD_eq_getElem?_getD, this]
    unfold decoderView
    simp only [garble_of_run hrun, garble_of_run hrun', okb, hviewX, hviewX', ef, ef', hdd, hst]
  · intro q hq
    by_cases hs : ∃ w k, q = w.toList ++ rowBytes k ∧ Spot c.gates (heldLabel c x run) (delta2 run.delta) (deltaOf (D 2)) w k
    · obtain ⟨w, k, rfl, hs⟩ := hs
      exact spot_hashed hc hb hx hx' (p := (E, rnd)) hrun hrun' hseen hseen' hs
    by_cases hs2 : ∃ (b : Bytes) (w : WireBytes), q = b ++ w.toList ∧ OutSpot (c.numWires - c.numOutputs) c.numWires (heldLabel c x run)
        (delta2 run.delta) (deltaOf (D 2)) b w
    · obtain ⟨b, w, rfl, hs3⟩ := hs2
      exact outSpot_hashed hc hb hx hx' (p := (E, rnd)) hrun hrun' hseen hseen' hs3
    · exfalso
      apply hq
      push Not at hs hs2
      have : (deltaCoins c x x' D (E, rnd)).1.sha256 = newHash c (heldLabel c x run) (delta2 run.delta)
        (deltaOf (D 2)) (wireBit c x) (wireBit c x') E.sha256 := by rw [e0]
      rw [this]
      exact newHash_none _ hs hs2

/-- A label for the other bit is right for one delta. -/
theorem forged_half {c : Circuit} (hc : WellTyped c) (hb : BinaryGates c) {x : List Nat} (hx : InputOK c x) {p p' : Coins}
    {run run' : GarbleRun} (hr : garbleRun p.1 p.2 c = .ok run) (hr' : garbleRun p'.1 p'.2 c = .ok run') {δ δ' : WireBytes}
    {act : Nat → WireBytes} (hs : Seen c x run δ act) (hs' : Seen c x run' δ' act) {i y : Nat} {w : Wire}
    (hy : (meaning c x)[i]? = some y) (h : OutputLabel p.1 p.2 c i 2 (1 - y) w) (h' : OutputLabel p'.1 p'.2 c i 2 (1 - y) w) :
    δ' = δ := by
  obtain ⟨r, hr2, h⟩ := h
  obtain ⟨r', hr2', h'⟩ := h'
  rw [hr] at hr2
  rw [hr'] at hr2'
  obtain rfl := Except.ok.inj hr2
  obtain rfl := Except.ok.inj hr2'
  have hi : c.numWires - c.numOutputs + i < c.numWires := by
    have := (List.getElem?_eq_some_iff.mp hy).1
    have hwl : (wireValues c.gates x).length = c.numWires := by
      rw [wireValues_length, hx.length_eq, hc.inputs, hc.wires]
    rw [meaning, List.length_drop, hwl] at this
    omega
  have hyb : y = bitOn c x (c.numWires - c.numOutputs + i) := by
    unfold bitOn
    rw [meaning, List.getElem?_drop] at hy
    rw [List.getD_eq_getElem?_getD, hy]
    rfl
  rw [hyb] at h h'
  have e1 := (held_label hc hb hx hs hi w).2.mp h
  have e2 := (held_label hc hb hx hs' hi w).2.mp h'
  have e := congrArg Wire.values (e1.symm.trans e2)
  simp only at e
  have e3 : add32 δ (act (c.numWires - c.numOutputs + i)) = add32 δ' (act (c.numWires - c.numOutputs + i)) := by
    rw [add32_comm, e, add32_comm]
  exact (add32_right_inj e3).symm

theorem ask_same {α : Type} {sha sha' : Bytes → WireBytes} (A : Ask α) (h : ∀ q ∈ A.asked sha, sha' q = sha q) :
    A.result sha' = A.result sha := by
  induction A with
  | done a => rfl
  | ask q next ih =>
    unfold Ask.asked at h
    unfold Ask.result
    rw [h q (by simp)]
    exact ih _ fun q' hq' => h q' (by simp [hq'])

end FP
