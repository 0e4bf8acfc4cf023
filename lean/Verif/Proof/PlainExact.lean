import Verif.Proof.Circuit
/-
Exactly when the plain evaluator is right.
-/
namespace FP
open Spec

theorem sumU16_release (xs : List Nat) (a : Nat) (ha : a < 65536) :
    xs.foldlM (addR false 65536) a = .ok ((a + xs.sum) % 65536) := by
  induction xs generalizing a with
  | nil => simp [Nat.mod_eq_of_lt ha]; rfl
  | cons x xs ih =>
    have h : addR false 65536 a x = .ok ((a + x) % 65536) := by
      unfold addR
      by_cases h : a + x < 65536
      · rw [if_pos h, Nat.mod_eq_of_lt h]
      · rw [if_neg h]; rfl
    rw [List.foldlM_cons, h, okb, ih _ (Nat.mod_lt _ (by decide))]
    rw [List.sum_cons, Nat.mod_add_mod, Nat.add_assoc]

theorem sumU16_debug (xs : List Nat) (a : Nat) (h : 65536 ≤ a + xs.sum) (ha : a < 65536) :
    xs.foldlM (addR true 65536) a = .error .panic := by
  induction xs generalizing a with
  | nil => simp at h; omega
  | cons x xs ih =>
    rw [List.foldlM_cons]
    by_cases hx : a + x < 65536
    · rw [addR_ok true hx, okb]
      exact ih _ (by simp only [List.sum_cons] at h; omega) hx
    · have : addR true 65536 a x = .error .panic := by
        unfold addR; rw [if_neg hx]; rfl
      rw [this]; rfl

theorem evalPlain_iff (dbg : Bool) {doms : List Nat} {g : Gate} (hg : GateFits SmallPos doms g)
    (vals ws W : List Nat)
    (hv : ∀ (i m : Nat), doms[i]? = some m → ∃ v, vals[i]? = some v ∧ v < m)
    (hw : ∀ i, i < doms.length → ws[i]? = vals[i]? ∧ W[i]? = vals[i]?) :
    g.evalPlain dbg ws = .ok (gateValue g (g.inputs.map (vals.getD · 0))) ↔ PlainRight dbg W g := by
  have hread : ∀ i ∈ g.inputs, ∃ v, ws[i]? = some v ∧ vals[i]? = some v ∧ v < g.domain ∧
      W[i]? = some v := by
    intro i hi
    have hd := hg.inputs i hi
    obtain ⟨v, h1, h2⟩ := hv i _ hd
    have := hw i (List.getElem?_eq_some_iff.mp hd).1
    exact ⟨v, by rw [this.1, h1], h1, h2, by rw [this.2, h1]⟩
  have hmap : g.inputs.map (W.getD · 0) = g.inputs.map (vals.getD · 0) := by
    apply List.map_congr_left
    intro i hi
    obtain ⟨v, _, h2, _, h4⟩ := hread i hi
    simp [List.getD, h2, h4]
  have har := hg.arity
  unfold PlainRight
  rw [hmap]
  dsimp only
  cases hk : g.kind with
  | add =>
    have hm : g.inputs.mapM (idxR ws) = .ok (g.inputs.map (vals.getD · 0)) := by
      apply mapM_ok
      intro i hi
      obtain ⟨v, h1, h2, _⟩ := hread i hi
      rw [idxR_ok h1]; simp [List.getD, h2]
    simp only [Gate.evalPlain, hk, hm, okb, sumU16, gateValue]
    generalize (g.inputs.map (vals.getD · 0)) = vs
    by_cases hs : vs.sum < 65536
    · rw [sumU16_ok dbg _ 0 (by omega), okb, remR_ok hg.domain.1, Nat.zero_add]
      simp [hs]
    · cases dbg with
      | true =>
        rw [sumU16_debug _ 0 (by omega) (by decide)]
        constructor
        · intro h; exact nomatch h
        · rintro (h | ⟨h, -⟩)
          · exact absurd h hs
          · exact nomatch h
      | false =>
        rw [sumU16_release _ 0 (by decide), okb, remR_ok hg.domain.1, Nat.zero_add]
        constructor
        · intro h
          injection h with h
          exact .inr ⟨rfl, h⟩
        · rintro (h | ⟨-, h⟩)
          · exact absurd h hs
          · rw [h]
  | mul c =>
    rw [hk] at har
    obtain ⟨a, hins⟩ := List.length_eq_one_iff.mp har.1
    obtain ⟨v, h1, h2, _⟩ := hread a (by simp [hins])
    have hv0 : (g.inputs.map (vals.getD · 0)).headD 0 = v := by simp [hins, List.getD, h2]
    have hd := hg.domain
    unfold SmallPos at hd
    simp only [gateValue, hk, hv0]
    simp only [Gate.evalPlain, hk, hins, firstR, okb, idxR_ok h1]
    rw [Nat.mul_comm c v]
    unfold mulR
    generalize v * c = p
    by_cases hp : p < 65536
    · rw [if_pos hp]
      constructor
      · intro h
        injection h with h
        left
        rw [h]
        exact Nat.mod_lt _ hd.1
      · rintro (h | ⟨-, h⟩)
        · rw [Nat.mod_eq_of_lt h]
        · rw [Nat.mod_eq_of_lt hp] at h
          rw [← h]
    · rw [if_neg hp]
      cases dbg with
      | true =>
        constructor
        · intro h; exact nomatch h
        · rintro (h | ⟨h, -⟩)
          · omega
          · exact nomatch h
      | false =>
        constructor
        · intro h
          injection h with h
          exact .inr ⟨rfl, h⟩
        · rintro (h | ⟨-, h⟩)
          · omega
          · rw [h]; rfl
  | proj p =>
    rw [hk] at har
    obtain ⟨a, hins⟩ := List.length_eq_one_iff.mp har
    obtain ⟨v, h1, h2, _⟩ := hread a (by simp [hins])
    have hod : g.outputDomain = p.dom := by simp [Gate.outputDomain, hk]
    obtain ⟨y, hy, _, hye⟩ := project_ok (p := p) (hod ▸ hg.range.1) v
    simp only [Gate.evalPlain, hk, hins, firstR, okb, idxR_ok h1, hy]
    rw [hye]
    cases p <;> simp [gateValue, hk, List.getD, h2]
  | and =>
    rw [hk] at har
    obtain ⟨hlen, hd⟩ := har
    obtain ⟨a, b, hins⟩ := List.length_eq_two.mp hlen
    obtain ⟨va, h1, h2, h3, _⟩ := hread a (by simp [hins])
    obtain ⟨vb, h1', h2', h3', _⟩ := hread b (by simp [hins])
    simp only [Gate.evalPlain, hk, hins, firstR, okb, idxR_ok h1, purek]
    simp only [gateValue, hk, List.getD, List.map_cons, List.map_nil, h2, h2', Option.getD_some,
      List.getElem?_cons_zero, List.getElem?_cons_succ]
    rw [hd] at h3 h3'
    rcases (by omega : va = 0 ∧ vb = 0 ∨ va = 0 ∧ vb = 1 ∨ va = 1 ∧ vb = 0 ∨ va = 1 ∧ vb = 1) with
      ⟨rfl, rfl⟩ | ⟨rfl, rfl⟩ | ⟨rfl, rfl⟩ | ⟨rfl, rfl⟩ <;> simp

/-- Gates never touch a wire that was there before. -/
theorem evalPlain_keeps (dbg : Bool) (gs : List Gate) : ∀ (doms ws r : List Nat),
    GatesFit SmallPos doms gs →
    gs.foldlM (fun w g => do setR w g.output (← g.evalPlain dbg w)) ws = .ok r →
    ∀ i < doms.length, r[i]? = ws[i]? := by
  induction gs with
  | nil =>
    intro doms ws r _ h i _
    injection h with h
    rw [h]
  | cons g gs ih =>
    intro doms ws r ⟨hg, hgs⟩ h i hi
    rw [List.foldlM_cons] at h
    cases hv : g.evalPlain dbg ws with
    | error e => rw [hv] at h; exact nomatch h
    | ok v =>
      rw [hv, okb] at h
      by_cases ho : g.output < ws.length
      · rw [setR_ok _ ho, okb] at h
        rw [ih _ _ _ hgs h i (by simp; omega), List.getElem?_set_ne (by rw [hg.output]; omega)]
      · have : setR ws g.output v = .error .panic := by unfold setR; rw [if_neg ho]; rfl
        rw [this] at h; exact nomatch h

theorem evalPlain_gates_iff (dbg : Bool) (W : List Nat) (gs : List Gate) : ∀ (doms vals ws : List Nat),
    GatesFit SmallPos doms gs → vals.length = doms.length →
    wireValues gs vals = W →
    (∀ (i m : Nat), doms[i]? = some m → ∃ v, vals[i]? = some v ∧ v < m) →
    (∀ i, i < doms.length → ws[i]? = vals[i]?) → doms.length + gs.length = ws.length →
    (gs.foldlM (fun w g => do setR w g.output (← g.evalPlain dbg w)) ws
      = .ok (wireValues gs vals) ↔ ∀ g ∈ gs, PlainRight dbg W g) := by
  induction gs with
  | nil =>
    intro doms vals ws _ hl _ _ hw hlen
    simp only [List.not_mem_nil, false_imp_iff, implies_true, iff_true]
    simp only [List.foldlM_nil, purek, wireValues, List.foldl_nil]
    congr 1
    apply List.ext_getElem?
    intro i
    by_cases hi : i < doms.length
    · exact hw i hi
    · have h1 : ws[i]? = none := by simp at hlen ⊢; omega
      have h2 : vals[i]? = none := by simp; omega
      rw [h1, h2]
  | cons g gs ih =>
    intro doms vals ws ⟨hg, hgs⟩ hl hW hv hw hlen
    simp only [List.length_cons] at hlen
    obtain ⟨ext, hext⟩ := wireValues_prefix (g :: gs) vals
    have h1 := evalPlain_iff dbg hg vals ws W hv (fun i hi => ⟨hw i hi, by
      rw [← hW, hext, List.getElem?_append_left (by omega)]⟩)
    have ho : g.output < ws.length := by rw [hg.output]; omega
    rw [List.foldlM_cons, wireValues_cons, List.forall_mem_cons, ← h1]
    have hstep := ih (doms ++ [g.outputDomain]) (vals ++ [gateValue g (g.inputs.map (vals.getD · 0))])
      (ws.set g.output (gateValue g (g.inputs.map (vals.getD · 0)))) hgs (by simp [hl]) hW (by
        intro i m hi
        rcases (getElem?_snoc _ _ _ _).mp hi with hi | ⟨rfl, rfl⟩
        · obtain ⟨v, h1, h2⟩ := hv i m hi
          exact ⟨v, (getElem?_snoc _ _ _ _).mpr (.inl h1), h2⟩
        · exact ⟨_, (getElem?_snoc _ _ _ _).mpr (.inr ⟨hl.symm, rfl⟩), gateValue_lt hg vals hv⟩) (by
        intro i hi
        simp only [List.length_append, List.length_singleton] at hi
        by_cases hio : i = g.output
        · subst hio
          rw [List.getElem?_set_self ho, hg.output, ← hl]; simp
        · have : i < doms.length := by have := hg.output; omega
          rw [List.getElem?_set_ne (by omega), hw i this, List.getElem?_append_left (by omega)]) (by simp; omega)
    rw [← hstep]
    constructor
    · intro h
      cases hval : g.evalPlain dbg ws with
      | error e => rw [hval] at h; exact nomatch h
      | ok v =>
        rw [hval, okb, setR_ok _ ho, okb] at h
        have hk := evalPlain_keeps dbg gs _ _ _ hgs h g.output (by simp [hg.output])
        rw [List.getElem?_set_self ho] at hk
        obtain ⟨e, he⟩ := wireValues_prefix gs (vals ++ [gateValue g (g.inputs.map (vals.getD · 0))])
        rw [he, hg.output, ← hl, List.getElem?_append_left (by simp)] at hk
        simp only [List.length_append, List.length_singleton, Nat.lt_add_one, getElem?_pos, Option.some.injEq,
          List.getElem_append_right, Nat.le_refl, Nat.sub_self, List.getElem_singleton] at hk
        rw [← hk] at h
        exact ⟨by rw [hk], h⟩
    · rintro ⟨h, h'⟩
      rw [h, okb, setR_ok _ ho, okb]
      exact h'

theorem eval_iff (dbg : Bool) {c : Circuit} (hc : WellFormed SmallPos c) {x : List Nat} (hx : InputOK c x) :
    c.eval dbg x = .ok (wireValues c.gates x) ↔ ∀ g ∈ c.gates, PlainRight dbg (wireValues c.gates x) g := by
  have hxl : x.length = c.inputDomains.length := hx.length_eq
  have hw := hc.wires
  have hi := hc.inputs
  unfold Circuit.eval
  rw [eval_inputs_ok x c.numWires (by omega), okb]
  refine evalPlain_gates_iff dbg _ c.gates c.inputDomains x _ hc.gates hxl rfl ?_ ?_ ?_
  · intro i m hm
    have hlt := (List.getElem?_eq_some_iff.mp hm).1
    have h1 : i < x.length := by omega
    have := List.Forall₂.get hx h1 hlt
    simp only [List.get_eq_getElem] at this
    rw [List.getElem?_eq_getElem hlt] at hm
    injection hm with hm
    exact ⟨x[i], List.getElem?_eq_getElem h1, hm ▸ this⟩
  · intro i hi
    rw [List.getElem?_append_left (by omega)]
  · simp; omega

end FP
