import Verif.Proof.Reuse
import Verif.Props.Garble
import Verif.Props.Encoded
import Verif.Proof.Witness
/-
C95: what the labels of several inputs under one encoding key give away.
-/
namespace FP.Props
open Spec

/-- C95: the labels of the inputs in `S`, made with one encoding key, determine the labels of another input exactly if at every
place its value differs from the one in `S` by a sum of differences that occur in `S` in that domain.  For every well-formed
circuit, over all domains. -/
theorem C95_exact (E : Env) (c : Circuit) (hc : WellTyped c) (S : Set (List Nat)) (hS : ∀ x ∈ S, InputOK c x) (x : List Nat)
    (hx : x ∈ S) (y : List Nat) (hy : InputOK c y) :
    Determine E c S y ↔ ∀ i m, c.inputDomains[i]? = some m →
      (y.getD i 0 : ZMod m) - (x.getD i 0 : ZMod m) ∈ AddSubgroup.closure (differences c S m) := by
  constructor
  · intro hdet i m him
    by_contra hout
    have hg := (hc.inputGood m (List.mem_of_getElem? him)).1
    obtain ⟨k, hk, hkill, hlive⟩ := exists_killer (good_pos hg) _ _ hout
    obtain ⟨δ, δ0, hδ, hδ0, hf, hf0, hrest⟩ := delta_first hg k hk
    -- draws that differ in the first digit of one delta
    let r : GarbleRand := ⟨fun _ => firstRaw 0, fun _ => zero32⟩
    let D : Nat → WireBytes := fun m' => if m' = m then firstRaw k else firstRaw 0
    let r' := redrawn c x x D r
    obtain ⟨dl, hdl, hall⟩ := deltas_of hc r
    obtain ⟨dl', hdl', hall'⟩ := deltas_of hc r'
    -- the labels of any input under both
    have hboth : ∀ u, InputOK c u → ∀ (i' m' : Nat), c.inputDomains[i']? = some m' → ∀ z z' δ1 δ2,
        Wire.new m' (r.input i') = .ok z → Wire.new m' (r'.input i') = .ok z' → Wire.delta m' (r.delta m') = .ok δ1 →
        Wire.delta m' (r'.delta m') = .ok δ2 → ∀ j, zd m' z' j + (u.getD i' 0 : ZMod m') * zd m' δ2 j =
          zd m' z j + (u.getD i' 0 : ZMod m') * zd m' δ1 j +
            ((u.getD i' 0 : ZMod m') - x.getD i' 0) * (zd m' δ2 j - zd m' δ1 j) := by
      intro u hu i' m' h' z z' δ1 δ2 hz hz' h1 h2 j
      obtain ⟨e, e', w, w', g1, g2, g3, -, -, -, g7, g8⟩ := redrawn_input hc (hS x hx) hdl hall hdl' hall' h'
      rw [hz] at g3; obtain rfl := Except.ok.inj g3
      have g7 : Wire.new m' (r'.input i') = .ok w' := g7
      rw [hz'] at g7; obtain rfl := Except.ok.inj g7
      have d1 := (garbleDeltas_raw r c).1 _ hdl m' e g1
      have d2 := (garbleDeltas_raw r' c).1 _ hdl' m' e' g2
      rw [h1] at d1; obtain rfl := Except.ok.inj d1
      rw [h2] at d2; obtain rfl := Except.ok.inj d2
      rw [g8 j]
      ring
    have hdelta : ∀ m' δ1 δ2, Wire.delta m' (r.delta m') = .ok δ1 → Wire.delta m' (r'.delta m') = .ok δ2 → m' ≠ m → δ2 = δ1 := by
      intro m' δ1 δ2 h1 h2 hne
      have h2 : Wire.delta m' (if m' = m then firstRaw k else firstRaw 0) = .ok δ2 := h2
      rw [if_neg hne] at h2
      have h1 : Wire.delta m' (firstRaw 0) = .ok δ1 := h1
      rw [h1] at h2
      exact (Except.ok.inj h2).symm
    have hδm : Wire.delta m (r'.delta m) = .ok δ := by
      show Wire.delta m (if m = m then firstRaw k else firstRaw 0) = .ok δ
      rw [if_pos rfl]; exact hδ
    have hδm0 : Wire.delta m (r.delta m) = .ok δ0 := hδ0
    have hyy := (sent_eq_iff hc hy r r').mp (hdet r r' fun u hu => (sent_eq_iff hc (hS u hu) r r').mpr ?_)
    · obtain ⟨z, hz, -⟩ := wireNew_ok hg (r.input i)
      obtain ⟨z', hz', -⟩ := wireNew_ok hg (r'.input i)
      have h1 := hyy i m him z z' δ0 δ hz hz' hδm0 hδm 0
      rw [hboth y hy i m him z z' δ0 δ hz hz' hδm0 hδm 0, hf, hf0, sub_zero] at h1
      exact hlive (by linear_combination -h1)
    · intro i' m' h' z z' δ1 δ2 hz hz' h1 h2 j
      rw [hboth u (hS u hu) i' m' h' z z' δ1 δ2 hz hz' h1 h2 j]
      by_cases hm : m' = m
      · subst hm
        rw [hδm0] at h1; obtain rfl := Except.ok.inj h1
        rw [hδm] at h2; obtain rfl := Except.ok.inj h2
        by_cases hj : j = 0
        · subst hj
          rw [hf, hf0, sub_zero, hkill _ (AddSubgroup.subset_closure ⟨u, hu, x, hx, i', h', rfl⟩), add_zero]
        · rw [hrest j hj, sub_self, mul_zero, add_zero]
      · rw [hdelta m' δ1 δ2 h1 h2 hm, sub_self, mul_zero, add_zero]
  · intro hin r r' hsame
    rw [sent_eq_iff hc hy]
    intro i m him z z' δ δ' hz hz' hδ hδ' j
    have hg := (hc.inputGood m (List.mem_of_getElem? him)).1
    have hkill : ∀ h ∈ AddSubgroup.closure (differences c S m), h * (zd m δ j - zd m δ' j) = 0 := by
      intro h hh
      induction hh using AddSubgroup.closure_induction with
      | mem d hd =>
        obtain ⟨u, hu, v, hv, i', h', rfl⟩ := hd
        obtain ⟨w, hw, -⟩ := wireNew_ok hg (r.input i')
        obtain ⟨w', hw', -⟩ := wireNew_ok hg (r'.input i')
        have e1 := (sent_eq_iff hc (hS u hu) r r').mp (hsame u hu) i' m h' w w' δ δ' hw hw' hδ hδ' j
        have e2 := (sent_eq_iff hc (hS v hv) r r').mp (hsame v hv) i' m h' w w' δ δ' hw hw' hδ hδ' j
        linear_combination e1 - e2
      | zero => rw [zero_mul]
      | add a b _ _ ha hb => rw [add_mul, ha, hb, add_zero]
      | neg a _ ha => rw [neg_mul, ha, neg_zero]
    have e := (sent_eq_iff hc (hS x hx) r r').mp (hsame x hx) i m him z z' δ δ' hz hz' hδ hδ' j
    linear_combination e + hkill _ (hin i m him)

theorem four_bits {a b c d : Nat} (ha : a < 2) (hb : b < 2) (hc : c < 2) (hd : d < 2) :
    InputOK (thrCircuit 2 3 1) [a, b, c, d] := .cons ha (.cons hb (.cons hc (.cons hd .nil)))

example := C95_exact (toyEnv true) exCircuit (by meets) {[1, 0, 4], [0, 1, 4]} (by rintro x (rfl | rfl) <;> meets) [1, 0, 4]
  (by simp) [0, 0, 2] (.cons (by decide) (.cons (by decide) (.cons (by decide) .nil)))

/-- The labels of one input determine those of no other. -/
theorem C95_one_input (E : Env) (c : Circuit) (hc : WellTyped c) (x y : List Nat) (hx : InputOK c x) (hy : InputOK c y) :
    Determine E c {x} y ↔ y = x := by
  rw [C95_exact E c hc {x} (by rintro _ rfl; exact hx) x rfl y hy]
  constructor
  · intro h
    refine List.ext_getElem? fun i => ?_
    cases him : c.inputDomains[i]? with
    | none =>
      have h0 := List.getElem?_eq_none_iff.mp him
      have h1 := hx.length_eq
      have h2 := hy.length_eq
      rw [List.getElem?_eq_none (by omega), List.getElem?_eq_none (by omega)]
    | some m =>
      have hd : AddSubgroup.closure (differences c {x} m) = ⊥ := by
        rw [AddSubgroup.closure_eq_bot_iff]
        rintro d ⟨u, rfl, v, rfl, j, -, rfl⟩
        exact sub_self _
      have := h i m him
      rw [hd, AddSubgroup.mem_bot, sub_eq_zero, ZMod.natCast_eq_natCast_iff',
        Nat.mod_eq_of_lt (inputOK_lt hx him).1, Nat.mod_eq_of_lt (inputOK_lt hy him).1] at this
      rw [(inputOK_lt hx him).2, (inputOK_lt hy him).2, this]
  · rintro rfl i m _
    rw [sub_self]
    exact AddSubgroup.zero_mem _

example := C95_one_input (toyEnv true) exCircuit (by meets) [1, 0, 4] [0, 1, 4] (by meets) (by meets)

/-- A second use of an encoding key gives everything away where all inputs are of one domain: if the inputs differ at a place by a
unit of that domain, the labels of both determine the labels of every input. -/
theorem C95_unit (E : Env) (c : Circuit) (hc : WellTyped c) (m : Nat) (hm : ∀ d ∈ c.inputDomains, d = m) (x x' y : List Nat)
    (hx : InputOK c x) (hx' : InputOK c x') (hy : InputOK c y) (i : Nat) (hi : i < c.numInputs)
    (hu : IsUnit ((x.getD i 0 : ZMod m) - (x'.getD i 0 : ZMod m))) : Determine E c {x, x'} y := by
  rw [C95_exact E c hc {x, x'} (by rintro _ (rfl | rfl); exacts [hx, hx']) x (by simp) y hy]
  intro j m' hj
  obtain rfl := hm m' (List.mem_of_getElem? hj)
  have hi' : c.inputDomains[i]? = some m' := by
    have : i < c.inputDomains.length := by rw [hc.inputs]; exact hi
    rw [List.getElem?_eq_getElem this, hm _ (List.getElem_mem this)]
  haveI : NeZero m' := ⟨by have := (inputOK_lt hx hi').1; omega⟩
  have hmem : (x.getD i 0 : ZMod m') - (x'.getD i 0 : ZMod m') ∈ AddSubgroup.closure (differences c {x, x'} m') :=
    AddSubgroup.subset_closure ⟨x, by simp, x', by simp, i, hi', rfl⟩
  obtain ⟨u, hu⟩ := hu
  rw [← hu] at hmem
  have : ∀ d : ZMod m', d ∈ AddSubgroup.closure (differences c {x, x'} m') := fun d => by
    have e : d = (d * (u⁻¹ : (ZMod m')ˣ)).val • (u : ZMod m') := by
      rw [nsmul_eq_mul, ZMod.natCast_zmod_val, mul_assoc, Units.inv_mul, mul_one]
    rw [e]
    exact AddSubgroup.nsmul_mem _ hmem _
  exact this _

example := C95_unit (toyEnv true) (thrCircuit 2 3 1) (thr_typedD (by decide) (by decide) (by decide)) 2 (by decide) [0, 1, 1, 0]
  [0, 0, 1, 0] [1, 1, 1, 1] (four_bits (by decide) (by decide) (by decide) (by decide))
  (four_bits (by decide) (by decide) (by decide) (by decide)) (four_bits (by decide) (by decide) (by decide) (by decide))
  1 (by decide) (by decide)

/-- Where the differences are no units, not everything is given away: two inputs that differ by two modulo ten do not determine
the labels of what is one apart. -/
theorem C95_even (E : Env) : ¬ Determine E tripleSum {[4, 9], [6, 9]} [5, 9] := by
  have ok : ∀ a b, a < 10 → b < 10 → InputOK tripleSum [a, b] := fun a b ha hb => .cons ha (.cons hb .nil)
  rw [C95_exact E tripleSum tripleSum_ok.1 _ (by rintro _ (rfl | rfl) <;> exact ok _ _ (by decide) (by decide)) [4, 9] (by simp)
    [5, 9] (ok _ _ (by decide) (by decide))]
  intro h
  have hle : AddSubgroup.closure (differences tripleSum {[4, 9], [6, 9]} 10) ≤ AddSubgroup.zmultiples (2 : ZMod 10) := by
    rw [AddSubgroup.closure_le]
    rintro d ⟨u, hu, v, hv, i, hi, rfl⟩
    have hi : i < 2 := (List.getElem?_eq_some_iff.mp hi).1
    rw [SetLike.mem_coe, AddSubgroup.mem_zmultiples_iff]
    rcases hu with rfl | rfl <;> rcases hv with rfl | rfl <;> interval_cases i <;>
      first | exact ⟨0, by decide⟩ | exact ⟨1, by decide⟩ | exact ⟨-1, by decide⟩
  obtain ⟨n, hn⟩ := AddSubgroup.mem_zmultiples_iff.mp (hle (h 0 10 rfl))
  have e : ∀ t : ZMod 10, ¬ t * 2 = 1 := by decide
  refine e (n : ZMod 10) ?_
  rw [← zsmul_eq_mul, hn]
  decide

/-- What a second use gives away of a circuit on bits, explicitly.  The difference of the two labels of a bit that differs turns
the labels of one input into those of any input, and with the garbled circuit and the decoding key into the result for that
input. -/
theorem C95_second_use (E : Env) (rnd : GarbleRand) (c : Circuit) (hc : WellTyped c) (hm : ∀ d ∈ c.inputDomains, d = 2)
    (x x' y : List Nat) (hx : InputOK c x) (hx' : InputOK c x') (hy : InputOK c y) (i : Nat) (hi : i < c.numInputs)
    (hne : x.getD i 0 ≠ x'.getD i 0) :
    ∃ gc e dk X X' w w' d Y Z, garble E rnd c = .ok (gc, e, dk) ∧ e.encode E.dbg x = .ok X ∧ e.encode E.dbg x' = .ok X' ∧
      X[i]? = some w ∧ X'[i]? = some w' ∧ Wire.add E.dbg w w' = .ok d ∧ flipLabels E.dbg x y d X = .ok Y ∧
      e.encode E.dbg y = .ok Y ∧ evaluate E gc Y = .ok Z ∧
      ((∀ run, garbleRun E rnd c = .ok run → NoCollision E run) → dk.decode E Z = .ok (meaning c y)) := by
  obtain ⟨gc, e, dk, Y, Z, h1, h2, h3, h4⟩ := C01_garble_correct E rnd c y hc hy
  obtain ⟨X, hX, hXl, hXi⟩ := sent_digits (E := E) hc hx rnd
  obtain ⟨X', hX', hXl', hXi'⟩ := sent_digits (E := E) hc hx' rnd
  obtain ⟨Y', hY, hYl, hYi⟩ := sent_digits (E := E) hc hy rnd
  unfold sentLabels at hX hX' hY
  rw [h1, okb] at hX hX' hY
  have hX : e.encode E.dbg x = .ok X := hX
  have hX' : e.encode E.dbg x' = .ok X' := hX'
  have hY : e.encode E.dbg y = .ok Y' := hY
  rw [h2] at hY
  obtain rfl := Except.ok.inj hY
  have hdom : ∀ j < c.numInputs, c.inputDomains[j]? = some 2 := fun j hj => by
    have : j < c.inputDomains.length := by rw [hc.inputs]; exact hj
    rw [List.getElem?_eq_getElem this, hm _ (List.getElem_mem this)]
  have hg2 : GoodDomain 2 := by decide
  obtain ⟨z, δ, w, a1, a2, a3, a4, a5⟩ := hXi i 2 (hdom i hi)
  obtain ⟨z', δ', w', b1, b2, b3, b4, b5⟩ := hXi' i 2 (hdom i hi)
  rw [a1] at b1; obtain rfl := Except.ok.inj b1
  rw [a2] at b2; obtain rfl := Except.ok.inj b2
  obtain ⟨d, hd, hdl, hdz⟩ := addZ E.dbg hg2 a4 b4
  have two : ∀ a b : Nat, a < 2 → b < 2 → a ≠ b → (a : ZMod 2) + b = 1 := by
    intro a b ha hb hab
    interval_cases a <;> interval_cases b <;> first | contradiction | decide
  have dbl : ∀ t : ZMod 2, t + t = 0 := by decide
  have hdδ : ∀ j, zd 2 d j = zd 2 δ j := fun j => by
    rw [hdz, a5, b5]
    have := two _ _ (inputOK_lt hx (hdom i hi)).1 (inputOK_lt hx' (hdom i hi)).1 hne
    linear_combination dbl (zd 2 z j) + zd 2 δ j * this
  refine ⟨gc, e, dk, X, X', w, w', d, Y, Z, h1, hX, hX', a3, b3, hd, ?_, h2, h3, h4⟩
  unfold flipLabels
  have hxl : x.length = c.numInputs := by rw [← hc.inputs]; exact hx.length_eq
  have hyl : y.length = c.numInputs := by rw [← hc.inputs]; exact hy.length_eq
  refine mapM_of_getElem (by simp only [List.length_zip]; omega) fun j a b ha hb => ?_
  have hj' : j < c.numInputs := by
    have := (List.getElem?_eq_some_iff.mp hb).1
    omega
  obtain ⟨u, δ1, v, c1, c2, c3, c4, c5⟩ := hXi j 2 (hdom j hj')
  obtain ⟨u', δ2, v', d1, d2, d3, d4, d5⟩ := hYi j 2 (hdom j hj')
  rw [c1] at d1; obtain rfl := Except.ok.inj d1
  rw [a2] at c2; obtain rfl := Except.ok.inj c2
  rw [a2] at d2; obtain rfl := Except.ok.inj d2
  have ex := (inputOK_lt hx (hdom j hj')).2
  have ey := (inputOK_lt hy (hdom j hj')).2
  rw [d3] at hb
  obtain rfl := Option.some.inj hb
  rw [List.getElem?_zip_eq_some, List.getElem?_zip_eq_some, ex, ey, c3] at ha
  obtain ⟨⟨e1, e2⟩, e3⟩ := ha
  obtain ⟨⟨p, q⟩, t⟩ := a
  simp only [Option.some.injEq] at e1 e2 e3
  subst e1 e2 e3
  simp only
  by_cases hpq : x.getD j 0 = y.getD j 0
  · rw [if_pos hpq]
    exact congrArg Except.ok (label_ext c4 d4 fun k => by rw [c5, d5, hpq])
  · rw [if_neg hpq]
    obtain ⟨s, hs, hsl, hsz⟩ := addZ E.dbg hg2 c4 hdl
    rw [hs]
    refine congrArg Except.ok (label_ext hsl d4 fun k => ?_)
    rw [hsz, c5, d5, hdδ]
    have := two _ _ (inputOK_lt hx (hdom j hj')).1 (inputOK_lt hy (hdom j hj')).1 hpq
    linear_combination zd 2 δ k * this - dbl ((y.getD j 0 : ZMod 2) * zd 2 δ k) + dbl (zd 2 δ k)

example := C95_second_use (toyEnv true) Witness.rand (thrCircuit 2 3 1) (thr_typedD (by decide) (by decide) (by decide)) (by decide)
  [0, 1, 1, 0] [0, 0, 1, 0] [1, 1, 1, 1] (four_bits (by decide) (by decide) (by decide) (by decide))
  (four_bits (by decide) (by decide) (by decide) (by decide)) (four_bits (by decide) (by decide) (by decide) (by decide))
  1 (by decide) (by decide)

end FP.Props
