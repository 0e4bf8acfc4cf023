import Verif.Model.Garble
import Verif.Spec.Circuit
import Verif.Proof.Wire
import Verif.Proof.Monad
import Mathlib.Tactic.LinearCombination
import Mathlib.Algebra.BigOperators.Group.List.Basic
/-
One gate: what garbling it guarantees about evaluating it.
-/
namespace FP
open Spec

/-- The map holds a delta for domain `d`. -/
def DeltaOK (dl : HMap Nat Wire) (d : Nat) : Prop :=
  ∃ δ, List.lookup d dl = some δ ∧ IsDelta d δ

/-- `w` carries value `v` on a wire with zero label `z`. -/
structure Carries (dl : HMap Nat Wire) (m : Nat) (z : Wire) (v : Nat) (w : Wire) : Prop where
  vlt : v < m
  lab : IsLabel m w
  eq : ∀ δ, List.lookup m dl = some δ → ∀ i, zd m w i = zd m z i + v * zd m δ i

/-- Labels on the garbler's side. -/
structure LabInv (doms : List Nat) (Z : List Wire) : Prop where
  len : Z.length = doms.length
  lab : ∀ (i : Nat) (m : Nat), doms[i]? = some m → ∃ z, Z[i]? = some z ∧ IsLabel m z

/-- Labels on the evaluator's side. -/
structure EvInv (dl : HMap Nat Wire) (doms : List Nat) (Z : List Wire) (vals : List Nat)
    (ev : List (Option Wire)) : Prop where
  len : vals.length = doms.length
  car : ∀ (i : Nat) (m : Nat), doms[i]? = some m → ∃ z w v, Z[i]? = some z ∧ ev[i]? = some (some w) ∧
    vals[i]? = some v ∧ Carries dl m z v w

theorem foldlM_add_ok (dbg : Bool) {m : Nat} (hm : GoodDomain m) {ws : List Wire}
    (h : ∀ w ∈ ws, IsLabel m w) {a : Wire} (ha : IsLabel m a) :
    ∃ c, ws.foldlM (fun acc w => Wire.add dbg acc w) a = .ok c ∧ IsLabel m c ∧
      ∀ i, zd m c i = zd m a i + (ws.map fun w => zd m w i).sum := by
  induction ws generalizing a with
  | nil => exact ⟨a, rfl, ha, by simp⟩
  | cons w ws ih =>
    obtain ⟨b, hb, hl, hz⟩ := addZ dbg hm ha (h w (by simp))
    obtain ⟨c, hc, hlc, hzc⟩ := ih (fun w hw => h w (by simp [hw])) hl
    refine ⟨c, by rw [List.foldlM_cons, hb, okb, hc], hlc, fun i => ?_⟩
    rw [hzc, hz]; simp [add_assoc]

theorem sum_ok (dbg : Bool) {m : Nat} (hm : GoodDomain m) {ws : List Wire} (hne : ws ≠ [])
    (h : ∀ w ∈ ws, IsLabel m w) :
    ∃ c, Wire.sum dbg ws = .ok c ∧ IsLabel m c ∧
      ∀ i, zd m c i = (ws.map fun w => zd m w i).sum := by
  cases ws with
  | nil => exact absurd rfl hne
  | cons w ws =>
    obtain ⟨c, h1, h2, h3⟩ := foldlM_add_ok dbg hm (ws := ws) (fun v hv => h v (by simp [hv])) (h w (by simp))
    exact ⟨c, h1, h2, fun i => by rw [h3]; simp⟩

theorem read_sum_ok (dbg : Bool) {m : Nat} (hm : GoodDomain m) {ins : List Nat} (hne : ins ≠ [])
    (rd : Nat → R Wire) (W : Nat → Wire) (h : ∀ k ∈ ins, rd k = .ok (W k) ∧ IsLabel m (W k)) :
    ∃ ws c, ins.mapM rd = .ok ws ∧ Wire.sum dbg ws = .ok c ∧ IsLabel m c ∧
      ∀ i, zd m c i = (ins.map fun k => zd m (W k) i).sum := by
  obtain ⟨c, h1, h2, h3⟩ := sum_ok dbg hm (ws := ins.map W) (by simpa using hne) (by
    intro w hw
    obtain ⟨k, hk, rfl⟩ := List.mem_map.mp hw
    exact (h k hk).2)
  refine ⟨ins.map W, c, mapM_ok (fun k hk => (h k hk).1), h1, h2, fun i => ?_⟩
  rw [h3, List.map_map]; rfl

theorem readInit_ok {ev : List (Option Wire)} {i : Nat} {w : Wire} (h : ev[i]? = some (some w)) :
    readInit ev i = .ok w := by
  simp [readInit, idxR_ok h, okb, purek]

/-- The statement proved for each gate kind. -/
def GateStep (E : Env) (dl : HMap Nat Wire) (doms : List Nat) (s : GarbleState) (g : Gate) : Prop :=
  ∃ s1 w, garbleGate E dl s g = .ok s1 ∧ s1.d = s.d ∧ s1.wires = s.wires ++ [w] ∧
    IsLabel g.outputDomain w ∧
    (∀ k, k ≠ g.output → List.lookup k s1.f = List.lookup k s.f ∧
      List.lookup k s1.fHalf = List.lookup k s.fHalf) ∧
    ∀ gc : GarbledCircuit, List.lookup g.output gc.f = List.lookup g.output s1.f →
      List.lookup g.output gc.fHalf = List.lookup g.output s1.fHalf →
      ∀ ev vals, EvInv dl doms s.wires vals ev →
        ∃ W, evalGate E gc ev s.j g = .ok (W, s1.j) ∧
          Carries dl g.outputDomain w (gateValue g (g.inputs.map (vals.getD · 0))) W

theorem gateStep_add {E : Env} {dl : HMap Nat Wire} {doms : List Nat} {s : GarbleState} {g : Gate}
    (hk : g.kind = .add) (hs : LabInv doms s.wires) (hg : GateOK doms g) :
    GateStep E dl doms s g := by
  have hm := hg.domain
  have hne : g.inputs ≠ [] := by have := hg.arity; rw [hk] at this; exact this
  have hod : g.outputDomain = g.domain := by simp [Gate.outputDomain, hk]
  obtain ⟨zs, c, hzs, hc, hlc, hzc⟩ := read_sum_ok E.dbg hm hne (idxR s.wires)
    (fun k => s.wires.getD k Wire.empty) (by
      intro k hkin
      obtain ⟨z, hz, hl⟩ := hs.lab _ _ (hg.inputs k hkin)
      simp only [List.getD, hz, Option.getD_some]
      exact ⟨idxR_ok hz, hl⟩)
  refine ⟨{ s with wires := s.wires ++ [c] }, c, ?_, rfl, rfl, by rw [hod]; exact hlc,
    fun k _ => ⟨rfl, rfl⟩, ?_⟩
  · simp only [garbleGate, hk, hzs, okb, hc, purek]
  intro gc _ _ ev vals hev
  obtain ⟨ws, C, hws, hC, hlC, hzC⟩ := read_sum_ok E.dbg hm hne (readInit ev)
    (fun k => (ev.getD k none).getD Wire.empty) (by
      intro k hkin
      obtain ⟨z, w, v, _, hw, _, hcar⟩ := hev.car _ _ (hg.inputs k hkin)
      simp only [List.getD, hw, Option.getD_some]
      exact ⟨readInit_ok hw, hcar.lab⟩)
  refine ⟨C, by simp only [evalGate, hk, hws, okb, hC, purek], ?_⟩
  rw [hod]
  refine ⟨?_, hlC, fun δ hδ i => ?_⟩
  · simp only [gateValue, hk]; exact Nat.mod_lt _ (good_pos hm)
  · simp only [gateValue, hk]
    rw [hzC, hzc, ZMod.natCast_mod]
    have : ∀ ins : List Nat, (∀ k ∈ ins, doms[k]? = some g.domain) →
        (ins.map fun k => zd g.domain ((ev.getD k none).getD Wire.empty) i).sum =
        (ins.map fun k => zd g.domain (s.wires.getD k Wire.empty) i).sum +
          ((ins.map (vals.getD · 0)).sum : ℕ) * zd g.domain δ i := by
      intro ins hin
      induction ins with
      | nil => simp
      | cons k ins ih =>
        obtain ⟨z, w, v, hz, hw, hv, hcar⟩ := hev.car _ _ (hin k (by simp))
        have ih' := ih (fun k hk => hin k (by simp [hk]))
        simp only [List.map_cons, List.sum_cons, Nat.cast_add]
        rw [ih']
        simp only [List.getD, hz, hw, hv, Option.getD_some]
        rw [hcar.eq δ hδ i]; ring
    exact this g.inputs hg.inputs

theorem gateStep_mul {E : Env} {dl : HMap Nat Wire} {doms : List Nat} {s : GarbleState} {g : Gate}
    {c : Nat} (hk : g.kind = .mul c) (hs : LabInv doms s.wires) (hg : GateOK doms g) :
    GateStep E dl doms s g := by
  have hm := hg.domain
  have har := hg.arity
  rw [hk] at har
  obtain ⟨hlen, hclt⟩ := har
  have hod : g.outputDomain = g.domain := by simp [Gate.outputDomain, hk]
  obtain ⟨a, hins⟩ := List.length_eq_one_iff.mp hlen
  have ha : doms[a]? = some g.domain := hg.inputs a (by simp [hins])
  obtain ⟨z, hz, hlz⟩ := hs.lab _ _ ha
  obtain ⟨w, hw, hlw, hzw⟩ := mulZ E.dbg hm hlz.dom hclt
  have hi0 : idxR g.inputs 0 = .ok a := idxR_ok (by simp [hins])
  refine ⟨{ s with wires := s.wires ++ [w] }, w, ?_, rfl, rfl, by rw [hod]; exact hlw,
    fun k _ => ⟨rfl, rfl⟩, ?_⟩
  · simp only [garbleGate, hk, hi0, okb, idxR_ok hz, hw, purek]
  intro gc _ _ ev vals hev
  obtain ⟨z', w', v, hz', hw', hv, hcar⟩ := hev.car _ _ ha
  obtain rfl : z = z' := by rw [hz] at hz'; injection hz'
  obtain ⟨C, hC, hlC, hzC⟩ := mulZ E.dbg hm hcar.lab.dom hclt
  refine ⟨C, by simp only [evalGate, hk, hi0, okb, readInit_ok hw', hC, purek], ?_⟩
  rw [hod]
  have hv0 : (g.inputs.map (vals.getD · 0)).headD 0 = v := by simp [hins, List.getD, hv]
  refine ⟨?_, hlC, fun δ hδ i => ?_⟩
  · simp only [gateValue, hk]; exact Nat.mod_lt _ (good_pos hm)
  · simp only [gateValue, hk, hv0]
    rw [hzC, hzw, hcar.eq δ hδ, ZMod.natCast_mod]; push_cast; ring

/-- `hash_wire` only looks at the domain of its target. -/
theorem hashWire_congr (E : Env) (o : Nat) (w : Wire) {t t' : Wire} (h : t.domain = t'.domain) :
    hashWire E o w t = hashWire E o w t' := by simp [hashWire, h]

theorem hashWire_ok (E : Env) (o : Nat) (w : Wire) {n : Nat} (hn : GoodDomain n) {t : Wire}
    (ht : Domain.new n = .ok t.domain) : ∃ h, hashWire E o w t = .ok h ∧ IsLabel n h :=
  fromArray_ok E.dbg hn ht _

theorem domain_unique {m : Nat} {a b : Wire} (ha : Domain.new m = .ok a.domain)
    (hb : Domain.new m = .ok b.domain) : a.domain = b.domain := by
  have := ha.symm.trans hb; injection this

theorem project_ok {p : ProjKind} (hp : 0 < p.dom) (x : Nat) :
    ∃ y, p.project x = .ok y ∧ y < p.dom ∧
      y = (match p with | .map m => x % m | .less t => if x < t then 1 else 0) := by
  cases p with
  | map m =>
    have := hp
    simp only [ProjKind.dom] at this
    exact ⟨x % m, remR_ok this x, Nat.mod_lt _ this, rfl⟩
  | less t =>
    refine ⟨if x < t then 1 else 0, rfl, ?_, rfl⟩
    simp only [ProjKind.dom]; split <;> omega

theorem mod_shift_inj {m c x y : Nat} (hx : x < m) (hy : y < m) (h : (x + c) % m = (y + c) % m) :
    x = y := by
  have h2 : (x + c) ≡ (y + c) [MOD m] := h
  have h3 := Nat.ModEq.add_right_cancel' c h2
  have h4 : x % m = y % m := h3
  rwa [Nat.mod_eq_of_lt hx, Nat.mod_eq_of_lt hy] at h4

/-- The table of a projection gate. -/
theorem garbleProj_ok {E : Env} {dl : HMap Nat Wire} {wires : List Wire} {g : Gate} {p : ProjKind}
    {a : Nat} {z δm δn : Wire} (hm : GoodDomain g.domain) (hn : GoodDomain p.dom)
    (hins : g.inputs[0]? = some a) (hz : wires[a]? = some z) (hlz : IsLabel g.domain z)
    (hδm : List.lookup g.domain dl = some δm) (hδmi : IsDelta g.domain δm)
    (hδn : List.lookup p.dom dl = some δn) (hδni : IsDelta p.dom δn) :
    ∃ w tbl, garbleProj E dl wires g p = .ok (w, tbl) ∧ IsLabel p.dom w ∧
      ∀ x, x < g.domain → ∃ X h y cph,
        IsLabel g.domain X ∧ (∀ i, zd g.domain X i = zd g.domain z i + x * zd g.domain δm i) ∧
        hashWire E g.output X w = .ok h ∧ IsLabel p.dom h ∧ p.project x = .ok y ∧
        tbl[(x + z.color) % g.domain]? = some cph ∧ IsLabel p.dom cph ∧
        ∀ i, zd p.dom cph i = zd p.dom h i + zd p.dom w i + y * zd p.dom δn i := by
  have hm0 := good_pos hm
  have hcol : z.color < g.domain := by rw [color_eq]; exact hlz.lt _
  have hsmall : g.domain ≤ 32768 := by unfold GoodDomain at hm; omega
  obtain ⟨dc, hdc, hldc, _⟩ := mulZ E.dbg hm hδmi.dom hcol
  obtain ⟨s1, hs1, hls1, _⟩ := subZ E.dbg hm hlz hldc
  obtain ⟨h1, hh1, hlh1⟩ := hashWire_ok E g.output s1 hn hδni.dom
  obtain ⟨y0, hy0, hy0lt, _⟩ := project_ok (good_pos hn) (g.domain - z.color)
  obtain ⟨dn0, hdn0, hldn0, _⟩ := mulZ E.dbg hn hδni.dom hy0lt
  obtain ⟨w0, hw0, hlw0, _⟩ := addZ E.dbg hn hlh1 hldn0
  obtain ⟨w, hw, hlw, _⟩ := neg_ok E.dbg hn hlw0
  -- one row
  have row : ∀ x, x < g.domain → ∃ dx X h y dy hw' cph,
      Wire.mul E.dbg δm x = .ok dx ∧ Wire.add E.dbg z dx = .ok X ∧
      IsLabel g.domain X ∧ (∀ i, zd g.domain X i = zd g.domain z i + x * zd g.domain δm i) ∧
      hashWire E g.output X w = .ok h ∧ IsLabel p.dom h ∧ p.project x = .ok y ∧
      Wire.mul E.dbg δn y = .ok dy ∧ Wire.add E.dbg h w = .ok hw' ∧
      Wire.add E.dbg hw' dy = .ok cph ∧ IsLabel p.dom cph ∧
      ∀ i, zd p.dom cph i = zd p.dom h i + zd p.dom w i + y * zd p.dom δn i := by
    intro x hx
    obtain ⟨dx, hdx, hldx, hzdx⟩ := mulZ E.dbg hm hδmi.dom hx
    obtain ⟨X, hX, hlX, hzX⟩ := addZ E.dbg hm hlz hldx
    obtain ⟨h, hh, hlh⟩ := hashWire_ok E g.output X hn hlw.dom
    obtain ⟨y, hy, hylt, _⟩ := project_ok (good_pos hn) x
    obtain ⟨dy, hdy, hldy, hzdy⟩ := mulZ E.dbg hn hδni.dom hylt
    obtain ⟨hw', hhw', hlhw', hzhw'⟩ := addZ E.dbg hn hlh hlw
    obtain ⟨cph, hcph, hlcph, hzcph⟩ := addZ E.dbg hn hlhw' hldy
    refine ⟨dx, X, h, y, dy, hw', cph, hdx, hX, hlX, fun i => by rw [hzX, hzdx], hh, hlh, hy,
      hdy, hhw', hcph, hlcph, fun i => by rw [hzcph, hzhw', hzdy]⟩
  let rowRel (x : Nat) (cph : Wire) : Prop := ∃ X h y,
        IsLabel g.domain X ∧ (∀ i, zd g.domain X i = zd g.domain z i + x * zd g.domain δm i) ∧
        hashWire E g.output X w = .ok h ∧ IsLabel p.dom h ∧ p.project x = .ok y ∧
        IsLabel p.dom cph ∧
        ∀ i, zd p.dom cph i = zd p.dom h i + zd p.dom w i + y * zd p.dom δn i
  let f : List Wire → Nat → R (List Wire) := fun tbl x => do
      let hashed ← hashWire E g.output
        (← Wire.add E.dbg z (← Wire.mul E.dbg δm x)) w
      let cipher ← Wire.add E.dbg (← Wire.add E.dbg hashed w)
        (← Wire.mul E.dbg δn (← p.project x))
      setR tbl (← remR (← addR E.dbg 65536 x z.color) g.domain) cipher
  have loop : ∃ tbl, (List.range g.domain).foldlM f (List.replicate g.domain Wire.empty) = .ok tbl ∧
      (tbl.length = g.domain ∧ ∀ x, x < (List.range g.domain).length → ∃ cph,
        tbl[(x + z.color) % g.domain]? = some cph ∧ rowRel x cph) := by
    apply foldlM_inv (fun k (tbl : List Wire) => tbl.length = g.domain ∧ ∀ x, x < k → ∃ cph,
        tbl[(x + z.color) % g.domain]? = some cph ∧ rowRel x cph)
    · exact ⟨by simp, fun x hx => absurd hx (by omega)⟩
    · intro k x tbl hk ⟨hlen, hinv⟩
      have hkd : k < g.domain := by
        have := (List.getElem?_eq_some_iff.mp hk).1; simpa using this
      obtain rfl : k = x := by
        rw [List.getElem?_range hkd] at hk; injection hk
      obtain ⟨dx, X, h, y, dy, hw', cph, hdx, hX, hlX, hzX, hh, hlh, hy, hdy, hhw', hcph, hlcph,
        hzcph⟩ := row k hkd
      have hmodlt := Nat.mod_lt (k + z.color) hm0
      refine ⟨tbl.set ((k + z.color) % g.domain) cph, ?_, by simp [hlen], ?_⟩
      · simp only [f, hdx, hX, hh, hhw', hy, hdy, hcph, okb,
          addR_ok E.dbg (show k + z.color < 65536 by omega), remR_ok hm0,
          setR_ok cph (show (k + z.color) % g.domain < tbl.length by omega)]
      · intro x hx
        by_cases hxk : x = k
        · subst hxk
          refine ⟨cph, by simp [hlen, hmodlt], X, h, y, hlX, hzX, hh, hlh, hy, hlcph, hzcph⟩
        · obtain ⟨c', hc', hr⟩ := hinv x (by omega)
          refine ⟨c', ?_, hr⟩
          rw [List.getElem?_set_ne]
          · exact hc'
          · intro he
            exact hxk (mod_shift_inj (by omega) hkd he.symm)
  obtain ⟨tbl, htbl, _, hrows⟩ := loop
  refine ⟨w, tbl, ?_, hlw, ?_⟩
  · simp only [f] at htbl
    simp only [garbleProj, idxR_ok hins, idxR_ok hz, HMap.getR_ok hδm, HMap.getR_ok hδn, okb, hdc,
      hs1, hh1, subR_ok E.dbg hcol.le, hy0, hdn0, hw0, hw, htbl, purek]
  · intro x hx
    obtain ⟨cph, hc, X, h, y, h1, h2, h3, h4, h5, h6, h7⟩ := hrows x (by simpa using hx)
    exact ⟨X, h, y, cph, h1, h2, h3, h4, h5, hc, h6, h7⟩

/-- Colour of a label carrying `v`. -/
theorem color_carry {m : Nat} {z w δ : Wire} {v : Nat} (hz : IsLabel m z)
    (hw : IsLabel m w) (hδ : IsDelta m δ) (h : ∀ i, zd m w i = zd m z i + v * zd m δ i) :
    w.color = (v + z.color) % m := by
  have e1 := domain_unique hz.dom hw.dom
  have e2 := domain_unique hδ.dom hw.dom
  rw [color_eq, color_eq, e1]
  have := h (colorPos w.domain)
  unfold zd at this
  have h1 := hδ.one
  rw [e2] at h1
  rw [h1] at this
  have h3 : ((digit w (colorPos w.domain) : ℕ) : ZMod m) =
      ((v + digit z (colorPos w.domain) : ℕ) : ZMod m) := by
    rw [this]; push_cast; ring
  rw [ZMod.natCast_eq_natCast_iff'] at h3
  rwa [Nat.mod_eq_of_lt (hw.lt _)] at h3

theorem gateStep_proj {E : Env} {dl : HMap Nat Wire} {doms : List Nat} {s : GarbleState} {g : Gate}
    {p : ProjKind} (hk : g.kind = .proj p) (hs : LabInv doms s.wires) (hg : GateOK doms g)
    (hδm : DeltaOK dl g.domain) (hδn : DeltaOK dl g.outputDomain) :
    GateStep E dl doms s g := by
  have hm := hg.domain
  have hlen : g.inputs.length = 1 := by have := hg.arity; rw [hk] at this; exact this
  have hod : g.outputDomain = p.dom := by simp [Gate.outputDomain, hk]
  have hn : GoodDomain p.dom := hod ▸ hg.range
  obtain ⟨a, hins⟩ := List.length_eq_one_iff.mp hlen
  have ha : doms[a]? = some g.domain := hg.inputs a (by simp [hins])
  obtain ⟨z, hz, hlz⟩ := hs.lab _ _ ha
  have hi : g.inputs[0]? = some a := by simp [hins]
  obtain ⟨δm, hδm, hδmi⟩ := hδm
  rw [hod] at hδn
  obtain ⟨δn, hδn, hδni⟩ := hδn
  obtain ⟨w, tbl, hgp, hlw, hrows⟩ := garbleProj_ok (E := E) hm hn hi hz hlz hδm hδmi hδn hδni
  refine ⟨{ s with wires := s.wires ++ [w], f := s.f.insert g.output tbl }, w, ?_, rfl, rfl,
    by rw [hod]; exact hlw, fun k hkne => ⟨?_, rfl⟩, ?_⟩
  · simp only [garbleGate, hk, hgp, okb, purek]
  · simp only [HMap.insert, List.lookup_cons]
    have : (k == g.output) = false := by simpa using hkne
    simp [this]
  intro gc hf _ ev vals hev
  obtain ⟨z', W, v, hz', hW, hv, hcar⟩ := hev.car _ _ ha
  obtain rfl : z = z' := by rw [hz] at hz'; injection hz'
  obtain ⟨X, h, y, cph, hlX, hzX, hh, hlh, hy, htc, hlc, hzc⟩ := hrows v hcar.vlt
  obtain rfl : W = X := label_ext hcar.lab hlX (fun i => by rw [hzX, hcar.eq δm hδm])
  have hcolor := color_carry hlz hcar.lab hδmi (hcar.eq δm hδm)
  have hlook : List.lookup g.output gc.f = some tbl := by
    rw [hf]; simp [HMap.insert]
  have hcw : cph.domain = w.domain := domain_unique hlc.dom hlw.dom
  obtain ⟨C, hC, hlC, hzC⟩ := subZ E.dbg hn hlc hlh
  refine ⟨C, ?_, ?_⟩
  · simp only [evalGate, hk, idxR_ok hi, okb, readInit_ok hW, HMap.getR_ok hlook, hcolor,
      idxR_ok htc, hashWire_congr E g.output W hcw, hh, hC, purek]
  rw [hod]
  have hv0 : (g.inputs.map (vals.getD · 0)).headD 0 = v := by simp [hins, List.getD, hv]
  obtain ⟨y', hy', hylt, hyeq⟩ := project_ok (good_pos hn) v
  obtain rfl : y = y' := by rw [hy] at hy'; injection hy'
  have hgv : gateValue g (g.inputs.map (vals.getD · 0)) = y := by
    rw [hyeq]
    simp only [gateValue, hk, hv0]
    cases p <;> rfl
  rw [hgv]
  refine ⟨hylt, hlC, fun δ hδ i => ?_⟩
  obtain rfl : δn = δ := by rw [hδn] at hδ; injection hδ
  rw [hzC, hzc]; ring

theorem isLabel_hashHalf (E : Env) (w : Wire) (j : Nat) : IsLabel 2 (hashHalf E w j) :=
  isLabel_two _

/-- `garbleAnd` succeeds, with the values of the half gates. -/
theorem garbleAnd_ok {E : Env} {dl : HMap Nat Wire} {wires : List Wire} {g : Gate} {j a b : Nat}
    {wa wb δ : Wire} (hia : g.inputs[0]? = some a) (hib : g.inputs[1]? = some b)
    (hwa : wires[a]? = some wa) (hla : IsLabel 2 wa) (hwb : wires[b]? = some wb)
    (hlb : IsLabel 2 wb) (hδ : List.lookup 2 dl = some δ) (hδi : IsLabel 2 δ) :
    ∃ w tg te wa1 wb1, garbleAnd E dl wires g j = .ok (w, (tg, te)) ∧
      IsLabel 2 w ∧ IsLabel 2 tg ∧ IsLabel 2 te ∧ IsLabel 2 wa1 ∧ IsLabel 2 wb1 ∧
      (∀ i, zd 2 wa1 i = zd 2 wa i + zd 2 δ i) ∧ (∀ i, zd 2 wb1 i = zd 2 wb i + zd 2 δ i) ∧
      (∀ i, zd 2 tg i = zd 2 (hashHalf E wa j) i + zd 2 (hashHalf E wa1 j) i +
        (if wb.color ≠ 0 then zd 2 δ i else 0)) ∧
      (∀ i, zd 2 te i = zd 2 (hashHalf E wb j) i + zd 2 (hashHalf E wb1 j) i + zd 2 wa i) ∧
      (∀ i, zd 2 w i = (zd 2 (hashHalf E wa j) i + (if wa.color ≠ 0 then zd 2 tg i else 0)) +
        (zd 2 (hashHalf E wb j) i + (if wb.color ≠ 0 then zd 2 te i + zd 2 wa i else 0))) := by
  have h2 : GoodDomain 2 := by decide
  obtain ⟨wa1, hwa1, hla1, hza1⟩ := addZ E.dbg h2 hla hδi
  obtain ⟨wb1, hwb1, hlb1, hzb1⟩ := addZ E.dbg h2 hlb hδi
  obtain ⟨tg0, htg0, hltg0, hztg0⟩ := addZ E.dbg h2 (isLabel_hashHalf E wa j) (isLabel_hashHalf E wa1 j)
  have htg : ∃ tg, (if wb.color ≠ 0 then Wire.add E.dbg tg0 δ else pure tg0) = .ok tg ∧
      IsLabel 2 tg ∧ ∀ i, zd 2 tg i = zd 2 tg0 i + (if wb.color ≠ 0 then zd 2 δ i else 0) := by
    by_cases hc : wb.color ≠ 0
    · simp only [hc, if_true, ne_eq, not_false_eq_true]; exact addZ E.dbg h2 hltg0 hδi
    · simp only [hc, if_false]; exact ⟨tg0, rfl, hltg0, by simp⟩
  obtain ⟨tg, htg, hltg, hztg⟩ := htg
  have hwg : ∃ wg, (if wa.color ≠ 0 then Wire.add E.dbg (hashHalf E wa j) tg
        else pure (hashHalf E wa j)) = .ok wg ∧ IsLabel 2 wg ∧
      ∀ i, zd 2 wg i = zd 2 (hashHalf E wa j) i + (if wa.color ≠ 0 then zd 2 tg i else 0) := by
    by_cases hc : wa.color ≠ 0
    · simp only [hc, if_true, ne_eq, not_false_eq_true]; exact addZ E.dbg h2 (isLabel_hashHalf _ _ _) hltg
    · simp only [hc, if_false]; exact ⟨_, rfl, isLabel_hashHalf _ _ _, by simp⟩
  obtain ⟨wg, hwg, hlwg, hzwg⟩ := hwg
  obtain ⟨te0, hte0, hlte0, hzte0⟩ := addZ E.dbg h2 (isLabel_hashHalf E wb j) (isLabel_hashHalf E wb1 j)
  obtain ⟨te, hte, hlte, hzte⟩ := addZ E.dbg h2 hlte0 hla
  obtain ⟨tew, htew, hltew, hztew⟩ := addZ E.dbg h2 hlte hla
  have hwe : ∃ we, (if wb.color ≠ 0 then (do Wire.add E.dbg (hashHalf E wb j) (← Wire.add E.dbg te wa))
        else pure (hashHalf E wb j)) = .ok we ∧ IsLabel 2 we ∧
      ∀ i, zd 2 we i = zd 2 (hashHalf E wb j) i +
        (if wb.color ≠ 0 then zd 2 te i + zd 2 wa i else 0) := by
    by_cases hc : wb.color ≠ 0
    · simp only [hc, if_true, ne_eq, not_false_eq_true, htew, okb]
      obtain ⟨c, h1, h2, h3⟩ := addZ E.dbg h2 (isLabel_hashHalf E wb j) hltew
      exact ⟨c, h1, h2, fun i => by rw [h3, hztew]⟩
    · simp only [hc, if_false]; exact ⟨_, rfl, isLabel_hashHalf _ _ _, by simp⟩
  obtain ⟨we, hwe, hlwe, hzwe⟩ := hwe
  obtain ⟨w, hw, hlw, hzw⟩ := addZ E.dbg h2 hlwg hlwe
  refine ⟨w, tg, te, wa1, wb1, ?_, hlw, hltg, hlte, hla1, hlb1, hza1, hzb1,
    fun i => by rw [hztg, hztg0], fun i => by rw [hzte, hzte0], fun i => by rw [hzw, hzwg, hzwe]⟩
  unfold garbleAnd
  by_cases pa : wa.color = 0 <;> by_cases pb : wb.color = 0 <;>
  simp only [ne_eq, pa, pb, not_false_eq_true, not_true_eq_false, if_true, if_false, htew, okb,
    purek, Except.ok.injEq] at htg hwg hwe <;>
  (try subst htg) <;> (try subst hwg) <;> (try subst hwe) <;>
  simp only [HMap.getR_ok hδ, idxR_ok hia, idxR_ok hib, idxR_ok hwa, idxR_ok hwb, okb,
    purek, *, ne_eq, pa, pb, not_false_eq_true,
    not_true_eq_false, if_true, if_false]

theorem color_lt_two {w : Wire} (h : IsLabel 2 w) : w.color < 2 := by
  rw [color_eq]; exact h.lt _

theorem halfgate_algebra : ∀ a b pa pb : Bool, ∀ A0 A1 B0 B1 wa δ : ZMod 2,
    ((if a then A1 else A0) + (if (a ^^ pa) then (A0 + A1 + if pb then δ else 0) else 0)) +
    ((if b then B1 else B0) +
      (if (b ^^ pb) then (B0 + B1 + wa) + (wa + if a then δ else 0) else 0)) =
    ((A0 + if pa then (A0 + A1 + if pb then δ else 0) else 0) +
      (B0 + if pb then (B0 + B1 + wa) + wa else 0)) + (if a && b then δ else 0) := by
  decide

theorem gateStep_and {E : Env} {dl : HMap Nat Wire} {doms : List Nat} {s : GarbleState} {g : Gate}
    (hk : g.kind = .and) (hs : LabInv doms s.wires) (hg : GateOK doms g)
    (hδ : DeltaOK dl 2) : GateStep E dl doms s g := by
  have har := hg.arity
  rw [hk] at har
  obtain ⟨hlen, hd2⟩ := har
  have h2 : GoodDomain 2 := by decide
  have hod : g.outputDomain = 2 := by simp [Gate.outputDomain, hk]
  obtain ⟨a, b, hins⟩ := List.length_eq_two.mp hlen
  have ha : doms[a]? = some 2 := hd2 ▸ hg.inputs a (by simp [hins])
  have hb : doms[b]? = some 2 := hd2 ▸ hg.inputs b (by simp [hins])
  obtain ⟨wa, hwa, hla⟩ := hs.lab _ _ ha
  obtain ⟨wb, hwb, hlb⟩ := hs.lab _ _ hb
  have hia : g.inputs[0]? = some a := by simp [hins]
  have hib : g.inputs[1]? = some b := by simp [hins]
  obtain ⟨δ, hδ, hδi⟩ := hδ
  have hlδ : IsLabel 2 δ := by
    have := hδi.dom
    obtain ⟨d, v⟩ := δ
    obtain rfl : d = .binary := by
      have h : Domain.new 2 = .ok .binary := rfl
      rw [h] at this; injection this with this; exact this.symm
    exact isLabel_two v
  obtain ⟨w, tg, te, wa1, wb1, hga, hlw, hltg, hlte, hla1, hlb1, hza1, hzb1, hztg, hzte, hzw⟩ :=
    garbleAnd_ok (E := E) (j := s.j + 1) hia hib hwa hla hwb hlb hδ hlδ
  refine ⟨{ s with wires := s.wires ++ [w], fHalf := s.fHalf.insert g.output (tg, te), j := s.j + 1 },
    w, ?_, rfl, rfl, by rw [hod]; exact hlw, fun k hkne => ⟨rfl, ?_⟩, ?_⟩
  · simp only [garbleGate, hk, hga, okb, purek]
  · simp only [HMap.insert, List.lookup_cons]
    have : (k == g.output) = false := by simpa using hkne
    simp [this]
  intro gc _ hf ev vals hev
  obtain ⟨za', Wa, va, hza', hWa, hva, hcara⟩ := hev.car _ _ ha
  obtain ⟨zb', Wb, vb, hzb', hWb, hvb, hcarb⟩ := hev.car _ _ hb
  obtain rfl : wa = za' := by rw [hwa] at hza'; injection hza'
  obtain rfl : wb = zb' := by rw [hwb] at hzb'; injection hzb'
  have hlook : List.lookup g.output gc.fHalf = some (tg, te) := by
    rw [hf]; simp [HMap.insert]
  have hcolA := color_carry hla hcara.lab hδi (hcara.eq δ hδ)
  have hcolB := color_carry hlb hcarb.lab hδi (hcarb.eq δ hδ)
  have hWg : ∃ wg, (if Wa.color ≠ 0 then Wire.add E.dbg (hashHalf E Wa (s.j + 1)) tg
        else pure (hashHalf E Wa (s.j + 1))) = .ok wg ∧ IsLabel 2 wg ∧
      ∀ i, zd 2 wg i = zd 2 (hashHalf E Wa (s.j + 1)) i + (if Wa.color ≠ 0 then zd 2 tg i else 0) := by
    by_cases hc : Wa.color ≠ 0
    · simp only [hc, if_true, ne_eq, not_false_eq_true]; exact addZ E.dbg h2 (isLabel_hashHalf _ _ _) hltg
    · simp only [hc, if_false]; exact ⟨_, rfl, isLabel_hashHalf _ _ _, by simp⟩
  obtain ⟨wg, hwg, hlwg, hzwg⟩ := hWg
  obtain ⟨tew, htew, hltew, hztew⟩ := addZ E.dbg h2 hlte hcara.lab
  have hWe : ∃ we, (if Wb.color ≠ 0 then (do Wire.add E.dbg (hashHalf E Wb (s.j + 1)) (← Wire.add E.dbg te Wa))
        else pure (hashHalf E Wb (s.j + 1))) = .ok we ∧ IsLabel 2 we ∧
      ∀ i, zd 2 we i = zd 2 (hashHalf E Wb (s.j + 1)) i +
        (if Wb.color ≠ 0 then zd 2 te i + zd 2 Wa i else 0) := by
    by_cases hc : Wb.color ≠ 0
    · simp only [hc, if_true, ne_eq, not_false_eq_true, htew, okb]
      obtain ⟨c, h1, h2, h3⟩ := addZ E.dbg h2 (isLabel_hashHalf E Wb (s.j + 1)) hltew
      exact ⟨c, h1, h2, fun i => by rw [h3, hztew]⟩
    · simp only [hc, if_false]; exact ⟨_, rfl, isLabel_hashHalf _ _ _, by simp⟩
  obtain ⟨we, hwe, hlwe, hzwe⟩ := hWe
  obtain ⟨C, hC, hlC, hzC⟩ := addZ E.dbg h2 hlwg hlwe
  refine ⟨C, ?_, ?_⟩
  · clear hins hcolA hcolB
    by_cases pa : Wa.color = 0 <;> by_cases pb : Wb.color = 0 <;>
    simp only [ne_eq, pa, pb, not_false_eq_true, not_true_eq_false, if_true, if_false, htew, okb,
      purek, Except.ok.injEq] at hwg hwe <;>
    (try subst hwg) <;> (try subst hwe) <;>
    simp only [evalGate, hk, idxR_ok hia, idxR_ok hib, okb, readInit_ok hWa, readInit_ok hWb,
      HMap.getR_ok hlook, purek, *, ne_eq, pa, pb, not_false_eq_true,
      not_true_eq_false, if_true, if_false]
  rw [hod]
  have hgv : gateValue g (g.inputs.map (vals.getD · 0)) = va * vb := by
    simp [gateValue, hk, hins, List.getD, hva, hvb]
  rw [hgv]
  have hva2 := hcara.vlt
  have hvb2 := hcarb.vlt
  refine ⟨?_, hlC, fun δ' hδ' i => ?_⟩
  · have : va * vb ≤ 1 * 1 := Nat.mul_le_mul (by omega) (by omega)
    omega
  obtain rfl : δ = δ' := by rw [hδ] at hδ'; injection hδ'
  -- the evaluator's labels are one of the two labels
  have eWa : Wa = if va = 1 then wa1 else wa := by
    rcases (by omega : va = 0 ∨ va = 1) with h | h
    · simp only [h, Nat.zero_ne_one, if_false]
      exact label_ext hcara.lab hla (fun i => by rw [hcara.eq δ hδ]; simp [h])
    · simp only [h, if_true]
      exact label_ext hcara.lab hla1 (fun i => by rw [hcara.eq δ hδ, hza1]; simp [h])
  have eWb : Wb = if vb = 1 then wb1 else wb := by
    rcases (by omega : vb = 0 ∨ vb = 1) with h | h
    · simp only [h, Nat.zero_ne_one, if_false]
      exact label_ext hcarb.lab hlb (fun i => by rw [hcarb.eq δ hδ]; simp [h])
    · simp only [h, if_true]
      exact label_ext hcarb.lab hlb1 (fun i => by rw [hcarb.eq δ hδ, hzb1]; simp [h])
  have hpa := color_lt_two hla
  have hpb := color_lt_two hlb
  have key := halfgate_algebra (va = 1) (vb = 1) (wa.color ≠ 0) (wb.color ≠ 0)
    (zd 2 (hashHalf E wa (s.j + 1)) i) (zd 2 (hashHalf E wa1 (s.j + 1)) i)
    (zd 2 (hashHalf E wb (s.j + 1)) i) (zd 2 (hashHalf E wb1 (s.j + 1)) i) (zd 2 wa i) (zd 2 δ i)
  rw [hzC, hzwg, hzwe, hzw, hztg, hzte, hcara.eq δ hδ i, hcolA, hcolB]
  rcases (by omega : va = 0 ∨ va = 1) with h1 | h1 <;>
  rcases (by omega : vb = 0 ∨ vb = 1) with h2 | h2 <;>
  rcases (by omega : wa.color = 0 ∨ wa.color = 1) with h3 | h3 <;>
  rcases (by omega : wb.color = 0 ∨ wb.color = 1) with h4 | h4 <;>
  simp [h1, h2, h3, h4, eWa, eWb] at key ⊢ <;> exact key

end FP
