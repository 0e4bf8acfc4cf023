import Verif.Proof.Projections
import Verif.Proof.TrafficGarble
import Verif.Props.Tables
import Verif.Proof.WitnessRun
import Verif.Proof.Witness
/-
C76: the tables of projection gates.
-/
namespace FP.Props
open FP.Spec

/-- C76: there is a table exactly for each projection.  It has one row for each value of the input wire: at the place given
by the colour of the label for `x` stands the sum of the label for the projected value of `x` and a pad, the hash of the
number of the output wire and the label for `x`. -/
theorem C76_rows (E : Env) (rnd : GarbleRand) (c : Circuit) (hc : WellTyped c) (gc : GarbledCircuit) (e : EncodingKey)
    (d : DecodingKey) (h : garble E rnd c = .ok (gc, e, d)) :
    ∃ run, garbleRun E rnd c = .ok run ∧
      (∀ o, (List.lookup o gc.f).isSome = true ↔ ∃ g ∈ c.gates, isProj g = true ∧ g.output = o) ∧
      ∀ g ∈ c.gates, ∀ p, g.kind = .proj p → ∃ a tbl, g.inputs = [a] ∧ List.lookup g.output gc.f = some tbl ∧
        tbl.length = g.domain ∧ ∀ x wx wo, LabelIn run a g.domain x wx → LabelIn run g.output p.dom (projected p x) wo →
          ∃ row, tbl[wx.color]? = some row ∧ IsLabel p.dom row ∧
            ∀ j, digit row j = (projPad E.sha256 g.output wx p.dom j + digit wo j) % p.dom := by
  obtain ⟨run, hr, hok⟩ := garbleRun_ok E rnd hc
  rw [garble_of_run hr] at h
  obtain ⟨rfl, -⟩ := Prod.mk.inj (Except.ok.inj h)
  refine ⟨run, hr, fun o => ?_, fun g hg p hk => ?_⟩
  · rw [lookup_isSome, f_keys hr]
    simp only [List.mem_reverse, List.mem_map, List.mem_filter]
    exact ⟨fun ⟨g, ⟨h1, h2⟩, h3⟩ => ⟨g, h1, h2, h3⟩, fun ⟨g, h1, h2, h3⟩ => ⟨g, ⟨h1, h2⟩, h3⟩⟩
  obtain ⟨doms', Z, w, tbl, hgok, hlab, hpre, hgp, hw, hlook⟩ := run_tables hc hr hg hk
  have hlen : g.inputs.length = 1 := by have := hgok.arity; rw [hk] at this; exact this
  obtain ⟨a, hins⟩ := List.length_eq_one_iff.mp hlen
  have hin : doms'[a]? = some g.domain := hgok.inputs a (by simp [hins])
  obtain ⟨z, hz, hlz⟩ := hlab.lab _ _ hin
  have hod : g.outputDomain = p.dom := by simp [Gate.outputDomain, hk]
  have hn : GoodDomain p.dom := hod ▸ hgok.range
  obtain ⟨δm, hδm, hδmi⟩ := hok.deltas _ ⟨g, hg, .inl rfl⟩
  obtain ⟨δ, hδ, hδi⟩ := hok.deltas _ ⟨g, hg, .inr ⟨p, hk, rfl⟩⟩
  obtain ⟨w', tbl', hgp', hlw, hrows⟩ := garbleProj_ok (E := E) hgok.domain hn (by simp [hins]) hz hlz hδm hδmi hδ hδi
  rw [hgp] at hgp'
  obtain ⟨rfl, rfl⟩ := Prod.mk.inj (Except.ok.inj hgp')
  have hcol : z.color < g.domain := by rw [color_eq]; exact hlz.lt _
  have hsmall : g.domain ≤ 32768 := by have := hgok.domain; unfold GoodDomain at this; omega
  have htl : tbl.length = g.domain := by
    obtain ⟨ws, hdl, -⟩ := garbleRun_parts hr
    refine ((garbleProj_dom E ((garbleDeltas_dom rnd c).out _ hdl) Z g p (.inr ⟨hsmall, fun i hi w hw => ?_⟩)).out _ hgp).2.1
    rw [hins] at hi
    simp only [List.head?_cons, Option.mem_some_iff] at hi
    subst hi
    rw [hz] at hw
    rw [← Option.some.inj hw]; exact hcol
  refine ⟨a, tbl, hins, hlook, htl, fun x wx wo hx ho => ?_⟩
  obtain ⟨z1, δ1, a1, -, a3, a4, a5⟩ := hx
  obtain ⟨z2, δ2, b1, -, b3, b4, b5⟩ := ho
  rw [hpre _ (List.getElem?_eq_some_iff.mp hin).1, hz] at a1
  obtain rfl := Option.some.inj a1
  rw [hδm] at a3
  obtain rfl := Option.some.inj a3
  rw [hw] at b1
  obtain rfl := Option.some.inj b1
  rw [hδ] at b3
  obtain rfl := Option.some.inj b3
  obtain ⟨X, hh, y, cph, c1, c2, c3, c4, c5, c6, c7, c8⟩ := hrows x a4
  have hzx : ∀ j, zd g.domain wx j = zd g.domain z j + x * zd g.domain δm j := fun j => by
    unfold zd
    rw [a5.eq j, ZMod.natCast_mod]; push_cast; rfl
  have hX : X = wx := label_ext c1 a5.label fun j => by rw [c2, hzx]
  subst hX
  have hy : y = projected p x := by
    rw [(projected_ok (good_pos hn) x).1] at c5
    exact (Except.ok.inj c5).symm
  subst hy
  rw [color_carry hlz c1 hδmi c2]
  refine ⟨cph, c6, c7, fun j => ?_⟩
  have e1 := c8 j
  unfold zd at e1
  rw [← Nat.mod_eq_of_lt (c7.lt j), ← hashWire_digit hn hlw.dom c3, b5.eq j]
  have : ((digit cph j : Nat) : ZMod p.dom) = ((digit hh j + (digit w j + projected p x * digit δ j) : Nat) : ZMod p.dom) := by
    rw [e1]; push_cast; ring
  rw [ZMod.natCast_eq_natCast_iff'] at this
  rw [this, Nat.add_mod_mod]

example := C76_rows (toyEnv true) Witness.rand exCircuit (by meets) _ _ _ (Witness.garbled true)

/-- C76: the zero label of the output of a projection.  With `c` the colour of the zero label of the input, `w` the label of
colour zero of the input wire and `δ` the delta of the range, it is the negative of the pad of `w` plus `δ` times the projected
value of `domain - c`, except that for ranges of two values its complement is taken instead of the negative. -/
theorem C76_zero_label (E : Env) (rnd : GarbleRand) (c : Circuit) (hc : WellTyped c) (run : GarbleRun)
    (hr : garbleRun E rnd c = .ok run) (g : Gate) (hg : g ∈ c.gates) (p : ProjKind) (hk : g.kind = .proj p) :
    ∃ a z δ o, g.inputs = [a] ∧ run.state.wires[a]? = some z ∧ List.lookup p.dom run.delta = some δ ∧
      run.state.wires[g.output]? = some o ∧ ∀ w, LabelIn run a g.domain ((g.domain - z.color) % g.domain) w → w.color = 0 ∧
      ∀ j, (p.dom ≠ 2 → (digit o j + projPad E.sha256 g.output w p.dom j +
          projected p (g.domain - z.color) * digit δ j) % p.dom = 0) ∧
        (p.dom = 2 → j < 256 → (digit o j + projPad E.sha256 g.output w p.dom j +
          projected p (g.domain - z.color) * digit δ j) % p.dom = 1) := by
  obtain ⟨run0, hr0, hok⟩ := garbleRun_ok E rnd hc
  rw [hr] at hr0
  obtain rfl := Except.ok.inj hr0
  obtain ⟨doms', Z, w, tbl, hgok, hlab, hpre, hgp, hw, hlook⟩ := run_tables hc hr hg hk
  have hlen : g.inputs.length = 1 := by have := hgok.arity; rw [hk] at this; exact this
  obtain ⟨a, hins⟩ := List.length_eq_one_iff.mp hlen
  have hin : doms'[a]? = some g.domain := hgok.inputs a (by simp [hins])
  obtain ⟨z, hz, hlz⟩ := hlab.lab _ _ hin
  have hod : g.outputDomain = p.dom := by simp [Gate.outputDomain, hk]
  have hn : GoodDomain p.dom := hod ▸ hgok.range
  obtain ⟨δm, hδm, hδmi⟩ := hok.deltas _ ⟨g, hg, .inl rfl⟩
  obtain ⟨δ, hδ, hδi⟩ := hok.deltas _ ⟨g, hg, .inr ⟨p, hk, rfl⟩⟩
  have hz' : run.state.wires[a]? = some z := by rw [hpre _ (List.getElem?_eq_some_iff.mp hin).1]; exact hz
  refine ⟨a, z, δ, w, hins, hz', hδ, hw, fun X hX => ?_⟩
  obtain ⟨z1, δ1, a1, -, a3, a4, a5⟩ := hX
  rw [hz'] at a1
  obtain rfl := Option.some.inj a1
  rw [hδm] at a3
  obtain rfl := Option.some.inj a3
  have hzx : ∀ j, zd g.domain X j = zd g.domain z j + (((g.domain - z.color) % g.domain : Nat) : ZMod g.domain) * zd g.domain δm j :=
    fun j => by
      unfold zd
      rw [a5.eq j, ZMod.natCast_mod]; push_cast; rfl
  have hcol : z.color < g.domain := by rw [color_eq]; exact hlz.lt _
  obtain ⟨h1, h2⟩ := garbleProj_zero hgok.domain hn (by simp [hins]) hz hlz hδm hδmi hδ hδi hgp a5.label hzx
  refine ⟨?_, fun j => ⟨fun h => h1 h j, fun h hj => h2 h j hj⟩⟩
  rw [color_carry hlz a5.label hδmi hzx, Nat.mod_add_mod, Nat.sub_add_cancel hcol.le, Nat.mod_self]

example := C76_zero_label (toyEnv true) Witness.rand exCircuit (by meets) _ (Witness.run_eq true) ⟨4, 2, [3], .proj (.map 5)⟩ (by simp [exCircuit]) _ rfl

/-- C76: the pads of different projections hash different strings, and so do those of different rows of one. -/
theorem C76_no_reuse (o o' : Nat) (ho : o < 2 ^ 64) (ho' : o' < 2 ^ 64) (w w' : Wire) (h : o ≠ o' ∨ w.values ≠ w'.values) :
    rowBytes o ++ w.values.toList ≠ rowBytes o' ++ w'.values.toList := by
  intro e
  have hl : (rowBytes o).length = (rowBytes o').length := by simp [rowBytes]
  obtain ⟨e1, e2⟩ := List.append_inj e hl
  rcases h with h | h
  · exact h (rowBytes_inj ho ho' e1)
  · exact h (Vector.toList_inj.mp e2)

/-- The example circuit, which has a projection, meets the hypotheses: it is well formed and is garbled. -/
example (E : Env) (rnd : GarbleRand) : WellTyped exCircuit ∧ (∃ gc e d, garble E rnd exCircuit = .ok (gc, e, d)) ∧
    ∃ g ∈ exCircuit.gates, isProj g = true := by
  obtain ⟨run, hr, -⟩ := garbleRun_ok E rnd exCircuit_wellTyped
  exact ⟨exCircuit_wellTyped, ⟨_, _, _, garble_of_run hr⟩, by decide⟩

end FP.Props
