import Verif.Spec.Projections
import Verif.Proof.Forge
import Verif.Proof.Leak
/-
The rows of projection tables.
-/
namespace FP
open Spec

theorem projected_ok {p : ProjKind} (hp : 0 < p.dom) (x : Nat) : p.project x = .ok (projected p x) ∧ projected p x < p.dom := by
  obtain ⟨y, h1, h2, h3⟩ := project_ok hp x
  have : y = projected p x := by rw [h3]; cases p <;> rfl
  rw [← this]
  exact ⟨h1, h2⟩

theorem fromArray_digit {dbg : Bool} {m : Nat} (hm : GoodDomain m) {d : Domain} (hd : Domain.new m = .ok d) {v : WireBytes}
    {c : Wire} (h : Wire.fromArray dbg v d = .ok c) (j : Nat) : digit c j = digit ⟨d, v⟩ j % m := by
  have hm0 := good_pos hm
  rcases good_cases hm hd with ⟨rfl, rfl⟩ | ⟨h0, h1, h2, rfl⟩ | ⟨rfl, rfl⟩ | ⟨h0, h1, h2, rfl⟩
  · cases h
    rw [Nat.mod_eq_of_lt ((isLabel_two v).lt j)]
  · simp only [Wire.fromArray] at h
    rw [map_ok ⟨.u8 m, v⟩ _ (fun y => y % m) (fun i => remR_ok hm0 _)] at h
    rw [← Except.ok.inj h]
    simp only [dg_u8, Vector.getElem_ofFn, Fin.getElem_fin]
    split
    · rw [BitVec.toNat_ofNat]
      exact Nat.mod_eq_of_lt (lt_of_lt_of_le (Nat.mod_lt _ hm0) (by omega))
    · simp
  · cases h
    rw [Nat.mod_eq_of_lt ((isLabel_256 v).lt j)]
  · simp only [Wire.fromArray] at h
    have e := mapAsU16_ok dbg ⟨.u16 m, v⟩ (fun x => remR x m) (fun y => y % m) (fun i => remR_ok hm0 _) (fun i => by
      have := Nat.mod_lt ((toU16 v)[i].toNat) hm0
      simp only [Wire.dom, Domain.num]; omega)
    rw [e] at h
    rw [← Except.ok.inj h]
    simp only [dg_u16, toU16_ofU16, Vector.getElem_ofFn, Fin.getElem_fin]
    split
    · rw [BitVec.toNat_ofNat]
      exact Nat.mod_eq_of_lt (lt_of_lt_of_le (Nat.mod_lt _ hm0) (by omega))
    · simp

theorem hashWire_digit {E : Env} {o : Nat} {w t h : Wire} {n : Nat} (hn : GoodDomain n) (ht : Domain.new n = .ok t.domain)
    (hh : hashWire E o w t = .ok h) (j : Nat) : digit h j = projPad E.sha256 o w n j := by
  unfold hashWire at hh
  rw [fromArray_digit hn ht hh, projPad, ht, rowBytes_eq]
  rfl

theorem compl_byte (x : BitVec 8) : BitVec.ofNat 8 (255 ^^^ x.toNat) = ~~~ x := by
  apply BitVec.eq_of_getLsbD_eq
  intro i hi
  rw [BitVec.getLsbD_ofNat, BitVec.getLsbD_not, Nat.testBit_xor, BitVec.testBit_toNat]
  have : Nat.testBit 255 i = true := by
    interval_cases i <;> rfl
  rw [this]
  simp [hi]

theorem neg_two {dbg : Bool} {a c : Wire} (ha : IsLabel 2 a) (h : Wire.neg dbg a = .ok c) {j : Nat} (hj : j < 256) :
    digit c j = 1 - digit a j := by
  obtain ⟨d, v⟩ := a
  have : d = .binary := (Except.ok.inj ha.dom).symm
  subst this
  simp only [Wire.neg] at h
  rw [map_ok ⟨.binary, v⟩ _ (fun x => 0xFF ^^^ x) (fun _ => rfl)] at h
  rw [← Except.ok.inj h]
  simp only [dg_bin, dif_pos hj, Vector.getElem_ofFn, Fin.getElem_fin]
  have e := compl_byte v[j / 8]
  rw [e, BitVec.getLsbD_not]
  have : j % 8 < 8 := Nat.mod_lt _ (by decide)
  simp only [this, decide_true, Bool.true_and]
  cases v[j / 8].getLsbD (j % 8) <;> rfl

/-- The zero label of the output of a projection. -/
theorem garbleProj_zero {E : Env} {dl : HMap Nat Wire} {wires : List Wire} {g : Gate} {p : ProjKind}
    {a : Nat} {z δm δn : Wire} (hm : GoodDomain g.domain) (hn : GoodDomain p.dom)
    (hins : g.inputs[0]? = some a) (hz : wires[a]? = some z) (hlz : IsLabel g.domain z)
    (hδm : List.lookup g.domain dl = some δm) (hδmi : IsDelta g.domain δm)
    (hδn : List.lookup p.dom dl = some δn) (hδni : IsDelta p.dom δn) {w : Wire} {tbl : List Wire}
    (hok : garbleProj E dl wires g p = .ok (w, tbl)) {X : Wire} (hX : IsLabel g.domain X)
    (hXz : ∀ i, zd g.domain X i = zd g.domain z i + (((g.domain - z.color) % g.domain : Nat) : ZMod g.domain) * zd g.domain δm i) :
    (p.dom ≠ 2 → ∀ j, (digit w j + projPad E.sha256 g.output X p.dom j +
      projected p (g.domain - z.color) * digit δn j) % p.dom = 0) ∧
    (p.dom = 2 → ∀ j, j < 256 → (digit w j + projPad E.sha256 g.output X p.dom j +
      projected p (g.domain - z.color) * digit δn j) % p.dom = 1) := by
  have hm0 := good_pos hm
  have hcol : z.color < g.domain := by rw [color_eq]; exact hlz.lt _
  obtain ⟨dc, hdc, hldc, hzdc⟩ := mulZ E.dbg hm hδmi.dom hcol
  obtain ⟨s1, hs1, hls1, hzs1⟩ := subZ E.dbg hm hlz hldc
  obtain ⟨h1, hh1, hlh1⟩ := hashWire_ok E g.output s1 hn hδni.dom
  obtain ⟨hyc, hyclt⟩ := projected_ok (good_pos hn) (g.domain - z.color)
  obtain ⟨dn0, hdn0, hldn0, hzdn0⟩ := mulZ E.dbg hn hδni.dom hyclt
  obtain ⟨w0, hw0, hlw0, hzw0⟩ := addZ E.dbg hn hlh1 hldn0
  obtain ⟨w', hw, hlw', hdw'⟩ := neg_ok E.dbg hn hlw0
  have hww : w' = w := by
    simp only [garbleProj, idxR_ok hins, idxR_ok hz, HMap.getR_ok hδm, HMap.getR_ok hδn, okb, hdc,
      hs1, hh1, subR_ok E.dbg hcol.le, hyc, hdn0, hw0, hw] at hok
    revert hok
    generalize (List.foldlM _ _ _ : R (List Wire)) = r
    intro hok
    cases r with
    | error e => cases hok
    | ok r =>
      injection hok with hok
      injection hok
  subst hww
  have hXs : X = s1 := by
    refine label_ext hX hls1 fun i => ?_
    rw [hXz, hzs1, hzdc, ZMod.natCast_mod, Nat.cast_sub hcol.le, ZMod.natCast_self]; ring
  subst hXs
  have hpad : ∀ j, digit h1 j = projPad E.sha256 g.output X p.dom j := hashWire_digit hn hδni.dom hh1
  have hw0d : ∀ j, ((digit w0 j : Nat) : ZMod p.dom) = ((projPad E.sha256 g.output X p.dom j +
      projected p (g.domain - z.color) * digit δn j : Nat) : ZMod p.dom) := by
    intro j
    have e1 := hzw0 j
    have e2 := hzdn0 j
    unfold zd at e1 e2
    rw [e1, e2, hpad]
    push_cast
    rfl
  constructor
  · intro h2 j
    have e : ((digit w' j + projPad E.sha256 g.output X p.dom j +
        projected p (g.domain - z.color) * digit δn j : Nat) : ZMod p.dom) = 0 := by
      rw [add_assoc, Nat.cast_add, ← hw0d j, hdw' h2 j, ZMod.natCast_mod, Nat.cast_sub (hlw0.lt j).le, ZMod.natCast_self]
      ring
    have := (ZMod.natCast_eq_zero_iff _ _).mp e
    exact Nat.mod_eq_zero_of_dvd this
  · intro h2 j hj
    have e3 : digit w' j = 1 - digit w0 j := neg_two (h2 ▸ hlw0) hw hj
    have e4 := hw0d j
    rw [ZMod.natCast_eq_natCast_iff'] at e4
    have e5 := hlw0.lt j
    rw [h2] at e4 e5 ⊢
    omega

/-- The tables belong to projections. -/
theorem f_keys {E : Env} {rnd : GarbleRand} {c : Circuit} {run : GarbleRun} (h : garbleRun E rnd c = .ok run) :
    run.state.f.map Prod.fst = ((c.gates.filter isProj).map Gate.output).reverse := by
  obtain ⟨ws, -, -, -, -, h⟩ := garbleRun_parts h
  have key : ∀ (gs : List Gate) (s t : GarbleState), gs.foldlM (fun s g => do
      garbleDecoding E run.delta run.outputsStartAt (← garbleGate E run.delta s g) g) s = .ok t →
      t.f.map Prod.fst = ((gs.filter isProj).map Gate.output).reverse ++ s.f.map Prod.fst := by
    intro gs
    induction gs with
    | nil => intro s t h; cases h; simp
    | cons g gs ih =>
      intro s t h
      rw [List.foldlM_cons] at h
      obtain ⟨u, g1, g2⟩ := bind_inv h
      obtain ⟨v, g3, g4⟩ := bind_inv g1
      have e1 : u.f = v.f := by
        unfold garbleDecoding at g4
        split at g4
        · obtain ⟨vs, -, h⟩ := bind_inv g4
          cases h; rfl
        · cases g4; rfl
      have e2 : v.f.map Prod.fst = (if isProj g then [g.output] else []) ++ s.f.map Prod.fst := by
        unfold garbleGate at g3
        unfold isProj
        split at g3 <;> rename_i hk <;> simp only [hk]
        · obtain ⟨vs, -, h⟩ := bind_inv g3
          obtain ⟨w, -, h⟩ := bind_inv h
          cases h; rfl
        · obtain ⟨i, -, h⟩ := bind_inv g3
          obtain ⟨w, -, h⟩ := bind_inv h
          obtain ⟨w', -, h⟩ := bind_inv h
          cases h; rfl
        · obtain ⟨⟨w, t⟩, -, h⟩ := bind_inv g3
          cases h; rfl
        · obtain ⟨⟨w, t⟩, -, h⟩ := bind_inv g3
          cases h; rfl
      rw [ih u t g2, e1, e2]
      cases hp : isProj g <;> simp [List.filter_cons, hp]
  have := key _ _ _ h
  simpa using this

theorem lookup_isSome {α β : Type} [BEq α] [LawfulBEq α] (l : List (α × β)) (a : α) :
    (List.lookup a l).isSome = true ↔ a ∈ l.map Prod.fst := by
  induction l with
  | nil => simp
  | cons p l ih =>
    obtain ⟨k, v⟩ := p
    rw [List.lookup_cons]
    by_cases h : a = k
    · subst h; simp
    · have : (a == k) = false := by simp [h]
      rw [this]
      simp only [ih, List.map_cons, List.mem_cons, h, false_or]

end FP
