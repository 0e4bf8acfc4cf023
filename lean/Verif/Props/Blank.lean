import Verif.Proof.Blank
import Verif.Proof.Forge
import Verif.Proof.Tables
import Verif.Props.Garbles
import Verif.Proof.Witness
/-
C80: rows of projection tables that are left blank.
-/
namespace FP.Props
open FP.Spec

theorem fresh_color {m : Nat} (hm : m ≠ 0) {raw : WireBytes} {z : Wire} (h : Wire.new m raw = .ok z) : z.color < m := by
  unfold Wire.new at h
  obtain ⟨D, hD, h⟩ := bind_inv h
  unfold Domain.new at hD
  rw [if_neg hm] at hD
  split at hD
  · cases hD; cases h
    have : (raw[31] &&& 1 : Byte).toNat ≤ 1 := by rw [BitVec.toNat_and]; exact Nat.and_le_right
    simp only [Wire.color]; omega
  split at hD
  · cases hD; cases h
    simp only [Wire.color, Vector.getElem_ofFn, BitVec.toNat_ofNat]
    exact Nat.lt_of_le_of_lt (Nat.mod_le _ _) (Nat.mod_lt _ (by omega))
  split at hD
  · cases hD; cases h
    simp only [Wire.color]; omega
  split at hD
  · cases hD; cases h
    rw [words_color, BitVec.toNat_ofNat]
    exact Nat.lt_of_le_of_lt (Nat.mod_le _ _) (Nat.mod_lt _ (by omega))
  · cases hD

/-- What is in a garbled projection. -/
theorem projection_parts {E : Env} {rnd : GarbleRand} {m : Nat} {p : ProjKind} {gc : GarbledCircuit} {e : EncodingKey} {d : DecodingKey}
    (h : garble E rnd (projectionCircuit m p) = .ok (gc, e, d)) :
    ∃ z w tbl, e.wires = [z] ∧ Wire.new m (rnd.input 0) = .ok z ∧ garbleDeltas rnd (projectionCircuit m p) = .ok e.delta ∧
      garbleProj E e.delta [z] ⟨1, m, [0], .proj p⟩ p = .ok (w, tbl) ∧ List.lookup 1 gc.f = some tbl := by
  unfold garble at h
  obtain ⟨run, hrun, h'⟩ := bind_inv h
  obtain ⟨rfl, h''⟩ := Prod.mk.inj (Except.ok.inj h')
  obtain ⟨rfl, -⟩ := Prod.mk.inj h''
  clear h h' h''
  obtain ⟨ws, h1, h2, h3, h4, h5⟩ := garbleRun_parts hrun
  have h2' : (do let z ← Wire.new m (rnd.input 0); pure [z] : R (List Wire)) = .ok ws := h2
  obtain ⟨z, hz, hws⟩ := bind_inv h2'
  obtain rfl := Except.ok.inj hws
  have h3' : run.encWires = [z] := (Except.ok.inj h3).symm
  simp only [projectionCircuit, List.foldlM_cons] at h5
  obtain ⟨s, h6, h7⟩ := bind_inv h5
  obtain ⟨s1, h8, h9⟩ := bind_inv h6
  obtain ⟨d', hd'⟩ := decoding_frame h9
  have hs : run.state = s := (Except.ok.inj h7).symm
  unfold garbleGate at h8
  dsimp only at h8
  obtain ⟨⟨w, tbl⟩, h10, h11⟩ := bind_inv h8
  obtain rfl := Except.ok.inj h11
  refine ⟨z, w, tbl, h3', hz, h1, h10, ?_⟩
  show List.lookup 1 run.state.f = some tbl
  rw [hs, hd']
  rfl

/-- C80: exactly which rows are filled.  In any build, if a projection of an input of `m` values is garbled, its table has `m`
rows.  With `c` the colour of the zero label of the input, the rows `r` with `65536 - m ≤ r`, `m + c - 65536 ≤ r` and `r < c`
are left blank, and each other row holds a ciphertext marked with the number of values of the projection. -/
theorem C80_rows (E : Env) (rnd : GarbleRand) (m : Nat) (hm : m ≠ 0) (p : ProjKind) (gc : GarbledCircuit) (e : EncodingKey)
    (d : DecodingKey) (h : garble E rnd (projectionCircuit m p) = .ok (gc, e, d)) :
    ∃ z tbl, e.wires = [z] ∧ z.color < m ∧ List.lookup 1 gc.f = some tbl ∧ tbl.length = m ∧ ∀ r < m,
      (LeftBlank m z.color r → tbl[r]? = some blank) ∧
      (¬ LeftBlank m z.color r → ∃ w, tbl[r]? = some w ∧ Domain.new p.dom = .ok w.domain) := by
  have hg := C77_any_build E rnd _ (by simp [projectionCircuit]) (by simp [projectionCircuit]) gc e d h
  have hm' : m < 65535 := hg.inputDomains m (by simp [projectionCircuit])
  obtain ⟨z, w, tbl, h1, h2, h3, h4, h5⟩ := projection_parts h
  have hc := fresh_color hm h2
  obtain ⟨-, h6, h7⟩ := (garbleProj_rows E ((garbleDeltas_dom rnd _).out _ h3) [z] ⟨1, m, [0], .proj p⟩ p 0 z rfl rfl).out _ h4
  refine ⟨z, tbl, h1, hc, h5, h6, fun r hr => ⟨fun hb => ?_, fun hb => ?_⟩⟩
  · exact (h7 r hr).2 fun hx => (reached_iff (by omega) hc hr).mp hx hb
  · exact (h7 r hr).1 ((reached_iff (by omega) hc hr).mpr hb)

/-- C80: so there is no blank row exactly if the colour of the zero label is at most `65536 - m`. -/
theorem C80_full_iff (m c : Nat) (hm : m < 65536) (hc : c < m) : (∀ r < m, ¬ LeftBlank m c r) ↔ c ≤ 65536 - m := by
  unfold LeftBlank
  constructor
  · intro h
    by_contra hn
    exact h (c - 1) (by omega) ⟨by omega, by omega, by omega⟩
  · intro h r hr hb; omega

example := C80_full_iff 40000 30000 (by meets) (by meets)

/-- C80: projections of inputs of up to 32768 values have no blank rows, whatever is drawn. -/
theorem C80_small (E : Env) (rnd : GarbleRand) (m : Nat) (hm : m ≠ 0) (hs : m ≤ 32768) (p : ProjKind) (gc : GarbledCircuit)
    (e : EncodingKey) (d : DecodingKey) (h : garble E rnd (projectionCircuit m p) = .ok (gc, e, d)) :
    ∃ tbl, List.lookup 1 gc.f = some tbl ∧ tbl.length = m ∧ ∀ w ∈ tbl, Domain.new p.dom = .ok w.domain := by
  obtain ⟨z, tbl, h1, h2, h3, h4, h5⟩ := C80_rows E rnd m hm p gc e d h
  refine ⟨tbl, h3, h4, fun w hw => ?_⟩
  obtain ⟨r, hr, he⟩ := List.mem_iff_getElem.mp hw
  obtain ⟨w', h6, h7⟩ := (h5 r (by omega)).2 ((C80_full_iff m _ (by omega) h2).mpr (by omega) r (by omega))
  rw [List.getElem?_eq_getElem hr, he] at h6
  rw [Option.some.inj h6]; exact h7

/-- C80: a build with checks returns no table with a blank row: it panics instead. -/
theorem C80_checked (E : Env) (hd : E.dbg = true) (rnd : GarbleRand) (m : Nat) (hm : m ≠ 0) (p : ProjKind) (gc : GarbledCircuit)
    (e : EncodingKey) (d : DecodingKey) (h : garble E rnd (projectionCircuit m p) = .ok (gc, e, d)) :
    ∃ z tbl, e.wires = [z] ∧ z.color ≤ 65536 - m ∧ List.lookup 1 gc.f = some tbl ∧ tbl.length = m ∧
      ∀ w ∈ tbl, Domain.new p.dom = .ok w.domain := by
  obtain ⟨z, w, tbl, h1, h2, h3, h4, h5⟩ := projection_parts h
  obtain ⟨z', tbl', h1', h2', h3', h4', h5'⟩ := C80_rows E rnd m hm p gc e d h
  have hg := C77_any_build E rnd _ (by simp [projectionCircuit]) (by simp [projectionCircuit]) gc e d h
  have hm' : m < 65535 := hg.inputDomains m (by simp [projectionCircuit])
  obtain ⟨h6, -⟩ := (garbleProj_rows E ((garbleDeltas_dom rnd _).out _ h3) [z] ⟨1, m, [0], .proj p⟩ p 0 z rfl rfl).out _ h4
  rw [h1] at h1'
  obtain rfl : z = z' := (List.cons.inj h1').1
  have h7 := h6 hd (m - 1) (by show m - 1 < m; omega)
  have hcol : z.color ≤ 65536 - m := by omega
  refine ⟨z, tbl', h1, hcol, h3', h4', fun w hw => ?_⟩
  obtain ⟨r, hr, he⟩ := List.mem_iff_getElem.mp hw
  obtain ⟨w', h6, h7⟩ := (h5' r (by omega)).2 ((C80_full_iff m _ (by omega) h2').mpr hcol r (by omega))
  rw [List.getElem?_eq_getElem hr, he] at h6
  rw [Option.some.inj h6]; exact h7

theorem foldl_max_le (l : List (Wire × Nat)) : ∀ n b : Nat, n ≤ b → (∀ q ∈ l, q.2 + 1 ≤ b) →
    l.foldl (fun n q => max n (q.2 + 1)) n ≤ b := by
  induction l with
  | nil => exact fun n b h _ => h
  | cons q l ih =>
    intro n b h hl
    exact ih _ _ (Nat.max_le.mpr ⟨h, hl q (by simp)⟩) fun q' hq' => hl q' (by simp [hq'])

theorem le_foldl_max (l : List (Wire × Nat)) : ∀ n : Nat, n ≤ l.foldl (fun n q => max n (q.2 + 1)) n ∧
    ∀ q ∈ l, q.2 + 1 ≤ l.foldl (fun n q => max n (q.2 + 1)) n := by
  induction l with
  | nil => exact fun n => ⟨le_rfl, fun q hq => by cases hq⟩
  | cons q l ih =>
    intro n
    obtain ⟨h1, h2⟩ := ih (max n (q.2 + 1))
    refine ⟨le_trans (Nat.le_max_left _ _) h1, fun q' hq' => ?_⟩
    rcases List.mem_cons.mp hq' with rfl | hq'
    · exact le_trans (Nat.le_max_right _ _) h1
    · exact h2 q' hq'

theorem aboveBlank_eq {tbl : List Wire} {c : Nat} (hc : 0 < c) (h1 : tbl[c - 1]? = some blank)
    (h2 : ∀ r, c ≤ r → tbl[r]? ≠ some blank) : aboveBlank tbl = c := by
  unfold aboveBlank
  apply Nat.le_antisymm
  · refine foldl_max_le _ _ _ (by omega) fun q hq => ?_
    simp only [List.mem_filter, decide_eq_true_eq] at hq
    obtain ⟨hq1, hq2⟩ := hq
    have hq3 := (List.mk_mem_zipIdx_iff_getElem? (x := q.1) (i := q.2)).mp hq1
    by_contra hn
    exact h2 q.2 (by omega) (by rw [hq3, hq2])
  · have := (le_foldl_max (tbl.zipIdx.filter fun p => decide (p.1 = blank)) 0).2 (blank, c - 1) (by
      simp only [List.mem_filter, decide_eq_true_eq, and_true]
      exact List.mk_mem_zipIdx_iff_getElem?.mpr h1)
    omega

/-- C80, and why that matters: the blank rows give away the colour of the zero label, and with it the input.  In a build
without checks, for more than two values of the projection: if the colour is above `65536 - m`, it is the place above the
last blank row, and the value of the input is one of two that are computed from this and the colour of the label the
evaluator is given. -/
theorem C80_fails_hidden (E : Env) (hd : E.dbg = false) (rnd : GarbleRand) (m : Nat) (hm : 32768 < m) (p : ProjKind) (hp : p.dom ≠ 2)
    (gc : GarbledCircuit) (e : EncodingKey) (d : DecodingKey) (h : garble E rnd (projectionCircuit m p) = .ok (gc, e, d))
    (x : Nat) (hx : x < m) :
    ∃ z w tbl, e.wires = [z] ∧ List.lookup 1 gc.f = some tbl ∧ e.encode E.dbg [x] = .ok [w] ∧
      (65536 - m < z.color → aboveBlank tbl = z.color ∧
        (x = (w.color + (m - aboveBlank tbl)) % m ∨ x = w.color + (65536 - aboveBlank tbl))) := by
  have hg := C77_any_build E rnd _ (by simp [projectionCircuit]) (by simp [projectionCircuit]) gc e d h
  have hm' : m < 65535 := hg.inputDomains m (by simp [projectionCircuit])
  have hD : Domain.new m = .ok (.u16 m) := by
    unfold Domain.new
    rw [if_neg (by omega), if_neg (by omega), if_neg (by omega), if_neg (by omega), if_pos hm']
  obtain ⟨z, w0, tbl, h1, h2, h3, h4, h5⟩ := projection_parts h
  obtain ⟨z', tbl', h1', h2', h3', h4', h5'⟩ := C80_rows E rnd m (by omega) p gc e d h
  rw [h1] at h1'
  obtain rfl : z = z' := (List.cons.inj h1').1
  rw [h5] at h3'
  obtain rfl := Option.some.inj h3'
  have hz : z.domain = .u16 m := by
    have := (new_post m (rnd.input 0)).out _ h2
    rw [hD] at this
    exact (Except.ok.inj this).symm
  obtain ⟨X, hX⟩ := (C77_encode E hd rnd _ gc e d h [x]).mpr fun i m' hi hi' hm'' => by
    have : i = 0 := by simp only [projectionCircuit] at hi; omega
    subst this
    have : m' = m := (Option.some.inj hm'').symm
    subst this
    exact ⟨⟨1, m', [0], .proj p⟩, by simp [projectionCircuit], .inl rfl⟩
  have hX' := hX
  unfold EncodingKey.encode at hX
  rw [hd, dassert_off, okb, h1] at hX
  have hX2 : (do let y ← (do Wire.add false z (← Wire.mul false (← e.delta.getR z.dom) x)); pure [y] : R (List Wire)) = .ok X := hX
  obtain ⟨y, hy, hX3⟩ := bind_inv hX2
  obtain ⟨δ, hδ, hy⟩ := bind_inv hy
  have hδ' := (getR_post _ _).out _ hδ
  have hzd : z.dom = m := by unfold Wire.dom; rw [hz]; rfl
  rw [hzd] at hδ'
  have hδd : δ.domain = .u16 m := by
    have := (garbleDeltas_dom rnd _).out _ h3 _ _ hδ'
    rw [hD] at this
    exact (Except.ok.inj this).symm
  have hδ1 : δ.color = 1 := by
    have := (garbleDeltas_raw rnd _).out _ h3 _ _ hδ'
    unfold Wire.delta at this
    obtain ⟨w1, hw1, hw2⟩ := bind_inv this
    have hw3 : w1.domain = .u16 m := by
      have := (new_post m (rnd.delta m)).out _ hw1
      rw [hD] at this
      exact (Except.ok.inj this).symm
    rw [hw3] at hw2
    have := Except.ok.inj hw2
    rw [← this]
    simp [Wire.color, toU16_ofU16, hw3]
  obtain ⟨dx, hh, e1, e2, e3⟩ := encoded_color hz hδd hδ1 hx (by omega)
  rw [e1, okb, e2] at hy
  obtain rfl := Except.ok.inj hy
  obtain rfl := Except.ok.inj hX3
  refine ⟨z, hh, tbl, h1, h5, hX', fun hbig => ?_⟩
  have habove : aboveBlank tbl = z.color := by
    refine aboveBlank_eq (by omega) ((h5' _ (by omega)).1 ⟨by omega, by omega, by omega⟩) fun r hr he => ?_
    by_cases hrm : r < m
    · obtain ⟨w, hw1, hw2⟩ := (h5' r hrm).2 fun hb => by unfold LeftBlank at hb; omega
      rw [he] at hw1
      rw [← Option.some.inj hw1] at hw2
      unfold Domain.new at hw2
      split at hw2
      · cases hw2
      split at hw2
      · cases hw2
      split at hw2
      · cases hw2
      split at hw2 <;> cases hw2
    · rw [List.getElem?_eq_none (by omega)] at he; cases he
  refine ⟨habove, ?_⟩
  rw [habove, e3]
  by_cases hw : x + z.color < 65536
  · left
    rw [Nat.mod_eq_of_lt hw, Nat.mod_add_mod]
    have : x + z.color + (m - z.color) = x + m := by omega
    rw [this, Nat.add_mod_right, Nat.mod_eq_of_lt hx]
  · right
    have e1 : (x + z.color) % 65536 = x + z.color - 65536 := by omega
    rw [e1, Nat.mod_eq_of_lt (by omega)]; omega

/-- Every build without checks garbles projections of every input of up to 65534 values. -/
example (E : Env) (hd : E.dbg = false) (rnd : GarbleRand) (m n : Nat) (hm : m < 65535) (hn : n ≠ 0) (hn' : n < 65535) :
    ∃ gc e d, garble E rnd (projectionCircuit m (.map n)) = .ok (gc, e, d) := by
  refine (C77_release E hd rnd _ (by simp [projectionCircuit]) (by simp [projectionCircuit])).mpr ⟨?_, ?_, ?_, ?_⟩
  · rintro m' ⟨g, hg, h⟩
    simp only [projectionCircuit, List.mem_singleton] at hg
    subst hg
    rcases h with h | ⟨p, hp, h⟩
    · exact h ▸ hm
    · cases hp; exact h ▸ hn'
  · intro m' hm'
    simp only [projectionCircuit, List.mem_singleton] at hm'
    exact hm' ▸ hm
  · simp [projectionCircuit]
  · intro k g hg
    have hk : k = 0 := by
      by_contra hk
      rw [projectionCircuit, List.getElem?_eq_none (by simp; omega)] at hg; cases hg
    subst hk
    obtain rfl := Option.some.inj hg
    exact ⟨⟨⟨0, rfl, by simp [projectionCircuit]⟩, hn⟩, fun _ _ => by simp [projectionCircuit]⟩

/-- Draws whose colour is above `65536 - m` exist for every `m` above 32768: the label of colour `m - 1`. -/
example (m : Nat) (hm : 32768 < m) (hm' : m < 65535) :
    ∃ z, Wire.new m (ofU16 (Vector.replicate 16 (BitVec.ofNat 16 (m - 1)))) = .ok z ∧ 65536 - m < z.color := by
  have hD : Domain.new m = .ok (.u16 m) := by
    unfold Domain.new
    rw [if_neg (by omega), if_neg (by omega), if_neg (by omega), if_neg (by omega), if_pos hm']
  unfold Wire.new
  rw [hD, okb]
  refine ⟨_, rfl, ?_⟩
  rw [words_color, toU16_ofU16]
  simp only [Fin.getElem_fin, Vector.getElem_replicate, BitVec.toNat_ofNat]
  rw [Nat.mod_eq_of_lt (show m - 1 < 2 ^ 16 by omega), Nat.mod_eq_of_lt (show m - 1 < m by omega),
    Nat.mod_eq_of_lt (show m - 1 < 2 ^ 16 by omega)]
  omega

end FP.Props
