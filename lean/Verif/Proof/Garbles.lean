import Verif.Spec.Garbles
import Verif.Proof.Shape
import Verif.Proof.TrafficGarble
/-
When garbling returns.
-/
namespace FP
open Spec

/-- A computation that returns, with a result that satisfies `P`. -/
def Tot {α : Type} (P : α → Prop) (r : R α) : Prop := ∃ a, r = .ok a ∧ P a

theorem Tot.ok {α : Type} {P : α → Prop} {a : α} (h : P a) : Tot P (.ok a) := ⟨a, rfl, h⟩

theorem Tot.bind {α β : Type} {P : α → Prop} {Q : β → Prop} {r : R α} {f : α → R β} (h : Tot P r)
    (hf : ∀ a, P a → Tot Q (f a)) : Tot Q (r >>= f) := by
  obtain ⟨a, rfl, ha⟩ := h
  exact hf a ha

theorem Tot.bind_eq {α β : Type} {Q : β → Prop} {r : R α} {a : α} {f : α → R β} (h : r = .ok a) (hf : Tot Q (f a)) :
    Tot Q (r >>= f) := by
  rw [h]; exact hf

theorem Tot.mono {α : Type} {P Q : α → Prop} {r : R α} (h : Tot P r) (hPQ : ∀ a, P a → Q a) : Tot Q r := by
  obtain ⟨a, rfl, ha⟩ := h
  exact ⟨a, rfl, hPQ a ha⟩

theorem Tot.post {α : Type} {P Q : α → Prop} {r : R α} (h : Tot P r) (hq : Post Q r) : Tot Q r := by
  obtain ⟨a, e, ha⟩ := h
  exact ⟨a, e, hq.out a e⟩

theorem Tot.ofFnM {α : Type} : ∀ {n : Nat} (f : Fin n → R α), (∀ i, Tot (fun _ => True) (f i)) → Tot (fun _ => True) (Vector.ofFnM f)
  | 0, f, _ => by rw [Vector.ofFnM_zero]; exact ⟨_, rfl, trivial⟩
  | n + 1, f, h => by
    rw [Vector.ofFnM_succ]
    exact (ofFnM _ fun i => h _).bind fun _ _ => (h _).bind fun _ _ => ⟨_, rfl, trivial⟩

/-- A label that can be computed with: its domain is not zero in disguise. -/
def Sane (d : Domain) : Prop := d ≠ .u8 0 ∧ d ≠ .u16 0

theorem new_sane {m : Nat} {D : Domain} (h : Domain.new m = .ok D) : Sane D := by
  unfold Domain.new at h
  split at h
  · cases h; exact ⟨by simp, by simp⟩
  split at h
  · cases h; exact ⟨by simp, by simp⟩
  split at h
  · cases h; exact ⟨by simp only [ne_eq, Domain.u8.injEq]; omega, by simp⟩
  split at h
  · cases h; exact ⟨by simp, by simp⟩
  split at h
  · cases h; exact ⟨by simp, by simp only [ne_eq, Domain.u16.injEq]; omega⟩
  · cases h

theorem new_iff (m : Nat) : (∃ D, Domain.new m = .ok D) ↔ Labelled m := by
  unfold Domain.new Labelled
  by_cases h0 : m = 0
  · rw [if_pos h0]; exact ⟨fun _ => by omega, fun _ => ⟨_, rfl⟩⟩
  by_cases h1 : m = 2
  · rw [if_neg h0, if_pos h1]; exact ⟨fun _ => by omega, fun _ => ⟨_, rfl⟩⟩
  by_cases h2 : m < 255
  · rw [if_neg h0, if_neg h1, if_pos h2]; exact ⟨fun _ => by omega, fun _ => ⟨_, rfl⟩⟩
  by_cases h3 : m = 256
  · rw [if_neg h0, if_neg h1, if_neg h2, if_pos h3]; exact ⟨fun _ => by omega, fun _ => ⟨_, rfl⟩⟩
  rw [if_neg h0, if_neg h1, if_neg h2, if_neg h3]
  by_cases h4 : m < 65535
  · rw [if_pos h4]; exact ⟨fun _ => h4, fun _ => ⟨_, rfl⟩⟩
  · rw [if_neg h4]; exact ⟨fun ⟨_, h⟩ => (by cases h), fun h => by omega⟩

theorem rem_tot {a m : Nat} (h : m ≠ 0) : Tot (fun _ => True) (remR a m) := ⟨_, remR_total h, trivial⟩
theorem addR_tot (W a b : Nat) : Tot (fun _ => True) (addR false W a b) := by
  obtain ⟨v, h⟩ := addR_release W a b; exact ⟨v, h, trivial⟩
theorem mulR_tot (W a b : Nat) : Tot (fun _ => True) (mulR false W a b) := by
  obtain ⟨v, h⟩ := mulR_release W a b; exact ⟨v, h, trivial⟩
theorem subR_tot (W a b : Nat) : Tot (fun _ => True) (subR false W a b) := by
  unfold subR
  split
  · exact ⟨_, rfl, trivial⟩
  · exact ⟨_, rfl, trivial⟩

theorem map_tot (w : Wire) {op : Nat → R Nat} (h : ∀ x, Tot (fun _ => True) (op x)) : Tot (fun _ => True) (w.map op) := by
  unfold Wire.map
  exact (Tot.ofFnM _ fun i => (h _).bind fun _ _ => ⟨_, rfl, trivial⟩).bind fun _ _ => ⟨_, rfl, trivial⟩

theorem mapAsU16_tot (w : Wire) {op : Nat → R Nat} (h : ∀ x, Tot (fun _ => True) (op x)) :
    Tot (fun _ => True) (w.mapAsU16 false op) := by
  unfold Wire.mapAsU16
  exact (Tot.ofFnM _ fun i => (h _).bind fun _ _ => ⟨_, rfl, trivial⟩).bind fun _ _ =>
    Tot.bind (P := fun _ => True) ⟨(), rfl, trivial⟩ fun _ _ => ⟨_, rfl, trivial⟩

theorem mapWith_tot (a b : Wire) {op : Nat → Nat → R Nat} (h : ∀ x y, Tot (fun _ => True) (op x y)) :
    Tot (fun _ => True) (a.mapWith false b op) := by
  unfold Wire.mapWith
  exact Tot.bind (P := fun _ => True) ⟨(), rfl, trivial⟩ fun _ _ =>
    (Tot.ofFnM _ fun i => (h _ _).bind fun _ _ => ⟨_, rfl, trivial⟩).bind fun _ _ => ⟨_, rfl, trivial⟩

theorem mapWithAsU16_tot (a b : Wire) {op : Nat → Nat → R Nat} (h : ∀ x y, Tot (fun _ => True) (op x y)) :
    Tot (fun _ => True) (a.mapWithAsU16 false b op) := by
  unfold Wire.mapWithAsU16
  exact Tot.bind (P := fun _ => True) ⟨(), rfl, trivial⟩ fun _ _ =>
    (Tot.ofFnM _ fun i => (h _ _).bind fun _ _ => ⟨_, rfl, trivial⟩).bind fun _ _ =>
    Tot.bind (P := fun _ => True) ⟨(), rfl, trivial⟩ fun _ _ => ⟨_, rfl, trivial⟩

theorem add_tot {a : Wire} (b : Wire) (h : Sane a.domain) : Tot (fun c => c.domain = a.domain) (Wire.add false a b) := by
  refine Tot.post (P := fun _ => True) ?_ (add_post ..)
  unfold Wire.add
  split
  · exact mapWith_tot _ _ fun _ _ => ⟨_, rfl, trivial⟩
  · next m e => exact mapWith_tot _ _ fun _ _ => rem_tot fun h0 => h.1 (by rw [e, h0])
  · exact mapWith_tot _ _ fun _ _ => ⟨_, rfl, trivial⟩
  · next m e => exact mapWithAsU16_tot _ _ fun _ _ => rem_tot fun h0 => h.2 (by rw [e, h0])
  · exact mapWithAsU16_tot _ _ fun _ _ => ⟨_, rfl, trivial⟩

theorem sub_tot {a : Wire} (b : Wire) (h : Sane a.domain) : Tot (fun _ => True) (Wire.sub false a b) := by
  unfold Wire.sub
  split
  · exact mapWith_tot _ _ fun _ _ => ⟨_, rfl, trivial⟩
  · next m e =>
    exact mapWith_tot _ _ fun _ _ => (subR_tot ..).bind fun _ _ => (addR_tot ..).bind fun _ _ =>
      rem_tot fun h0 => h.1 (by rw [e, h0])
  · exact mapWith_tot _ _ fun _ _ => ⟨_, rfl, trivial⟩
  · next m e =>
    exact mapWithAsU16_tot _ _ fun _ _ => (subR_tot ..).bind fun _ _ => (addR_tot ..).bind fun _ _ =>
      rem_tot fun h0 => h.2 (by rw [e, h0])
  · exact mapWithAsU16_tot _ _ fun _ _ => ⟨_, rfl, trivial⟩

theorem neg_tot {a : Wire} (h : Sane a.domain) : Tot (fun c => c.domain = a.domain) (Wire.neg false a) := by
  refine Tot.post (P := fun _ => True) ?_ (neg_post ..)
  unfold Wire.neg
  split
  · exact map_tot _ fun _ => ⟨_, rfl, trivial⟩
  · next m e => exact map_tot _ fun _ => (subR_tot ..).bind fun _ _ => rem_tot fun h0 => h.1 (by rw [e, h0])
  · exact map_tot _ fun _ => ⟨_, rfl, trivial⟩
  · next m e => exact mapAsU16_tot _ fun _ => (subR_tot ..).bind fun _ _ => rem_tot fun h0 => h.2 (by rw [e, h0])
  · exact mapAsU16_tot _ fun _ => ⟨_, rfl, trivial⟩

theorem mul_tot {a : Wire} (k : Nat) (h : Sane a.domain) : Tot (fun c => c.domain = a.domain) (Wire.mul false a k) := by
  refine Tot.post (P := fun _ => True) ?_ (mul_post ..)
  unfold Wire.mul
  refine Tot.bind (P := fun _ => True) ⟨(), rfl, trivial⟩ fun _ _ => ?_
  split
  · exact map_tot _ fun _ => ⟨_, rfl, trivial⟩
  · next m e => exact map_tot _ fun _ => (mulR_tot ..).bind fun _ _ => rem_tot fun h0 => h.1 (by rw [e, h0])
  · next m e => exact mapAsU16_tot _ fun _ => (mulR_tot ..).bind fun _ _ => rem_tot fun h0 => h.2 (by rw [e, h0])
  · exact map_tot _ fun _ => ⟨_, rfl, trivial⟩
  · exact mapAsU16_tot _ fun _ => ⟨_, rfl, trivial⟩

theorem hashWire_tot {E : Env} (hd : E.dbg = false) (i : Nat) (w : Wire) {t : Wire} (h : Sane t.domain) :
    Tot (fun c => c.domain = t.domain) (hashWire E i w t) := by
  refine Tot.post (P := fun _ => True) ?_ (hashWire_post ..)
  unfold hashWire Wire.fromArray
  rw [hd]
  dsimp only
  split
  · exact ⟨_, rfl, trivial⟩
  · exact ⟨_, rfl, trivial⟩
  · exact ⟨_, rfl, trivial⟩
  · next m e => exact map_tot _ fun _ => rem_tot fun h0 => h.1 (by rw [e, h0])
  · next m e => exact mapAsU16_tot _ fun _ => rem_tot fun h0 => h.2 (by rw [e, h0])

theorem sum_tot {w : Wire} (ws : List Wire) (h : Sane w.domain) : Tot (fun c => c.domain = w.domain) (Wire.sum false (w :: ws)) := by
  unfold Wire.sum
  obtain ⟨t, h1, h2⟩ := foldlM_all (I := fun c : Wire => c.domain = w.domain) (f := fun acc w => Wire.add false acc w) (l := ws)
    (fun s hs a _ => by
      obtain ⟨t, ht, e⟩ := add_tot a (hs ▸ h)
      exact ⟨t, ht, e.trans hs⟩) rfl
  exact ⟨t, h1, h2⟩

/-! ### The deltas -/

theorem wireNew_tot {m : Nat} (raw : WireBytes) (h : Labelled m) : Tot (fun w => Domain.new m = .ok w.domain) (Wire.new m raw) := by
  refine Tot.post (P := fun _ => True) ?_ (new_post m raw)
  obtain ⟨D, hD⟩ := (new_iff m).mpr h
  unfold Wire.new
  rw [hD, okb]
  cases D <;> exact ⟨_, rfl, trivial⟩

theorem delta_tot {m : Nat} (raw : WireBytes) (h : Labelled m) : Tot (fun w => Domain.new m = .ok w.domain) (Wire.delta m raw) := by
  refine Tot.post (P := fun _ => True) ?_ (delta_dom m raw)
  unfold Wire.delta
  refine (wireNew_tot raw h).bind fun w _ => ?_
  split <;> exact ⟨_, rfl, trivial⟩

theorem ensureDelta_tot (rnd : GarbleRand) {m : HMap Nat Wire} {k : Nat} (h : Labelled k) :
    Tot (fun m' => ∀ d, (List.lookup d m').isSome ↔ (List.lookup d m).isSome ∨ d = k) (ensureDelta rnd m k) := by
  unfold ensureDelta
  split
  · next v hv =>
    refine ⟨_, rfl, fun d => ⟨.inl, ?_⟩⟩
    rintro (h | rfl)
    · exact h
    · rw [hv]; rfl
  · refine (delta_tot _ h).bind fun w _ => ⟨_, rfl, fun d => ?_⟩
    unfold HMap.insert
    rw [lookup_cons_eq]
    split
    · next e => simp [e]
    · next e => exact ⟨.inl, fun h => h.resolve_right e⟩

theorem ensureDelta_needs {rnd : GarbleRand} {m m' : HMap Nat Wire} {k : Nat} (hm : DeltaDom m)
    (h : ensureDelta rnd m k = .ok m') : Labelled k := by
  unfold ensureDelta at h
  split at h
  · next v hv => exact (new_iff k).mp ⟨_, hm k v hv⟩
  · obtain ⟨w, h1, -⟩ := bind_inv h
    exact (new_iff k).mp ⟨_, (delta_dom k _).out _ h1⟩

/-- The body of the loop that draws the deltas. -/
def deltaStep (rnd : GarbleRand) (m : HMap Nat Wire) (g : Gate) : R (HMap Nat Wire) := do
  let m ← ensureDelta rnd m g.domain
  match g.kind with
  | .proj p => ensureDelta rnd m p.dom
  | _ => return m

theorem deltaStep_tot (rnd : GarbleRand) (m : HMap Nat Wire) {g : Gate} (h : ∀ d, usesDomain [g] d → Labelled d) :
    Tot (fun m' => ∀ d, (List.lookup d m').isSome ↔ (List.lookup d m).isSome ∨ usesDomain [g] d) (deltaStep rnd m g) := by
  unfold deltaStep
  refine (ensureDelta_tot rnd (h _ ⟨g, by simp, .inl rfl⟩)).bind fun m1 hm1 => ?_
  split
  · next p hp =>
    refine (ensureDelta_tot rnd (h _ ⟨g, by simp, .inr ⟨p, hp, rfl⟩⟩)).mono fun m2 hm2 d => ?_
    rw [hm2, hm1]
    unfold usesDomain
    simp only [List.mem_singleton, exists_eq_left, hp, GateKind.proj.injEq]
    constructor
    · rintro ((h | rfl) | rfl)
      · exact .inl h
      · exact .inr (.inl rfl)
      · exact .inr (.inr ⟨p, rfl, rfl⟩)
    · rintro (h | h | ⟨q, rfl, h⟩)
      · exact .inl (.inl h)
      · exact .inl (.inr h.symm)
      · exact .inr h.symm
  · next hn =>
    refine ⟨_, rfl, fun d => ?_⟩
    rw [hm1]
    unfold usesDomain
    simp only [List.mem_singleton, exists_eq_left]
    constructor
    · rintro (h | rfl)
      · exact .inl h
      · exact .inr (.inl rfl)
    · rintro (h | h | ⟨q, hq, -⟩)
      · exact .inl h
      · exact .inr h.symm
      · exact absurd hq (hn q)

theorem usesDomain_cons (g : Gate) (gs : List Gate) (d : Nat) : usesDomain (g :: gs) d ↔ usesDomain [g] d ∨ usesDomain gs d := by
  unfold usesDomain
  simp only [List.mem_cons, List.not_mem_nil, or_false, exists_eq_or_imp, exists_eq_left]

theorem deltas_tot (rnd : GarbleRand) {gs : List Gate} (h : ∀ d, usesDomain gs d → Labelled d) (m : HMap Nat Wire) :
    Tot (fun m' => ∀ d, (List.lookup d m').isSome ↔ (List.lookup d m).isSome ∨ usesDomain gs d) (gs.foldlM (deltaStep rnd) m) := by
  induction gs generalizing m with
  | nil => exact ⟨m, rfl, fun d => by simp [usesDomain]⟩
  | cons g gs ih =>
    rw [List.foldlM_cons]
    refine (deltaStep_tot rnd m fun d hd => h d ((usesDomain_cons ..).mpr (.inl hd))).bind fun m1 h1 => ?_
    refine (ih (fun d hd => h d ((usesDomain_cons ..).mpr (.inr hd))) m1).mono fun m2 h2 d => ?_
    rw [h2, h1, usesDomain_cons g gs, or_assoc]

theorem deltaStep_needs {rnd : GarbleRand} {m m' : HMap Nat Wire} {g : Gate} (hm : DeltaDom m) (h : deltaStep rnd m g = .ok m') :
    (∀ d, usesDomain [g] d → Labelled d) ∧ DeltaDom m' := by
  unfold deltaStep at h
  obtain ⟨m1, h1, h2⟩ := bind_inv h
  have e1 := ensureDelta_needs hm h1
  have hm1 := (ensureDelta_dom rnd hm _).out _ h1
  split at h2
  · next p hp =>
    refine ⟨?_, (ensureDelta_dom rnd hm1 _).out _ h2⟩
    rintro d ⟨g', hg', h⟩
    rw [List.mem_singleton.mp hg'] at h
    rcases h with rfl | ⟨q, hq, rfl⟩
    · exact e1
    · rw [hp] at hq; cases hq; exact ensureDelta_needs hm1 h2
  · next hn =>
    cases h2
    refine ⟨?_, hm1⟩
    rintro d ⟨g', hg', h⟩
    rw [List.mem_singleton.mp hg'] at h
    rcases h with rfl | ⟨q, hq, rfl⟩
    · exact e1
    · exact absurd hq (hn q)

theorem deltas_need {rnd : GarbleRand} {gs : List Gate} {m m' : HMap Nat Wire} (hm : DeltaDom m)
    (h : gs.foldlM (deltaStep rnd) m = .ok m') : ∀ d, usesDomain gs d → Labelled d := by
  induction gs generalizing m with
  | nil => rintro d ⟨g, hg, -⟩; cases hg
  | cons g gs ih =>
    rw [List.foldlM_cons] at h
    obtain ⟨m1, h1, h2⟩ := bind_inv h
    obtain ⟨e1, e2⟩ := deltaStep_needs hm h1
    intro d hd
    rcases (usesDomain_cons ..).mp hd with hd | hd
    · exact e1 d hd
    · exact ih e2 h2 d hd

theorem garbleDeltas_steps (rnd : GarbleRand) (c : Circuit) : garbleDeltas rnd c = c.gates.foldlM (deltaStep rnd) [] := rfl

theorem garbleDeltas_tot (rnd : GarbleRand) {c : Circuit} (h : ∀ d, usesDomain c.gates d → Labelled d) :
    Tot (fun m => (∀ d, (List.lookup d m).isSome ↔ usesDomain c.gates d) ∧ DeltaDom m) (garbleDeltas rnd c) := by
  obtain ⟨m, h1, h2⟩ := deltas_tot rnd h []
  refine ⟨m, h1, fun d => ?_, (garbleDeltas_dom rnd c).out _ h1⟩
  rw [h2]; simp

/-! ### Gates -/

theorem getR_tot {m : HMap Nat Wire} (hm : DeltaDom m) {k : Nat} (h : (List.lookup k m).isSome) :
    Tot (fun δ => Domain.new k = .ok δ.domain) (m.getR k) := by
  obtain ⟨δ, hδ⟩ := Option.isSome_iff_exists.mp h
  unfold HMap.getR
  rw [hδ]
  exact ⟨δ, rfl, hm k δ hδ⟩

theorem project_tot {p : ProjKind} (h : p.dom ≠ 0) (x : Nat) : Tot (fun _ => True) (p.project x) := by
  cases p with
  | map m => exact rem_tot h
  | less t => exact ⟨_, rfl, trivial⟩

theorem project_needs {p : ProjKind} {x y : Nat} (h : p.project x = .ok y) : p.dom ≠ 0 := by
  cases p with
  | map m =>
    rintro rfl
    cases h
  | less t => simp [ProjKind.dom]

/-- All labels can be computed with. -/
def SaneWires (ws : List Wire) : Prop := ∀ w ∈ ws, Sane w.domain

theorem idx_tot {ws : List Wire} (hs : SaneWires ws) {i : Nat} (h : i < ws.length) : Tot (fun w => Sane w.domain) (idxR ws i) := by
  refine ⟨ws[i], ?_, hs _ (List.getElem_mem h)⟩
  unfold idxR
  rw [List.getElem?_eq_getElem h]

theorem first_tot {l : List Nat} {k i : Nat} (h : l[k]? = some i) : Tot (fun j => j = i) (idxR l k) := by
  unfold idxR
  rw [h]
  exact ⟨i, rfl, rfl⟩

theorem set_tot {α} {l : List α} {i : Nat} (a : α) (h : i < l.length) : Tot (fun l' => l'.length = l.length) (setR l i a) :=
  ⟨_, setR_ok _ h, by simp⟩

theorem hashHalf_sane (E : Env) (w : Wire) (j : Nat) : Sane (hashHalf E w j).domain := ⟨by simp [hashHalf], by simp [hashHalf]⟩

theorem garbleProj_tot {E : Env} (hd : E.dbg = false) {dl : HMap Nat Wire} (hdl : DeltaDom dl) {ws : List Wire} (hs : SaneWires ws)
    {g : Gate} {p : ProjKind} (h1 : (List.lookup g.domain dl).isSome) (h2 : (List.lookup p.dom dl).isSome) {i : Nat}
    (hi : g.inputs[0]? = some i) (hi' : i < ws.length) (hp : p.dom ≠ 0) :
    Tot (fun r => Sane r.1.domain) (garbleProj E dl ws g p) := by
  unfold garbleProj
  rw [hd]
  refine (first_tot hi).bind fun _ e => ?_
  subst e
  refine (idx_tot hs hi').bind fun win hwin => ?_
  dsimp only
  refine (getR_tot hdl h1).bind fun dm hdm => (getR_tot hdl h2).bind fun dn hdn => ?_
  refine (mul_tot _ (new_sane hdm)).bind fun m1 _ => (sub_tot _ hwin).bind fun m2 _ => ?_
  refine (hashWire_tot hd _ _ (new_sane hdn)).bind fun hw hhw => ?_
  have hhs : Sane hw.domain := hhw ▸ new_sane hdn
  refine (subR_tot ..).bind fun m3 _ => (project_tot hp _).bind fun m4 _ => (mul_tot _ (new_sane hdn)).bind fun m5 _ => ?_
  refine (add_tot _ hhs).bind fun w1 hw1 => ?_
  refine (neg_tot (hw1 ▸ hhs)).bind fun w hw' => ?_
  have hws : Sane w.domain := by rw [hw', hw1]; exact hhs
  have hfold : Tot (fun l : List Wire => l.length = g.domain)
      ((List.range g.domain).foldlM (fun tbl x => do
        let hashed ← hashWire E g.output (← Wire.add false win (← Wire.mul false dm x)) w
        let cipher ← Wire.add false (← Wire.add false hashed w) (← Wire.mul false dn (← p.project x))
        setR tbl (← remR (← addR false 65536 x win.color) g.domain) cipher) (List.replicate g.domain Wire.empty)) := by
    refine foldlM_all (fun s hsl x hx => ?_) (by simp)
    have hm : 0 < g.domain := by have := List.mem_range.mp hx; omega
    refine (mul_tot _ (new_sane hdm)).bind fun a1 _ => (add_tot _ hwin).bind fun a2 _ => ?_
    refine (hashWire_tot hd _ _ hws).bind fun a3 ha3 => (add_tot _ (ha3 ▸ hws)).bind fun a4 ha4 => ?_
    refine (project_tot hp _).bind fun a5 _ => (mul_tot _ (new_sane hdn)).bind fun a6 _ => ?_
    refine (add_tot _ (by rw [ha4, ha3]; exact hws)).bind fun a7 _ => (addR_tot ..).bind fun a8 _ => ?_
    refine Tot.bind (P := fun v => v < g.domain) ⟨_, remR_total (by omega), Nat.mod_lt _ hm⟩ fun a9 h9 => ?_
    exact (set_tot _ (by omega)).mono fun l hl => by omega
  exact hfold.bind fun tbl _ => ⟨_, rfl, hws⟩

theorem ite_tot {c : Prop} {_ : Decidable c} {α : Type} {P : α → Prop} {a b : R α} (ha : Tot P a) (hb : Tot P b) :
    Tot P (if c then a else b) := by
  split
  · exact ha
  · exact hb

theorem garbleAnd_tot {E : Env} (hd : E.dbg = false) {dl : HMap Nat Wire} (hdl : DeltaDom dl) {ws : List Wire} (hs : SaneWires ws)
    {g : Gate} (h1 : (List.lookup 2 dl).isSome) {i k : Nat} (hi : g.inputs[0]? = some i) (hi' : i < ws.length)
    (hk : g.inputs[1]? = some k) (hk' : k < ws.length) (j : Nat) :
    Tot (fun r => Sane r.1.domain) (garbleAnd E dl ws g j) := by
  unfold garbleAnd
  rw [hd]
  refine (getR_tot hdl h1).bind fun dm hdm => ?_
  refine (first_tot hi).bind fun _ e => ?_
  subst e
  refine (idx_tot hs hi').bind fun wa hwa => ?_
  refine (first_tot hk).bind fun _ e => ?_
  subst e
  refine (idx_tot hs hk').bind fun wb hwb => ?_
  dsimp only
  refine (add_tot _ hwa).bind fun a1 _ => (add_tot _ (hashHalf_sane ..)).bind fun tg htg => ?_
  have htg : Sane tg.domain := htg ▸ hashHalf_sane ..
  have fin : ∀ (wg we : Wire) (t : Wire × Wire), Sane wg.domain →
      Tot (fun r : Wire × (Wire × Wire) => Sane r.1.domain) (do return (← Wire.add false wg we, t)) := fun wg we t hwg =>
    (add_tot _ hwg).bind fun o ho => ⟨_, rfl, by show Sane o.domain; rw [ho]; exact hwg⟩
  have half : ∀ (wg tg : Wire), Sane wg.domain → Tot (fun r : Wire × (Wire × Wire) => Sane r.1.domain) (do
      let te ← Wire.add false (hashHalf E wb j) (hashHalf E (← Wire.add false wb dm) j)
      let te ← Wire.add false te wa
      let we := hashHalf E wb j
      let we ← if wb.color ≠ 0 then Wire.add false we (← Wire.add false te wa) else pure we
      return (← Wire.add false wg we, (tg, te))) := fun wg tg hwg => by
    refine (add_tot _ hwb).bind fun a2 _ => (add_tot _ (hashHalf_sane ..)).bind fun te hte => ?_
    have hte : Sane te.domain := hte ▸ hashHalf_sane ..
    refine (add_tot _ hte).bind fun te' hte' => ?_
    have hte' : Sane te'.domain := hte' ▸ hte
    dsimp only
    exact ite_tot ((add_tot _ hte').bind fun _ _ => (add_tot _ (hashHalf_sane ..)).bind fun we _ => fin wg we _ hwg)
      (fin wg _ _ hwg)
  have first : ∀ tg : Wire, Tot (fun r : Wire × (Wire × Wire) => Sane r.1.domain) (do
      let wg := hashHalf E wa j
      let wg ← if wa.color ≠ 0 then Wire.add false wg tg else pure wg
      let te ← Wire.add false (hashHalf E wb j) (hashHalf E (← Wire.add false wb dm) j)
      let te ← Wire.add false te wa
      let we := hashHalf E wb j
      let we ← if wb.color ≠ 0 then Wire.add false we (← Wire.add false te wa) else pure we
      return (← Wire.add false wg we, (tg, te))) := fun tg => by
    dsimp only
    exact ite_tot ((add_tot _ (hashHalf_sane ..)).bind fun wg hwg => half wg tg (hwg ▸ hashHalf_sane ..))
      (half _ tg (hashHalf_sane ..))
  exact ite_tot ((add_tot _ htg).bind fun tg' _ => first tg') (first tg)

/-- What the gate itself needs. -/
def GateReads (c : Circuit) (n : Nat) (g : Gate) : Prop :=
  match g.kind with
    | .add => g.inputs ≠ [] ∧ ∀ i ∈ g.inputs, i < n
    | .mul _ => ∃ i, g.inputs[0]? = some i ∧ i < n
    | .proj p => (∃ i, g.inputs[0]? = some i ∧ i < n) ∧ p.dom ≠ 0
    | .and => (∃ i, g.inputs[0]? = some i ∧ i < n) ∧ (∃ i, g.inputs[1]? = some i ∧ i < n) ∧ usesDomain c.gates 2

theorem saneWires_snoc {ws : List Wire} (h : SaneWires ws) {w : Wire} (hw : Sane w.domain) : SaneWires (ws ++ [w]) := by
  intro v hv
  rcases List.mem_append.mp hv with hv | hv
  · exact h v hv
  · rw [List.mem_singleton.mp hv]; exact hw

theorem garbleGate_tot {E : Env} (hd : E.dbg = false) {c : Circuit} {dl : HMap Nat Wire} (hdl : DeltaDom dl)
    (hk : ∀ d, (List.lookup d dl).isSome ↔ usesDomain c.gates d) {s : GarbleState} (hs : SaneWires s.wires) {g : Gate}
    (hg : g ∈ c.gates) (h : GateReads c s.wires.length g) :
    Tot (fun t => SaneWires t.wires ∧ t.wires.length = s.wires.length + 1) (garbleGate E dl s g) := by
  unfold GateReads at h
  unfold garbleGate
  split <;> rename_i e <;> rw [e] at h <;> simp only at h
  · obtain ⟨h1, h2⟩ := h
    obtain ⟨vs, hvs, hP⟩ := mapM_exists (l := g.inputs) (f := idxR s.wires) (P := fun _ w => Sane w.domain) (fun i hi => by
      obtain ⟨a, ha, hsa⟩ := idx_tot hs (h2 i hi); exact ⟨a, ha, hsa⟩)
    rw [hvs, okb, hd]
    cases vs with
    | nil => exact absurd (List.forall₂_nil_right_iff.mp hP) h1
    | cons w ws =>
      have hw : Sane w.domain := by
        cases hgi : g.inputs with
        | nil => exact absurd hgi h1
        | cons a l => rw [hgi] at hP; exact (List.forall₂_cons.mp hP).1
      exact (sum_tot _ hw).bind fun w hww => ⟨_, rfl, saneWires_snoc hs (hww ▸ hw), by simp⟩
  · obtain ⟨i, h1, h2⟩ := h
    rw [hd]
    refine (first_tot h1).bind fun _ e => ?_
    subst e
    refine (idx_tot hs h2).bind fun w hw => ?_
    exact (mul_tot _ hw).bind fun w' hww => ⟨_, rfl, saneWires_snoc hs (hww ▸ hw), by simp⟩
  · rename_i p
    obtain ⟨⟨i, h1, h2⟩, h3⟩ := h
    refine (garbleProj_tot hd hdl hs ((hk _).mpr ⟨g, hg, .inl rfl⟩) ((hk _).mpr ⟨g, hg, .inr ⟨p, e, rfl⟩⟩) h1 h2 h3).bind
      fun r hr => ?_
    exact ⟨_, rfl, saneWires_snoc hs hr, by simp⟩
  · obtain ⟨⟨i, h1, h2⟩, ⟨k, h3, h4⟩, h5⟩ := h
    refine (garbleAnd_tot hd hdl hs ((hk _).mpr h5) h1 h2 h3 h4 _).bind fun r hr => ?_
    exact ⟨_, rfl, saneWires_snoc hs hr, by simp⟩

theorem garbleDecoding_tot {E : Env} (hd : E.dbg = false) {c : Circuit} {dl : HMap Nat Wire} (hdl : DeltaDom dl)
    (hk : ∀ d, (List.lookup d dl).isSome ↔ usesDomain c.gates d) {s : GarbleState} (hs : SaneWires s.wires) {g : Gate}
    (hu : usesDomain c.gates g.outputDomain) (n : Nat)
    (h : n ≤ g.output → g.outputDomain ≠ 0 → g.output < s.wires.length) :
    Tot (fun t => t.wires = s.wires) (garbleDecoding E dl n s g) := by
  unfold garbleDecoding
  split
  · next hn =>
    have : Tot (fun _ : List WireBytes => True) ((List.range g.outputDomain).mapM fun x => do
      return hashOut E g.output x
        (← Wire.add E.dbg (← idxR s.wires g.output) (← Wire.mul E.dbg (← dl.getR g.outputDomain) x))) := by
      obtain ⟨vs, hvs, -⟩ := mapM_exists (l := List.range g.outputDomain) (P := fun _ _ => True)
        (f := fun x => do
          return hashOut E g.output x
            (← Wire.add E.dbg (← idxR s.wires g.output) (← Wire.mul E.dbg (← dl.getR g.outputDomain) x))) (fun x hx => by
          rw [hd]
          refine (idx_tot hs (h hn fun h0 => ?_)).bind fun w hw => (getR_tot hdl ((hk _).mpr hu)).bind fun d hdd => ?_
          · rw [h0] at hx; simp at hx
          exact (mul_tot _ (new_sane hdd)).bind fun m _ => (add_tot _ hw).bind fun o _ => ⟨_, rfl, trivial⟩)
      exact ⟨vs, hvs, trivial⟩
    exact this.bind fun _ _ => ⟨_, rfl, rfl⟩
  · exact ⟨_, rfl, rfl⟩

theorem outputDomain_used {c : Circuit} {n : Nat} {g : Gate} (hg : g ∈ c.gates) (h : GateReads c n g) :
    usesDomain c.gates g.outputDomain := by
  unfold GateReads at h
  unfold Gate.outputDomain
  split <;> rename_i e <;> rw [e] at h <;> simp only at h
  all_goals first
    | exact ⟨g, hg, .inl rfl⟩
    | exact ⟨g, hg, .inr ⟨_, e, rfl⟩⟩
    | exact h.2.2

theorem firstOutput_eq {c : Circuit} (hw : c.numWires < 2 ^ 64) (ho : c.numOutputs < 2 ^ 64) {dbg : Bool} {n : Nat}
    (h : subR dbg (2 ^ 64) c.numWires c.numOutputs = .ok n) : n = firstOutput c := by
  unfold subR at h
  unfold firstOutput
  split at h
  · next hle => rw [if_pos hle]; exact (Except.ok.inj h).symm
  · next hle =>
    rw [if_neg hle]
    split at h
    · cases h
    · have := Except.ok.inj h
      rw [← this]; omega

/-- One round of the loop over the gates. -/
def garbleStep (E : Env) (dl : HMap Nat Wire) (n : Nat) (s : GarbleState) (g : Gate) : R GarbleState := do
  garbleDecoding E dl n (← garbleGate E dl s g) g

theorem steps_tot {E : Env} (hd : E.dbg = false) {c : Circuit} {dl : HMap Nat Wire} (hdl : DeltaDom dl)
    (hk : ∀ d, (List.lookup d dl).isSome ↔ usesDomain c.gates d) :
    ∀ (gs : List Gate) (s : GarbleState), SaneWires s.wires → (∀ g ∈ gs, g ∈ c.gates) →
      (∀ k g, gs[k]? = some g → GateGarbles c (s.wires.length + k) g) →
      Tot (fun _ => True) (gs.foldlM (garbleStep E dl (firstOutput c)) s)
  | [], s, _, _, _ => ⟨s, rfl, trivial⟩
  | g :: gs, s, hs, hm, h => by
    rw [List.foldlM_cons]
    have h0 : GateGarbles c s.wires.length g := h 0 g rfl
    have hr : GateReads c s.wires.length g := h0.1
    have hg := hm g (by simp)
    have h1 : Tot (fun t : GarbleState => SaneWires t.wires ∧ t.wires.length = s.wires.length + 1)
        (garbleStep E dl (firstOutput c) s g) := by
      unfold garbleStep
      refine (garbleGate_tot hd hdl hk hs hg hr).bind fun t ht => ?_
      refine (garbleDecoding_tot hd hdl hk ht.1 (outputDomain_used hg hr) _ fun hn hz => ?_).mono fun u hu => by rw [hu]; exact ht
      have := h0.2 hn hz
      rw [ht.2]; omega
    refine h1.bind fun t ht => steps_tot hd hdl hk gs t ht.1 (fun g hg => hm g (by simp [hg])) fun k g hgk => ?_
    have := h (k + 1) g (by simpa using hgk)
    rw [ht.2]
    rwa [Nat.add_assoc, Nat.add_comm 1]

theorem garble_tot {E : Env} (hd : E.dbg = false) (rnd : GarbleRand) {c : Circuit} (hw : c.numWires < 2 ^ 64)
    (ho : c.numOutputs < 2 ^ 64) (h : Garbles c) : ∃ r, garble E rnd c = .ok r := by
  suffices Tot (fun _ => True) (garble E rnd c) by obtain ⟨r, hr, -⟩ := this; exact ⟨r, hr⟩
  unfold garble
  refine Tot.bind (P := fun _ => True) ?_ fun r _ => ⟨_, rfl, trivial⟩
  unfold garbleRun
  refine (garbleDeltas_tot rnd h.domains).bind fun dl hdl => ?_
  obtain ⟨ws, hws, hP⟩ := mapM_exists (l := c.inputDomains.zipIdx) (P := fun _ w => Sane w.domain)
    (f := fun (p : Nat × Nat) => Wire.new p.1 (rnd.input p.2)) (fun p hp => by
      obtain ⟨w, h1, h2⟩ := wireNew_tot (rnd.input p.2) (h.inputDomains p.1 (List.fst_mem_of_mem_zipIdx hp))
      exact ⟨w, h1, new_sane h2⟩)
  have hlen : ws.length = c.inputDomains.length := by have := mapM_length hws; simpa using this
  refine Tot.bind_eq (a := ws) hws ?_
  refine Tot.bind (P := fun _ => True) ⟨_, sliceR_ok (by omega) (by rw [hlen]; exact h.inputs), trivial⟩ fun ew _ => ?_
  rw [hd]
  obtain ⟨n, hn, -⟩ := subR_tot (2 ^ 64) c.numWires c.numOutputs
  refine Tot.bind (P := fun m => m = firstOutput c) ⟨n, hn, firstOutput_eq hw ho hn⟩ fun _ e => ?_
  subst e
  have hsane : SaneWires ws := by
    intro w hwm
    exact (List.forall₂_iff_get.mp hP |> fun ⟨_, hg⟩ => by
      obtain ⟨k, hk⟩ := List.mem_iff_get.mp hwm
      rw [← hk]
      exact hg k.1 (by have := k.2; simp [hlen] at this ⊢; omega) k.2)
  refine Tot.bind (steps_tot hd hdl.2 hdl.1 c.gates ⟨ws, [], [], [], 0⟩ hsane (fun _ h => h) fun k g hg => ?_) fun s _ => ⟨_, rfl, trivial⟩
  rw [show (⟨ws, [], [], [], 0⟩ : GarbleState).wires.length = c.inputDomains.length from hlen]
  exact h.gates k g hg

/-! ### What garbling needs -/

theorem sum_needs {dbg : Bool} {ws : List Wire} {w : Wire} (h : Wire.sum dbg ws = .ok w) : ws ≠ [] := by
  rintro rfl; cases h

theorem getR_needs {V : Type} {m : HMap Nat V} {k : Nat} {v : V} (h : m.getR k = .ok v) : (List.lookup k m).isSome := by
  rw [(getR_post m k).out _ h]; rfl

theorem garbleGate_needs {E : Env} {c : Circuit} {dl : HMap Nat Wire} (hk : ∀ d, (List.lookup d dl).isSome ↔ usesDomain c.gates d)
    {s t : GarbleState} {g : Gate} (h : garbleGate E dl s g = .ok t) :
    GateReads c s.wires.length g ∧ t.wires.length = s.wires.length + 1 := by
  unfold garbleGate at h
  unfold GateReads
  split at h <;> rename_i e <;> rw [e] <;> simp only
  · obtain ⟨vs, h1, h⟩ := bind_inv h
    obtain ⟨w, h2, h⟩ := bind_inv h
    cases h
    refine ⟨⟨?_, fun i hi => ?_⟩, by simp⟩
    · intro h0
      rw [h0] at h1
      cases h1
      cases h2
    · obtain ⟨b, hb⟩ := mapM_each h1 i hi
      exact idxR_lt hb
  · obtain ⟨i, h1, h⟩ := bind_inv h
    obtain ⟨w, h2, h⟩ := bind_inv h
    obtain ⟨w', -, h⟩ := bind_inv h
    cases h
    exact ⟨⟨i, idxR_some h1, idxR_lt h2⟩, by simp⟩
  · obtain ⟨⟨w, tbl⟩, h1, h⟩ := bind_inv h
    cases h
    refine ⟨?_, by simp⟩
    unfold garbleProj at h1
    obtain ⟨i, e1, h1⟩ := bind_inv h1
    obtain ⟨a, e2, h1⟩ := bind_inv h1
    refine ⟨⟨i, idxR_some e1, idxR_lt e2⟩, ?_⟩
    dsimp only at h1
    obtain ⟨_, -, h1⟩ := bind_inv h1
    obtain ⟨_, -, h1⟩ := bind_inv h1
    obtain ⟨_, -, h1⟩ := bind_inv h1
    obtain ⟨_, -, h1⟩ := bind_inv h1
    obtain ⟨_, -, h1⟩ := bind_inv h1
    obtain ⟨_, -, h1⟩ := bind_inv h1
    obtain ⟨_, e3, h1⟩ := bind_inv h1
    exact project_needs e3
  · obtain ⟨⟨w, tt⟩, h1, h⟩ := bind_inv h
    cases h
    refine ⟨?_, by simp⟩
    unfold garbleAnd at h1
    obtain ⟨_, e0, h1⟩ := bind_inv h1
    obtain ⟨i, e1, h1⟩ := bind_inv h1
    obtain ⟨a, e2, h1⟩ := bind_inv h1
    obtain ⟨k, e3, h1⟩ := bind_inv h1
    obtain ⟨b, e4, h1⟩ := bind_inv h1
    exact ⟨⟨i, idxR_some e1, idxR_lt e2⟩, ⟨k, idxR_some e3, idxR_lt e4⟩, (hk 2).mp (getR_needs e0)⟩

theorem garbleDecoding_needs {E : Env} {dl : HMap Nat Wire} {n : Nat} {s t : GarbleState} {g : Gate}
    (h : garbleDecoding E dl n s g = .ok t) :
    t.wires = s.wires ∧ (n ≤ g.output → g.outputDomain ≠ 0 → g.output < s.wires.length) := by
  unfold garbleDecoding at h
  split at h
  · obtain ⟨vs, h1, h⟩ := bind_inv h
    cases h
    refine ⟨rfl, fun _ h0 => ?_⟩
    obtain ⟨b, hb⟩ := mapM_each h1 0 (List.mem_range.mpr (by omega))
    obtain ⟨w, e1, -⟩ := bind_inv hb
    exact idxR_lt e1
  · next hn => cases h; exact ⟨rfl, fun hn' => absurd hn' hn⟩

theorem steps_need {E : Env} {c : Circuit} {dl : HMap Nat Wire} (hk : ∀ d, (List.lookup d dl).isSome ↔ usesDomain c.gates d) :
    ∀ (gs : List Gate) (s t : GarbleState), gs.foldlM (garbleStep E dl (firstOutput c)) s = .ok t →
      ∀ k g, gs[k]? = some g → GateGarbles c (s.wires.length + k) g
  | [], s, t, _, k, g, h => by cases h
  | g0 :: gs, s, t, h, k, g, hg => by
    rw [List.foldlM_cons] at h
    obtain ⟨u, h1, h2⟩ := bind_inv h
    unfold garbleStep at h1
    obtain ⟨v, h3, h4⟩ := bind_inv h1
    obtain ⟨e1, e2⟩ := garbleGate_needs hk h3
    obtain ⟨e3, e4⟩ := garbleDecoding_needs h4
    cases k with
    | zero =>
      simp only [List.getElem?_cons_zero, Option.some.injEq] at hg
      subst hg
      refine ⟨e1, fun hn hz => ?_⟩
      have := e4 hn hz
      omega
    | succ k =>
      have := steps_need hk gs u t h2 k g (by simpa using hg)
      rw [e3, e2] at this
      rwa [Nat.add_assoc, Nat.add_comm 1] at this

theorem garble_needs {E : Env} {rnd : GarbleRand} {c : Circuit} (hw : c.numWires < 2 ^ 64) (ho : c.numOutputs < 2 ^ 64)
    {r : GarbledCircuit × EncodingKey × DecodingKey} (h : garble E rnd c = .ok r) : Garbles c := by
  unfold garble at h
  obtain ⟨run, h, -⟩ := bind_inv h
  unfold garbleRun at h
  obtain ⟨dl, h1, h⟩ := bind_inv h
  obtain ⟨ws, h2, h⟩ := bind_inv h
  obtain ⟨ew, h3, h⟩ := bind_inv h
  obtain ⟨n, h4, h⟩ := bind_inv h
  obtain ⟨s, h5, -⟩ := bind_inv h
  have hdom : ∀ d, usesDomain c.gates d → Labelled d := deltas_need (by intro k δ h; cases h) h1
  obtain ⟨dl', h1', hk, -⟩ := garbleDeltas_tot rnd hdom
  rw [h1] at h1'
  obtain rfl := Except.ok.inj h1'
  have hlen : ws.length = c.inputDomains.length := by have := mapM_length h2; simpa using this
  obtain rfl := firstOutput_eq hw ho h4
  refine ⟨hdom, fun m hm => ?_, ?_, fun k g hg => ?_⟩
  · obtain ⟨i, hi⟩ := List.mem_iff_getElem?.mp hm
    have hmem : (m, i) ∈ c.inputDomains.zipIdx := by
      rw [List.mem_zipIdx_iff_getElem?]; exact hi
    obtain ⟨w, hw⟩ := mapM_each h2 (m, i) hmem
    exact (new_iff m).mp ⟨_, (new_post m _).out _ hw⟩
  · rw [← hlen]
    unfold sliceR at h3
    split at h3
    · next hle => exact hle.2
    · cases h3
  · have := steps_need hk c.gates ⟨ws, [], [], [], 0⟩ s h5 k g hg
    rw [show (⟨ws, [], [], [], 0⟩ : GarbleState).wires.length = c.inputDomains.length from hlen] at this
    exact this

end FP
