import Verif.Model.Garble
import Verif.Proof.Bincode
import Verif.Proof.Circuit
/-
Garbled circuits fit the wire format.
-/
namespace FP
open Spec

/-- Whatever a computation returns satisfies `P`. -/
structure Post {α : Type} (P : α → Prop) (r : R α) : Prop where
  out : ∀ a, r = .ok a → P a

theorem Post.ok {α : Type} {P : α → Prop} {a : α} (h : P a) : Post P (.ok a) := by
  refine ⟨fun b hb => ?_⟩; injection hb with hb; exact hb ▸ h

theorem Post.err {α : Type} {P : α → Prop} {e : Fault} : Post P (.error e : R α) := ⟨fun _ h => by cases h⟩

theorem Post.bind {α β : Type} {P : α → Prop} {Q : β → Prop} {r : R α} {f : α → R β} (h : Post P r)
    (hf : ∀ a, P a → Post Q (f a)) : Post Q (r >>= f) := by
  cases r with
  | error e => exact .err
  | ok a => exact hf a (h.out a rfl)

theorem Post.any {α : Type} (r : R α) : Post (fun _ => True) r := ⟨fun _ _ => trivial⟩

theorem Post.mono {α : Type} {P Q : α → Prop} {r : R α} (h : Post P r) (hPQ : ∀ a, P a → Q a) : Post Q r :=
  ⟨fun a ha => hPQ a (h.out a ha)⟩

theorem Post.foldlM {α σ : Type} {P : σ → Prop} {f : σ → α → R σ} (l : List α) (s : σ) (hs : P s)
    (hf : ∀ s, P s → ∀ a ∈ l, Post P (f s a)) : Post P (l.foldlM f s) := by
  induction l generalizing s with
  | nil => exact .ok hs
  | cons a l ih =>
    rw [List.foldlM_cons]
    exact (hf s hs a (by simp)).bind fun s' hs' => ih s' hs' fun s h b hb => hf s h b (by simp [hb])

theorem map_post (w : Wire) (op : Nat → R Nat) : Post (fun c => c.domain = w.domain) (w.map op) :=
  (Post.any _).bind fun _ _ => .ok rfl

theorem mapAsU16_post (dbg : Bool) (w : Wire) (op : Nat → R Nat) :
    Post (fun c => c.domain = w.domain) (w.mapAsU16 dbg op) :=
  (Post.any _).bind fun _ _ => (Post.any _).bind fun _ _ => .ok rfl

theorem mapWith_post (dbg : Bool) (a b : Wire) (op : Nat → Nat → R Nat) :
    Post (fun c => c.domain = a.domain) (a.mapWith dbg b op) :=
  (Post.any _).bind fun _ _ => (Post.any _).bind fun _ _ => .ok rfl

theorem mapWithAsU16_post (dbg : Bool) (a b : Wire) (op : Nat → Nat → R Nat) :
    Post (fun c => c.domain = a.domain) (a.mapWithAsU16 dbg b op) :=
  (Post.any _).bind fun _ _ => (Post.any _).bind fun _ _ => (Post.any _).bind fun _ _ => .ok rfl

theorem add_post (dbg : Bool) (a b : Wire) : Post (fun c => c.domain = a.domain) (Wire.add dbg a b) := by
  unfold Wire.add
  split
  · exact mapWith_post ..
  · exact mapWith_post ..
  · exact mapWith_post ..
  · exact mapWithAsU16_post ..
  · exact mapWithAsU16_post ..

theorem neg_post (dbg : Bool) (a : Wire) : Post (fun c => c.domain = a.domain) (Wire.neg dbg a) := by
  unfold Wire.neg
  split
  · exact map_post ..
  · exact map_post ..
  · exact map_post ..
  · exact mapAsU16_post ..
  · exact mapAsU16_post ..

theorem fromArray_post (dbg : Bool) (v : WireBytes) (d : Domain) :
    Post (fun c => c.domain = d) (Wire.fromArray dbg v d) := by
  unfold Wire.fromArray
  split
  · exact .ok rfl
  · exact .ok rfl
  · exact .ok rfl
  · exact map_post ⟨_, v⟩ _
  · exact mapAsU16_post dbg ⟨_, v⟩ _

theorem hashWire_post (E : Env) (i : Nat) (w t : Wire) : Post (fun c => c.domain = t.domain) (hashWire E i w t) :=
  fromArray_post ..

theorem setR_post {α : Type} {P : List α → Prop} {l : List α} {i : Nat} {a : α} (h : P (l.set i a)) :
    Post P (setR l i a) := by
  unfold setR
  split
  · exact .ok h
  · exact .err

/-- The deltas drawn by garbling fit the wire format. -/
def DeltaFits (m : HMap Nat Wire) : Prop := ∀ k δ, List.lookup k m = some δ → δ.Fits

theorem domainNew_fits (k : Nat) : Post Domain.Fits (Domain.new k) := by
  unfold Domain.new
  repeat' split
  all_goals first
    | exact .ok trivial
    | exact .err
    | (refine .ok ?_; simp only [Domain.Fits]; omega)

theorem delta_post (k : Nat) (raw : WireBytes) : Post Wire.Fits (Wire.delta k raw) := by
  unfold Wire.delta
  refine Post.bind (P := Wire.Fits) ?_ fun w hw => ?_
  · unfold Wire.new
    refine (domainNew_fits k).bind fun d hd => ?_
    split
    · exact .ok hd
    · exact .ok hd
    · exact .ok hd
  · unfold Wire.Fits at hw
    split
    all_goals exact .ok (P := Wire.Fits) (by unfold Wire.Fits; exact hw)

theorem getR_post {V : Type} (m : HMap Nat V) (k : Nat) : Post (fun v => List.lookup k m = some v) (m.getR k) := by
  unfold HMap.getR
  split
  · rename_i h; exact .ok h
  · exact .err

theorem ensureDelta_post (rnd : GarbleRand) {m : HMap Nat Wire} (hm : DeltaFits m) (k : Nat) :
    Post DeltaFits (ensureDelta rnd m k) := by
  unfold ensureDelta
  split
  · exact .ok hm
  · refine (delta_post k _).bind fun w hw => .ok ?_
    intro k' δ h
    unfold HMap.insert at h
    rw [lookup_cons_eq] at h
    split at h
    · injection h with h; exact h ▸ hw
    · exact hm k' δ h

theorem garbleDeltas_post (rnd : GarbleRand) (c : Circuit) : Post DeltaFits (garbleDeltas rnd c) := by
  unfold garbleDeltas
  refine Post.foldlM _ _ (by intro k δ h; cases h) fun m hm g _ => ?_
  refine (ensureDelta_post rnd hm _).bind fun m hm => ?_
  split
  · exact ensureDelta_post rnd hm _
  · exact .ok hm

/-- Tables of a garbled circuit fit the wire format. -/
structure TablesFit (N : Nat) (s : GarbleState) : Prop where
  f : ∀ k t, List.lookup k s.f = some t → k < N ∧ t.length < 65536 ∧ ∀ w ∈ t, w.Fits
  h : ∀ k t, List.lookup k s.fHalf = some t → k < N ∧ t.1.Fits ∧ t.2.Fits

theorem garbleProj_post (E : Env) {delta : HMap Nat Wire} (hd : DeltaFits delta) (wires : List Wire) (g : Gate)
    (p : ProjKind) (hg : g.domain < 65536) :
    Post (fun r => r.2.length < 65536 ∧ ∀ w ∈ r.2, w.Fits) (garbleProj E delta wires g p) := by
  unfold garbleProj
  refine (Post.any _).bind fun i _ => (Post.any _).bind fun win _ => ?_
  dsimp only
  refine (Post.any _).bind fun dm _ => (getR_post _ _).bind fun dn hdn => ?_
  refine (Post.any _).bind fun m1 _ => (Post.any _).bind fun m2 _ => (hashWire_post ..).bind fun hw hhw => ?_
  refine (Post.any _).bind fun m3 _ => (Post.any _).bind fun m4 _ => (Post.any _).bind fun m5 _ => ?_
  refine (add_post ..).bind fun w1 hw1 => (neg_post ..).bind fun w hw => ?_
  have hwf : w.Fits := by
    unfold Wire.Fits
    rw [hw, hw1, hhw]
    exact hd _ _ hdn
  refine Post.bind (P := fun t : List Wire => t.length = g.domain ∧ ∀ w ∈ t, w.Fits) ?_
    fun t ht => .ok ⟨by rw [ht.1]; exact hg, ht.2⟩
  refine Post.foldlM _ _ ⟨by simp, fun x hx => ?_⟩ fun t ht x _ => ?_
  · rw [(List.mem_replicate.mp hx).2]; trivial
  · refine (Post.any _).bind fun m1 _ => (Post.any _).bind fun m2 _ => (hashWire_post ..).bind fun h1 hh1 => ?_
    refine (add_post ..).bind fun h2 hh2 => (Post.any _).bind fun _ _ => (Post.any _).bind fun _ _ => ?_
    refine (add_post ..).bind fun c hc => (Post.any _).bind fun _ _ => (Post.any _).bind fun _ _ => ?_
    refine setR_post ⟨by simp [ht.1], fun y hy => ?_⟩
    rcases List.mem_or_eq_of_mem_set hy with hy | rfl
    · exact ht.2 y hy
    · unfold Wire.Fits; rw [hc, hh2, hh1]; exact hwf

theorem garbleAnd_post (E : Env) (delta : HMap Nat Wire) (wires : List Wire) (g : Gate) (j : Nat) :
    Post (fun r => r.2.1.Fits ∧ r.2.2.Fits) (garbleAnd E delta wires g j) := by
  unfold garbleAnd
  have hb : ∀ {c : Wire}, c.domain = .binary → c.Fits := fun h => by unfold Wire.Fits; rw [h]; trivial
  have hh : ∀ w, (hashHalf E w j).domain = .binary := fun _ => rfl
  refine (Post.any _).bind fun dl _ => (Post.any _).bind fun _ _ => (Post.any _).bind fun wa _ => ?_
  refine (Post.any _).bind fun _ _ => (Post.any _).bind fun wb _ => ?_
  dsimp only
  refine (Post.any _).bind fun x1 _ => (add_post ..).bind fun tg htg => ?_
  split
  · refine (add_post ..).bind fun tg' htg' => ?_
    have : tg'.domain = .binary := by rw [htg', htg]; rfl
    split
    all_goals
      refine (Post.any _).bind fun wg _ => ?_
      refine (Post.any _).bind fun _ _ => (add_post ..).bind fun te hte => (add_post ..).bind fun te2 hte2 => ?_
      refine (Post.any _).bind fun _ _ => ?_
      repeat refine (Post.any _).bind fun _ _ => ?_
      exact .ok ⟨hb this, hb (by rw [hte2, hte]; rfl)⟩
  · refine Post.bind (P := fun t => t = tg) (.ok rfl) fun tg' htg' => ?_
    have : tg'.domain = .binary := by rw [htg', htg]; rfl
    split
    all_goals
      refine (Post.any _).bind fun wg _ => ?_
      refine (Post.any _).bind fun _ _ => (add_post ..).bind fun te hte => (add_post ..).bind fun te2 hte2 => ?_
      refine (Post.any _).bind fun _ _ => ?_
      repeat refine (Post.any _).bind fun _ _ => ?_
      exact .ok ⟨hb this, hb (by rw [hte2, hte]; rfl)⟩

theorem garbleGate_post (E : Env) {delta : HMap Nat Wire} (hd : DeltaFits delta) {N : Nat} {s : GarbleState}
    (hs : TablesFit N s) {g : Gate} (ho : g.output < N) (hg : g.domain < 65536) :
    Post (TablesFit N) (garbleGate E delta s g) := by
  unfold garbleGate
  split
  · exact (Post.any _).bind fun _ _ => (Post.any _).bind fun _ _ => .ok ⟨hs.f, hs.h⟩
  · exact (Post.any _).bind fun _ _ => (Post.any _).bind fun _ _ => (Post.any _).bind fun _ _ => .ok ⟨hs.f, hs.h⟩
  · refine (garbleProj_post E hd _ g _ hg).bind fun r hr => .ok ⟨fun k t h => ?_, hs.h⟩
    simp only [HMap.insert] at h
    rw [lookup_cons_eq] at h
    split at h
    · rename_i hk; injection h with h; subst h; exact ⟨hk ▸ ho, hr⟩
    · exact hs.f k t h
  · refine (garbleAnd_post E delta _ g _).bind fun r hr => .ok ⟨hs.f, fun k t h => ?_⟩
    simp only [HMap.insert] at h
    rw [lookup_cons_eq] at h
    split at h
    · rename_i hk; injection h with h; subst h; exact ⟨hk ▸ ho, hr⟩
    · exact hs.h k t h

theorem garbleRun_post (E : Env) (rnd : GarbleRand) (c : Circuit) (N : Nat)
    (hg : ∀ g ∈ c.gates, g.output < N ∧ g.domain < 65536) :
    Post (fun r => TablesFit N r.state) (garbleRun E rnd c) := by
  unfold garbleRun
  refine (garbleDeltas_post rnd c).bind fun dl hdl => (Post.any _).bind fun ws _ => (Post.any _).bind fun ew _ => ?_
  refine (Post.any _).bind fun o _ => Post.bind (P := TablesFit N) ?_ fun s hs => .ok hs
  refine Post.foldlM _ _ ⟨(by intro k t h; cases h), (by intro k t h; cases h)⟩ fun s hs g hmem => ?_
  refine (garbleGate_post E hdl hs (hg g hmem).1 (hg g hmem).2).bind fun s hs => ?_
  unfold garbleDecoding
  split
  · exact (Post.any _).bind fun _ _ => .ok ⟨hs.f, hs.h⟩
  · exact .ok hs

theorem iteration_length {V : Type} {m : HMap Nat V} {l : List (Nat × V)} (h : IsIteration m l) {N : Nat}
    (hN : ∀ p ∈ l, p.1 < N) : l.length ≤ N := by
  have h1 : (l.map Prod.fst).length ≤ (List.range N).length :=
    (List.subperm_of_subset h.1 (fun k hk => by
      obtain ⟨p, hp, rfl⟩ := List.mem_map.mp hk
      exact List.mem_range.mpr (hN p hp))).length_le
  simpa using h1

/-- What `garble` returns can be serialised, whatever the iteration orders of its tables. -/
theorem garble_fits {E : Env} {rnd : GarbleRand} {c : Circuit} {run : GarbleRun} (hrun : garbleRun E rnd c = .ok run)
    (hc : c.Fits) (ho : ∀ g ∈ c.gates, g.output < c.numWires) {lf lh} (hf : IsIteration run.state.f lf)
    (hh : IsIteration run.state.fHalf lh) : GarbledFits c lf lh := by
  have ht := garbleRun_post E rnd c c.numWires (fun g hg => ⟨ho g hg, (hc.gates g hg).domain⟩) |>.out run hrun
  have hN := hc.numWires
  have h1 : ∀ p ∈ lf, p.1 < c.numWires ∧ p.2.length < 65536 ∧ ∀ w ∈ p.2, w.Fits := fun p hp =>
    ht.f p.1 p.2 ((hf.2 _ _).mp hp)
  have h2 : ∀ p ∈ lh, p.1 < c.numWires ∧ p.2.1.Fits ∧ p.2.2.Fits := fun p hp =>
    ht.h p.1 p.2 ((hh.2 _ _).mp hp)
  refine ⟨hc, ?_, fun p hp => ?_, ?_, fun p hp => ?_⟩
  · have := iteration_length hf fun p hp => (h1 p hp).1; omega
  · obtain ⟨e1, e2, e3⟩ := h1 p hp; exact ⟨by omega, by omega, e3⟩
  · have := iteration_length hh fun p hp => (h2 p hp).1; omega
  · obtain ⟨e1, e2⟩ := h2 p hp; exact ⟨by omega, e2⟩

/-! ### The circuits of the protocols -/

theorem tailGates_fits {p n D T : Nat} (hD : D < 65536) (hT : T < 65536) (hN : p + 2 * n + 2 < 2 ^ 64) :
    ∀ g ∈ tailGates p n D T, g.Fits ∧ g.output < p + 2 * n + 2 := by
  intro g hg
  rcases List.mem_append.mp hg with hg | hg
  · obtain ⟨i, hi, rfl⟩ := List.mem_map.mp hg
    have hi := List.mem_range.mp hi
    refine ⟨⟨by simp only; omega, by simp, by simp, by simp; omega, hD⟩, by simp only; omega⟩
  · rcases List.mem_cons.mp hg with rfl | hg
    · refine ⟨⟨by simp only; omega, hD, by simp; omega, fun i hi => ?_, trivial⟩, by simp only; omega⟩
      have := List.mem_range'_1.mp hi; omega
    · rw [List.mem_singleton.mp hg]
      exact ⟨⟨by simp only; omega, hD, by simp, by simp; omega, hT⟩, by simp only; omega⟩

theorem thr_fits {n D T : Nat} (hD : D < 65536) (hT : T < 65536) (hn : 4 * n + 2 < 2 ^ 64) :
    (thrCircuit n D T).Fits ∧ ∀ g ∈ (thrCircuit n D T).gates, g.output < (thrCircuit n D T).numWires := by
  have key : ∀ g ∈ (thrCircuit n D T).gates, g.Fits ∧ g.output < 4 * n + 2 := by
    intro g hg
    rcases List.mem_append.mp hg with hg | hg
    · obtain ⟨i, hi, rfl⟩ := List.mem_map.mp hg
      have hi := List.mem_range.mp hi
      refine ⟨⟨by simp only; omega, by simp, by simp, by simp; omega, trivial⟩, by simp only; omega⟩
    · obtain ⟨h1, h2⟩ := tailGates_fits hD hT (by omega) g hg
      exact ⟨h1, by omega⟩
  refine ⟨⟨hn, by simp [thrCircuit]; omega, by simp [thrCircuit], ?_, fun g hg => (key g hg).1, ?_, ?_⟩,
    fun g hg => (key g hg).2⟩
  · simp [thrCircuit, xorGates, tailGates]; omega
  · simp [thrCircuit]; omega
  · intro d hd; rw [(List.mem_replicate.mp hd).2]; decide

theorem thr3_fits {n D T : Nat} (hD : D < 65536) (hT : T < 65536) (hn : 5 * n + 2 < 2 ^ 64) :
    (thrCircuit3 n D T).Fits ∧ ∀ g ∈ (thrCircuit3 n D T).gates, g.output < (thrCircuit3 n D T).numWires := by
  have key : ∀ g ∈ (thrCircuit3 n D T).gates, g.Fits ∧ g.output < 5 * n + 2 := by
    intro g hg
    rcases List.mem_append.mp hg with hg | hg
    · obtain ⟨i, hi, rfl⟩ := List.mem_map.mp hg
      have hi := List.mem_range.mp hi
      refine ⟨⟨by simp only; omega, by simp, by simp, by simp; omega, trivial⟩, by simp only; omega⟩
    · obtain ⟨h1, h2⟩ := tailGates_fits hD hT (by omega) g hg
      exact ⟨h1, by omega⟩
  refine ⟨⟨hn, by simp [thrCircuit3]; omega, by simp [thrCircuit3], ?_, fun g hg => (key g hg).1, ?_, ?_⟩,
    fun g hg => (key g hg).2⟩
  · simp [thrCircuit3, xorGates3, tailGates]; omega
  · simp [thrCircuit3]; omega
  · intro d hd; rw [(List.mem_replicate.mp hd).2]; decide

end FP
