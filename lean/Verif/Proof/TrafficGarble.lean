import Verif.Proof.TrafficParties
import Verif.Proof.Garble
/-
Sizes of garbled circuits.
-/
namespace FP
open Spec

attribute [local irreducible] Spec.modulus

/-! ### Labels -/

/-- Bytes of a domain on the wire. -/
def domSize : Domain → Nat
  | .binary => 4
  | .u8 _ => 5
  | .u16 _ => 6
  | .u8max => 4
  | .u16max => 4

theorem wire_enc_length (w : Wire) : (Codec.wire.enc w).length = domSize w.domain + 32 := by
  show (Codec.domain.enc w.domain ++ w.values.toList : Bytes).length = _
  rw [List.length_append]
  congr 1
  · cases w.domain with
    | binary => exact Codec.leBytes_length ..
    | u8 m =>
      show (leBytes 4 1 ++ leBytes 1 m).length = _
      rw [List.length_append, Codec.leBytes_length, Codec.leBytes_length]
      rfl
    | u16 m =>
      show (leBytes 4 2 ++ leBytes 2 m).length = _
      rw [List.length_append, Codec.leBytes_length, Codec.leBytes_length]
      rfl
    | u8max => exact Codec.leBytes_length ..
    | u16max => exact Codec.leBytes_length ..
  · simp

theorem labelSize_eq {d : Nat} {D : Domain} (h0 : d ≠ 0) (h : Domain.new d = .ok D) : domSize D + 32 = labelSize d := by
  unfold Domain.new at h
  rw [if_neg h0] at h
  unfold labelSize
  by_cases h2 : d = 2
  · rw [if_pos h2] at h; cases h; rw [if_pos (.inl h2)]; rfl
  rw [if_neg h2] at h
  by_cases h3 : d < 255
  · rw [if_pos h3] at h; cases h; rw [if_neg (by omega), if_pos h3]; rfl
  rw [if_neg h3] at h
  by_cases h4 : d = 256
  · rw [if_pos h4] at h; cases h; rw [if_pos (.inr h4)]; rfl
  rw [if_neg h4] at h
  by_cases h5 : d < 65535
  · rw [if_pos h5] at h; cases h; rw [if_neg (by omega), if_neg h3]; rfl
  · rw [if_neg h5] at h; cases h

theorem mul_post (dbg : Bool) (a : Wire) (k : Nat) : Post (fun c => c.domain = a.domain) (Wire.mul dbg a k) := by
  unfold Wire.mul
  refine (Post.any _).bind fun _ _ => ?_
  split
  · exact map_post ..
  · exact map_post ..
  · exact mapAsU16_post ..
  · exact map_post ..
  · exact mapAsU16_post ..

theorem sum_post (dbg : Bool) (w : Wire) (ws : List Wire) : Post (fun c => c.domain = w.domain) (Wire.sum dbg (w :: ws)) := by
  unfold Wire.sum
  exact Post.foldlM (P := fun c : Wire => c.domain = w.domain) _ _ rfl fun s hs a _ => (add_post ..).mono fun c hc => by rw [hc, hs]

theorem new_post (d : Nat) (raw : WireBytes) : Post (fun c => Domain.new d = .ok c.domain) (Wire.new d raw) := by
  unfold Wire.new
  cases h : Domain.new d with
  | error e => exact .err
  | ok D =>
    rw [okb]
    cases D <;> exact .ok rfl

theorem delta_dom (d : Nat) (raw : WireBytes) : Post (fun c => Domain.new d = .ok c.domain) (Wire.delta d raw) := by
  unfold Wire.delta
  refine (new_post d raw).bind fun w hw => ?_
  split
  all_goals exact .ok hw

/-- Every delta has the domain it is filed under. -/
def DeltaDom (m : HMap Nat Wire) : Prop := ∀ k δ, List.lookup k m = some δ → Domain.new k = .ok δ.domain

theorem ensureDelta_dom (rnd : GarbleRand) {m : HMap Nat Wire} (hm : DeltaDom m) (k : Nat) :
    Post DeltaDom (ensureDelta rnd m k) := by
  unfold ensureDelta
  split
  · exact .ok hm
  · refine (delta_dom k _).bind fun w hw => .ok ?_
    intro k' δ h
    unfold HMap.insert at h
    rw [lookup_cons_eq] at h
    split at h
    · next e => injection h with h; rw [e, ← h]; exact hw
    · exact hm k' δ h

theorem garbleDeltas_dom (rnd : GarbleRand) (c : Circuit) : Post DeltaDom (garbleDeltas rnd c) := by
  unfold garbleDeltas
  refine Post.foldlM _ _ (by intro k δ h; cases h) fun m hm g _ => ?_
  refine (ensureDelta_dom rnd hm _).bind fun m hm => ?_
  split
  · exact ensureDelta_dom rnd hm _
  · exact .ok hm

/-! ### Tables -/

theorem mod_shift {x k d : Nat} (hk : k < d) (hx : x < d) : (x + k) % d = if x + k < d then x + k else x + k - d := by
  split
  · exact Nat.mod_eq_of_lt ‹_›
  · rw [Nat.mod_eq_sub_mod (by omega), Nat.mod_eq_of_lt (by omega)]

/-- Bytes of a table. -/
def rowsSize (t : List Wire) : Nat := (t.map fun w => domSize w.domain + 32).sum

/-- All entries of the table of a projection have the domain of the output. -/
theorem garbleProj_dom (E : Env) {delta : HMap Nat Wire} (hd : DeltaDom delta) (wires : List Wire) (g : Gate) (p : ProjKind)
    (hfull : p.dom = 2 ∨ g.domain ≤ 32768 ∧ ∀ i ∈ g.inputs.head?, ∀ w, wires[i]? = some w → w.color < g.domain) :
    Post (fun r => Domain.new p.dom = .ok r.1.domain ∧ r.2.length = g.domain ∧ ∀ w ∈ r.2, Domain.new p.dom = .ok w.domain)
      (garbleProj E delta wires g p) := by
  unfold garbleProj
  refine Post.bind (P := fun i => i ∈ g.inputs.head?) ⟨fun i e => ?_⟩ fun i hi => ?_
  · unfold idxR at e
    cases hgi : g.inputs with
    | nil => rw [hgi] at e; cases e
    | cons a l => rw [hgi] at e; exact congrArg some (Except.ok.inj e)
  refine Post.bind (P := fun w => wires[i]? = some w) ⟨fun w e => ?_⟩ fun win hwin => ?_
  · unfold idxR at e
    split at e
    · next h => rw [h]; exact congrArg some (Except.ok.inj e)
    · cases e
  dsimp only
  refine (Post.any _).bind fun dm _ => (getR_post _ _).bind fun dn hdn => ?_
  refine (Post.any _).bind fun m1 _ => (Post.any _).bind fun m2 _ => (hashWire_post ..).bind fun hw hhw => ?_
  refine (Post.any _).bind fun m3 _ => (Post.any _).bind fun m4 _ => (Post.any _).bind fun m5 _ => ?_
  refine (add_post ..).bind fun w1 hw1 => (neg_post ..).bind fun w hw => ?_
  have hwd : Domain.new p.dom = .ok w.domain := by
    rw [hw, hw1, hhw]
    exact hd _ _ hdn
  have entry : ∀ (t : List Wire) (x : Nat), Post (fun t' => ∃ c y, c.domain = w.domain ∧ t' = t.set y c ∧
      (x + win.color < 65536 → y = (x + win.color) % g.domain)) (do
        let m ← Wire.mul E.dbg dm x
        let a ← Wire.add E.dbg win m
        let hashed ← hashWire E g.output a w
        let h2 ← Wire.add E.dbg hashed w
        let y ← p.project x
        let m ← Wire.mul E.dbg dn y
        let cipher ← Wire.add E.dbg h2 m
        let k ← addR E.dbg 65536 x win.color
        let k ← remR k g.domain
        setR t k cipher) := by
    intro t x
    refine (Post.any _).bind fun m1 _ => (Post.any _).bind fun m2 _ => (hashWire_post ..).bind fun h1 hh1 => ?_
    refine (add_post ..).bind fun h2 hh2 => (Post.any _).bind fun _ _ => (Post.any _).bind fun _ _ => ?_
    refine (add_post ..).bind fun c hc => Post.bind (P := fun k => x + win.color < 65536 → k = x + win.color) ?_ fun k hk =>
      Post.bind (P := fun y => y = k % g.domain) ?_ fun y hy => ?_
    · refine ⟨fun k e h => ?_⟩
      rw [addR_ok _ h] at e
      exact (Except.ok.inj e).symm
    · unfold remR
      split
      · exact .err
      · exact .ok rfl
    · exact setR_post ⟨c, y, by rw [hc, hh2, hh1], rfl, fun h => by rw [hy, hk h]⟩
  suffices hs : Post (fun t : List Wire => t.length = g.domain ∧ ∀ w' ∈ t, w'.domain = w.domain) ((List.range g.domain).foldlM (fun tbl x => do
      let m ← Wire.mul E.dbg dm x
      let a ← Wire.add E.dbg win m
      let hashed ← hashWire E g.output a w
      let h2 ← Wire.add E.dbg hashed w
      let y ← p.project x
      let m ← Wire.mul E.dbg dn y
      let cipher ← Wire.add E.dbg h2 m
      let k ← addR E.dbg 65536 x win.color
      let k ← remR k g.domain
      setR tbl k cipher) (List.replicate g.domain Wire.empty)) from
    hs.bind fun t ht => .ok ⟨hwd, ht.1, fun w' hw' => by rw [ht.2 w' hw']; exact hwd⟩
  rcases hfull with h2 | ⟨hsmall, hcol⟩
  · refine Post.foldlM _ _ ⟨by simp, fun x hx => ?_⟩ fun t ht x _ => (entry t x).mono ?_
    · rw [(List.mem_replicate.mp hx).2]
      rw [h2] at hwd
      have : Domain.new 2 = .ok .binary := rfl
      rw [this] at hwd
      exact Except.ok.inj hwd
    · rintro t' ⟨c, y, hc, rfl, -⟩
      refine ⟨by simp [ht.1], fun w' hw' => ?_⟩
      rcases List.mem_or_eq_of_mem_set hw' with h | rfl
      · exact ht.2 w' h
      · exact hc
  · have hc := hcol i hi win hwin
    have inv : ∀ n, n ≤ g.domain → Post (fun t : List Wire => t.length = g.domain ∧
        ∀ x < n, ∀ w', t[(x + win.color) % g.domain]? = some w' → w'.domain = w.domain) ((List.range n).foldlM (fun tbl x => do
      let m ← Wire.mul E.dbg dm x
      let a ← Wire.add E.dbg win m
      let hashed ← hashWire E g.output a w
      let h2 ← Wire.add E.dbg hashed w
      let y ← p.project x
      let m ← Wire.mul E.dbg dn y
      let cipher ← Wire.add E.dbg h2 m
      let k ← addR E.dbg 65536 x win.color
      let k ← remR k g.domain
      setR tbl k cipher) (List.replicate g.domain Wire.empty)) := by
      intro n
      induction n with
      | zero => exact fun _ => .ok ⟨by simp, by omega⟩
      | succ n ih =>
        intro hn
        rw [List.range_succ, List.foldlM_append]
        refine (ih (by omega)).bind fun t ht => ?_
        rw [List.foldlM_cons]
        refine (entry t n).bind ?_
        rintro t' ⟨c, y, hcd, rfl, hy⟩
        refine .ok ⟨by simp [ht.1], fun x hx w' hw' => ?_⟩
        rw [List.getElem?_set] at hw'
        split at hw'
        · split at hw'
          · exact Option.some.inj hw' ▸ hcd
          · cases hw'
        · refine ht.2 x ?_ w' hw'
          rcases Nat.lt_succ_iff_lt_or_eq.mp hx with h | rfl
          · exact h
          · exact absurd (hy (by omega)) ‹_›
    refine (inv g.domain le_rfl).mono fun t ht => ⟨ht.1, fun w' hw' => ?_⟩
    obtain ⟨j, hj, e⟩ := List.mem_iff_getElem.mp hw'
    rw [ht.1] at hj
    have hx : (if win.color ≤ j then j - win.color else j + g.domain - win.color) < g.domain := by split <;> omega
    refine ht.2 _ hx w' ?_
    rw [mod_shift hc hx]
    have : (if (if win.color ≤ j then j - win.color else j + g.domain - win.color) + win.color < g.domain then
        (if win.color ≤ j then j - win.color else j + g.domain - win.color) + win.color else
        (if win.color ≤ j then j - win.color else j + g.domain - win.color) + win.color - g.domain) = j := by
      split <;> split <;> split at * <;> omega
    rw [this]
    exact List.getElem?_eq_some_iff.mpr ⟨by rw [ht.1]; exact hj, e⟩

theorem garbleAnd_dom (E : Env) (delta : HMap Nat Wire) (wires : List Wire) (g : Gate) (j : Nat) :
    Post (fun r => r.1.domain = .binary ∧ r.2.1.domain = .binary ∧ r.2.2.domain = .binary) (garbleAnd E delta wires g j) := by
  unfold garbleAnd
  have hh : ∀ w, (hashHalf E w j).domain = .binary := fun _ => rfl
  refine (Post.any _).bind fun dl _ => (Post.any _).bind fun _ _ => (Post.any _).bind fun wa _ => ?_
  refine (Post.any _).bind fun _ _ => (Post.any _).bind fun wb _ => ?_
  dsimp only
  refine (Post.any _).bind fun x1 _ => (add_post ..).bind fun tg htg => ?_
  split
  · refine (add_post ..).bind fun tg' htg' => ?_
    have : tg'.domain = .binary := by rw [htg', htg]; rfl
    split
    all_goals
      refine Post.bind (P := fun t => t.domain = .binary) (by first | exact (add_post ..).mono fun t h => h | exact .ok rfl) fun wg hwg => ?_
      refine (Post.any _).bind fun _ _ => (add_post ..).bind fun te hte => (add_post ..).bind fun te2 hte2 => ?_
      refine (Post.any _).bind fun _ _ => (Post.any _).bind fun _ _ => (add_post ..).bind fun o ho => ?_
      exact .ok ⟨by rw [ho, hwg], this, by rw [hte2, hte]; rfl⟩
  · refine Post.bind (P := fun t => t = tg) (.ok rfl) fun tg' htg' => ?_
    have : tg'.domain = .binary := by rw [htg', htg]; rfl
    split
    all_goals
      refine Post.bind (P := fun t => t.domain = .binary) (by first | exact (add_post ..).mono fun t h => h | exact .ok rfl) fun wg hwg => ?_
      refine (Post.any _).bind fun _ _ => (add_post ..).bind fun te hte => (add_post ..).bind fun te2 hte2 => ?_
      refine (Post.any _).bind fun _ _ => (add_post ..).bind fun o ho => ?_
      exact .ok ⟨by rw [ho, hwg], this, by rw [hte2, hte]; rfl⟩

/-! ### All gates -/

theorem Post.foldlM_pre {α σ : Type} {f : σ → α → R σ} (l : List α) (s : σ) (P : List α → σ → Prop) (h0 : P [] s)
    (hf : ∀ done a rest s, l = done ++ a :: rest → P done s → Post (P (done ++ [a])) (f s a)) : Post (P l) (l.foldlM f s) := by
  have key : ∀ (rest done : List α) (s : σ), l = done ++ rest → P done s → Post (P l) (rest.foldlM f s) := by
    intro rest
    induction rest with
    | nil => intro done s e h; rw [List.append_nil] at e; exact .ok (e ▸ h)
    | cons a rest ih =>
      intro done s e h
      rw [List.foldlM_cons]
      exact (hf done a rest s e h).bind fun s' hs' => ih (done ++ [a]) s' (by simp [e]) hs'
  exact key l [] s rfl h0

/-- The table of a projection: wire and size. -/
def projEntry (g : Gate) : Option (Nat × Nat) :=
  match g.kind with
  | .proj p => some (g.output, g.domain * labelSize p.dom)
  | _ => none

/-- The table of a half gate: wire and size. -/
def andEntry (g : Gate) : Option (Nat × Nat) :=
  match g.kind with
  | .and => some (g.output, 72)
  | _ => none

/-- The tables for the gates `done`. -/
structure TabInv (done : List Gate) (s : GarbleState) : Prop where
  f : s.f.map (fun p => (p.1, rowsSize p.2)) = (done.filterMap projEntry).reverse
  h : s.fHalf.map (fun p => (p.1, (domSize p.2.1.domain + 32) + (domSize p.2.2.domain + 32))) = (done.filterMap andEntry).reverse

/-- No row of the table of a projection is left empty, or it makes no difference. -/
def FullTable (wires : List Wire) (g : Gate) : Prop :=
  ∀ p, g.kind = .proj p → p.dom ≠ 0 ∧
    (p.dom = 2 ∨ g.domain ≤ 32768 ∧ ∀ i ∈ g.inputs.head?, ∀ w, wires[i]? = some w → w.color < g.domain)

theorem rowsSize_eq {t : List Wire} {d : Nat} (h0 : d ≠ 0) (h : ∀ w ∈ t, Domain.new d = .ok w.domain) :
    rowsSize t = t.length * labelSize d := by
  unfold rowsSize
  induction t with
  | nil => simp
  | cons w t ih =>
    simp only [List.map_cons, List.sum_cons, List.length_cons]
    rw [ih fun w hw => h w (by simp [hw]), labelSize_eq h0 (h w (by simp)), Nat.succ_mul, Nat.add_comm]

theorem garbleGate_tab (E : Env) {delta : HMap Nat Wire} (hd : DeltaDom delta) {done : List Gate} {s : GarbleState}
    (hs : TabInv done s) {g : Gate} (hg : FullTable s.wires g) : Post (TabInv (done ++ [g])) (garbleGate E delta s g) := by
  have hsnoc : ∀ (fn : Gate → Option (Nat × Nat)), ((done ++ [g]).filterMap fn).reverse =
      (fn g).toList ++ (done.filterMap fn).reverse := by
    intro fn
    rw [List.filterMap_append, List.reverse_append]
    congr 1
    cases h : fn g <;> simp [h]
  unfold garbleGate
  split
  · next hk =>
    refine (Post.any _).bind fun _ _ => (Post.any _).bind fun _ _ => .ok ⟨?_, ?_⟩
    · rw [hsnoc, show projEntry g = none by unfold projEntry; rw [hk]]; exact hs.f
    · rw [hsnoc, show andEntry g = none by unfold andEntry; rw [hk]]; exact hs.h
  · next hk =>
    refine (Post.any _).bind fun _ _ => (Post.any _).bind fun _ _ => (Post.any _).bind fun _ _ => .ok ⟨?_, ?_⟩
    · rw [hsnoc, show projEntry g = none by unfold projEntry; rw [hk]]; exact hs.f
    · rw [hsnoc, show andEntry g = none by unfold andEntry; rw [hk]]; exact hs.h
  · next p hk =>
    obtain ⟨h0, hfull⟩ := hg p hk
    refine (garbleProj_dom E hd _ g p hfull).bind fun r hr => .ok ⟨?_, ?_⟩
    · rw [hsnoc, show projEntry g = some (g.output, g.domain * labelSize p.dom) by unfold projEntry; rw [hk]]
      show (g.output, rowsSize r.2) :: _ = _
      rw [hs.f, rowsSize_eq h0 hr.2.2, hr.2.1]
      rfl
    · rw [hsnoc, show andEntry g = none by unfold andEntry; rw [hk]]; exact hs.h
  · next hk =>
    refine (garbleAnd_dom E delta _ g _).bind fun r hr => .ok ⟨?_, ?_⟩
    · rw [hsnoc, show projEntry g = none by unfold projEntry; rw [hk]]; exact hs.f
    · rw [hsnoc, show andEntry g = some (g.output, 72) by unfold andEntry; rw [hk]]
      show (g.output, (domSize r.2.1.domain + 32) + (domSize r.2.2.domain + 32)) :: _ = _
      rw [hs.h, hr.2.1, hr.2.2]
      rfl

theorem garbleDecoding_tab (E : Env) (delta : HMap Nat Wire) (o : Nat) (s : GarbleState) (g : Gate) :
    Post (fun s' => s'.wires = s.wires ∧ s'.f = s.f ∧ s'.fHalf = s.fHalf) (garbleDecoding E delta o s g) := by
  unfold garbleDecoding
  split
  · exact (Post.any _).bind fun _ _ => .ok ⟨rfl, rfl, rfl⟩
  · exact .ok ⟨rfl, rfl, rfl⟩

/-- The loop of `garble`. -/
theorem garbleLoop_tab (E : Env) {delta : HMap Nat Wire} (hd : DeltaDom delta) (o : Nat) (wires : List Wire) (gates : List Gate)
    (hfull : ∀ done g rest s, gates = done ++ g :: rest → done.foldlM (fun s g => do
        garbleDecoding E delta o (← garbleGate E delta s g) g) (⟨wires, [], [], [], 0⟩ : GarbleState) = .ok s → FullTable s.wires g) :
    Post (TabInv gates) (gates.foldlM (fun s g => do garbleDecoding E delta o (← garbleGate E delta s g) g)
      (⟨wires, [], [], [], 0⟩ : GarbleState)) := by
  refine (Post.foldlM_pre (P := fun done s => done.foldlM (fun s g => do
        garbleDecoding E delta o (← garbleGate E delta s g) g) (⟨wires, [], [], [], 0⟩ : GarbleState) = .ok s ∧ TabInv done s) _ _
      ⟨rfl, ⟨rfl, rfl⟩⟩ fun done g rest s e hs => ?_).mono fun s h => h.2
  have hrun : Post (fun s' => (done ++ [g]).foldlM (fun s g => do
        garbleDecoding E delta o (← garbleGate E delta s g) g) (⟨wires, [], [], [], 0⟩ : GarbleState) = .ok s')
      (do garbleDecoding E delta o (← garbleGate E delta s g) g) := by
    refine ⟨fun s' e' => ?_⟩
    rw [List.foldlM_append, hs.1, okb, List.foldlM_cons, e', okb]
    rfl
  have htab : Post (TabInv (done ++ [g])) (do garbleDecoding E delta o (← garbleGate E delta s g) g) := by
    refine (garbleGate_tab E hd hs.2 (hfull done g rest s e hs.1)).bind fun s1 h1 => ?_
    exact (garbleDecoding_tab ..).mono fun s2 h2 => ⟨by rw [h2.2.1]; exact h1.f, by rw [h2.2.2]; exact h1.h⟩
  exact ⟨fun s' e' => ⟨hrun.out s' e', htab.out s' e'⟩⟩

/-! ### Circuits -/

theorem iteration_perm {V : Type} {m : HMap Nat V} {l : List (Nat × V)} (h : IsIteration m l) (hm : (List.map Prod.fst m).Nodup) :
    List.Perm l m := by
  have nd : ∀ {q : List (Nat × V)}, (q.map Prod.fst).Nodup → q.Nodup := fun h => List.Nodup.of_map _ h
  refine (List.perm_ext_iff_of_nodup (nd h.1) (nd hm)).mpr fun p => ?_
  obtain ⟨k, v⟩ := p
  rw [h.2]
  clear h
  induction m with
  | nil => simp
  | cons q m ih =>
    obtain ⟨k', v'⟩ := q
    have hm' : (List.map Prod.fst m).Nodup := (List.nodup_cons.mp hm).2
    have hk' : k' ∉ List.map Prod.fst m := (List.nodup_cons.mp hm).1
    rw [lookup_cons_eq, List.mem_cons]
    split
    · next e =>
      subst e
      constructor
      · intro e; left; rw [Option.some.inj e]
      · rintro (e | hmem)
        · rw [(Prod.mk.inj e).2]
        · exact absurd (List.mem_map.mpr ⟨_, hmem, rfl⟩) hk'
    · next hne =>
      rw [ih hm']
      constructor
      · exact .inr
      · rintro (e | h)
        · exact absurd (Prod.mk.inj e).1 hne
        · exact h

theorem kind_enc_length (k : GateKind) : (Codec.gateKind.enc k).length = kindSize k := by
  have h4 : ∀ x, (Codec.u32.enc x).length = 4 := fun x => Codec.leBytes_length ..
  have h2 : ∀ x, (Codec.u16.enc x).length = 2 := fun x => Codec.leBytes_length ..
  cases k with
  | add => exact h4 _
  | and => exact h4 _
  | mul c =>
    show (Codec.u32.enc 1 ++ Codec.u16.enc c : Bytes).length = _
    rw [List.length_append, h4, h2]
    rfl
  | proj p =>
    cases p with
    | map m =>
      show (Codec.u32.enc 2 ++ (Codec.u32.enc 0 ++ Codec.u16.enc m) : Bytes).length = _
      rw [List.length_append, List.length_append, h4, h4, h2]
      rfl
    | less m =>
      show (Codec.u32.enc 2 ++ (Codec.u32.enc 1 ++ Codec.u16.enc m) : Bytes).length = _
      rw [List.length_append, List.length_append, h4, h4, h2]
      rfl

theorem gate_enc_length (g : Gate) : (Codec.gate.enc g).length = gateSize g := by
  show (Codec.usize.enc g.output ++ (Codec.u16.enc g.domain ++ ((Codec.vec Codec.usize).enc g.inputs ++ Codec.gateKind.enc g.kind)) : Bytes).length = _
  rw [List.length_append, List.length_append, List.length_append, usize_enc_length, vec_enc_length, kind_enc_length,
    show (Codec.u16.enc g.domain).length = 2 from Codec.leBytes_length ..]
  simp only [usize_enc_length]
  rw [sum_map_const]
  unfold gateSize
  omega

theorem circuit_enc_length (c : Circuit) :
    (Codec.circuit.enc c).length = 24 + 8 + (c.gates.map gateSize).sum + 8 + 2 * c.inputDomains.length := by
  show (Codec.usize.enc _ ++ (Codec.usize.enc _ ++ (Codec.usize.enc _ ++ ((Codec.vec Codec.gate).enc c.gates ++
    (Codec.vec Codec.u16).enc c.inputDomains))) : Bytes).length = _
  simp only [List.length_append, usize_enc_length, vec_enc_length, gate_enc_length,
    show ∀ x, (Codec.u16.enc x).length = 2 from fun x => Codec.leBytes_length ..]
  rw [sum_map_const, show (c.gates.map fun x => gateSize x) = c.gates.map gateSize from rfl]
  omega

/-- The size of the tables. -/
theorem tables_sum (gates : List Gate) :
    ((gates.filterMap projEntry).map fun e => 16 + e.2).sum + ((gates.filterMap andEntry).map fun e => 8 + e.2).sum =
      (gates.map tableSize).sum := by
  induction gates with
  | nil => rfl
  | cons g gates ih =>
    simp only [List.map_cons, List.sum_cons]
    rw [← ih, List.filterMap_cons, List.filterMap_cons]
    unfold projEntry andEntry tableSize
    cases hk : g.kind <;> simp <;> omega

theorem entries_keys (gates : List Gate) (fn : Gate → Option (Nat × Nat)) (hfn : ∀ g e, fn g = some e → e.1 = g.output)
    (h : (gates.map (·.output)).Nodup) : ((gates.filterMap fn).reverse.map Prod.fst).Nodup := by
  rw [List.map_reverse, List.nodup_reverse]
  refine h.sublist ?_
  clear h
  induction gates with
  | nil => simp
  | cons g gates ih =>
    rw [List.filterMap_cons]
    cases hg : fn g with
    | none => exact ih.cons _
    | some e =>
      simp only [List.map_cons]
      rw [hfn g e hg]
      exact ih.cons_cons _

theorem garbled_length {c : Circuit} {s : GarbleState} (h : TabInv c.gates s) (hnd : (c.gates.map (·.output)).Nodup)
    {lf : List (Nat × List Wire)} {lh : List (Nat × (Wire × Wire))} (hf : IsIteration s.f lf) (hh : IsIteration s.fHalf lh) :
    (serializeGarbled ⟨c, s.f, s.fHalf⟩ lf lh).length = garbledSize c := by
  have pf : List.Perm lf s.f := iteration_perm hf (by
    have := entries_keys c.gates projEntry (fun g e h => by
      unfold projEntry at h; split at h
      · rw [← Option.some.inj h]
      · cases h) hnd
    rw [← h.f, List.map_map] at this
    exact this)
  have ph : List.Perm lh s.fHalf := iteration_perm hh (by
    have := entries_keys c.gates andEntry (fun g e h => by
      unfold andEntry at h; split at h
      · rw [← Option.some.inj h]
      · cases h) hnd
    rw [← h.h, List.map_map] at this
    exact this)
  show (Codec.circuit.enc c ++ ((Codec.vec (Codec.pair Codec.usize (Codec.vec Codec.wire))).enc lf ++
    (Codec.vec (Codec.pair Codec.usize (Codec.pair Codec.wire Codec.wire))).enc lh) : Bytes).length = _
  rw [List.length_append, List.length_append, circuit_enc_length, vec_enc_length, vec_enc_length]
  have e1 : (lf.map fun x => ((Codec.pair Codec.usize (Codec.vec Codec.wire)).enc x).length).sum =
      ((c.gates.filterMap projEntry).map fun e => 16 + e.2).sum := by
    have : (fun x : Nat × List Wire => ((Codec.pair Codec.usize (Codec.vec Codec.wire)).enc x).length) =
        (fun e : Nat × Nat => 16 + e.2) ∘ fun p => (p.1, rowsSize p.2) := by
      funext x
      show (Codec.usize.enc x.1 ++ (Codec.vec Codec.wire).enc x.2 : Bytes).length = 16 + rowsSize x.2
      rw [List.length_append, usize_enc_length, vec_enc_length]
      simp only [wire_enc_length]
      unfold rowsSize
      omega
    rw [this, (pf.map _).sum_eq, ← List.map_map, h.f, List.map_reverse, List.sum_reverse]
  have e2 : (lh.map fun x => ((Codec.pair Codec.usize (Codec.pair Codec.wire Codec.wire)).enc x).length).sum =
      ((c.gates.filterMap andEntry).map fun e => 8 + e.2).sum := by
    have : (fun x : Nat × (Wire × Wire) => ((Codec.pair Codec.usize (Codec.pair Codec.wire Codec.wire)).enc x).length) =
        (fun e : Nat × Nat => 8 + e.2) ∘ fun p => (p.1, (domSize p.2.1.domain + 32) + (domSize p.2.2.domain + 32)) := by
      funext x
      show (Codec.usize.enc x.1 ++ (Codec.wire.enc x.2.1 ++ Codec.wire.enc x.2.2) : Bytes).length = 8 + _
      rw [List.length_append, List.length_append, usize_enc_length, wire_enc_length, wire_enc_length]
    rw [this, (ph.map _).sum_eq, ← List.map_map, h.h, List.map_reverse, List.sum_reverse]
  rw [e1, e2]
  unfold garbledSize
  rw [← tables_sum]
  omega

end FP
