import Verif.Proof.ClassicSafe
import Verif.Spec.Memory
import Verif.Model.Channel
import Verif.Model.Legacy
/-
Accesses out of bounds and uninitialised reads, for a party against an arbitrary peer.
-/
namespace FP
open Spec

attribute [local irreducible] Spec.modulus

/-! ### Local computations -/

/-- The computation stays in bounds. -/
def Quiet {α : Type} (r : R α) : Prop := Safe (fun _ => True) r

theorem Safe.quiet {α : Type} {P : α → Prop} {r : R α} (h : Safe P r) : Quiet r := h.mono fun _ _ => trivial

theorem Quiet.safe {α : Type} {r : R α} (h : Quiet r) : Safe (fun _ => True) r := h

namespace Quiet

theorem ok {α : Type} (a : α) : Quiet (.ok a) := trivial
theorem pure {α : Type} (a : α) : Quiet (Pure.pure a : R α) := trivial
theorem panic {α : Type} : Quiet (panicR : R α) := Safe.panic
theorem err {α : Type} (e : ErrKind) : Quiet (errR e : R α) := by
  show Fault.err e ≠ .ub
  simp

theorem bind {α β : Type} {r : R α} {f : α → R β} (h : Quiet r) (hf : ∀ a, Quiet (f a)) : Quiet (r >>= f) :=
  Safe.bind h fun a _ => hf a

theorem assert (b : Bool) : Quiet (assertR b) := by
  unfold assertR
  split
  · exact ok _
  · exact panic

theorem debugAssert (dbg b : Bool) : Quiet (debugAssertR dbg b) := assert _

theorem idx {α : Type} (l : List α) (i : Nat) : Quiet (idxR l i) := (Safe.idx l i).quiet

theorem set {α : Type} (l : List α) (i : Nat) (a : α) : Quiet (setR l i a) := Safe.set _ _ _ fun _ => trivial

theorem slice {α : Type} (l : List α) (a b : Nat) : Quiet (sliceR l a b) := by
  unfold sliceR
  split
  · exact ok _
  · exact panic

theorem add (dbg : Bool) (W a b : Nat) : Quiet (addR dbg W a b) := by
  unfold addR
  split
  · exact ok _
  · split
    · exact panic
    · exact ok _

theorem sub (dbg : Bool) (W a b : Nat) : Quiet (subR dbg W a b) := by
  unfold subR
  split
  · exact ok _
  · split
    · exact panic
    · exact ok _

theorem mul (dbg : Bool) (W a b : Nat) : Quiet (mulR dbg W a b) := by
  unfold mulR
  split
  · exact ok _
  · split
    · exact panic
    · exact ok _

theorem rem (a m : Nat) : Quiet (remR a m) := by
  unfold remR
  split
  · exact panic
  · exact ok _

theorem div (a m : Nat) : Quiet (divR a m) := by
  unfold divR
  split
  · exact panic
  · exact ok _

theorem get {V : Type} (m : HMap Nat V) (k : Nat) : Quiet (m.getR k) := by
  unfold HMap.getR
  split
  · exact ok _
  · exact panic

theorem unwrap {α : Type} (o : Option α) : Quiet (unwrapR o) := by
  cases o
  · exact panic
  · exact ok _

theorem foldlM {α σ : Type} {f : σ → α → R σ} (l : List α) (s : σ) (hf : ∀ s, ∀ a ∈ l, Quiet (f s a)) :
    Quiet (l.foldlM f s) := Safe.foldlM l s trivial fun s _ a ha => hf s a ha

theorem mapM {α β : Type} {f : α → R β} (l : List α) (hf : ∀ a ∈ l, Quiet (f a)) : Quiet (l.mapM f) :=
  (Safe.mapM l hf).quiet

theorem ofFnM {α : Type} : ∀ {n : Nat} (f : Fin n → R α), (∀ i, Quiet (f i)) → Quiet (Vector.ofFnM f)
  | 0, f, _ => by rw [Vector.ofFnM_zero]; exact pure _
  | n + 1, f, h => by
    rw [Vector.ofFnM_succ]
    exact (ofFnM _ fun i => h _).bind fun _ => (h _).bind fun _ => pure _

theorem deserialize {α : Type} (c : Codec α) (m : Bytes) : Quiet (c.deserialize m) := (deserialize_safe c m).quiet

theorem toArray (b : Bytes) : Quiet (toArray32 b) := by
  unfold toArray32
  split
  · exact ok _
  · exact panic

end Quiet

/-- Go through a computation step by step. -/
macro "quiet" : tactic => `(tactic| with_reducible repeat' first
  | exact Quiet.ok _ | exact Quiet.pure _ | exact Quiet.panic | exact Quiet.err _
  | exact Quiet.assert _ | exact Quiet.debugAssert _ _ | exact Quiet.idx _ _ | exact Quiet.set _ _ _
  | exact Quiet.slice _ _ _ | exact Quiet.add _ _ _ _ | exact Quiet.sub _ _ _ _ | exact Quiet.mul _ _ _ _
  | exact Quiet.rem _ _ | exact Quiet.div _ _ | exact Quiet.get _ _ | exact Quiet.unwrap _
  | exact Quiet.toArray _ | exact Quiet.deserialize _ _
  | assumption
  | (refine Quiet.bind ?_ fun _ => ?_)
  | (refine Quiet.ofFnM _ fun _ => ?_)
  | (refine Quiet.foldlM _ _ fun _ _ _ => ?_)
  | (refine Quiet.mapM _ fun _ _ => ?_)
  | split)

theorem xorBytes_quiet (dbg : Bool) (a b : Bytes) : Quiet (xorBytes dbg a b) := by
  unfold xorBytes; quiet

theorem xorBytesInplace_quiet (dbg : Bool) (a b : Bytes) : Quiet (xorBytesInplace dbg a b) := by
  unfold xorBytesInplace; quiet

theorem apXor_quiet (dbg : Bool) (d a b : Bytes) : Quiet (apXor dbg d a b) := by
  unfold apXor; quiet

theorem apXorInplace_quiet (dbg : Bool) (a b : Bytes) : Quiet (apXorInplace dbg a b) := by
  unfold apXorInplace; quiet

theorem xorAt_quiet (a b : Bytes) : Quiet (xorAt a b) := by
  unfold xorAt; quiet

theorem fromSlice_quiet (b : Bytes) : Quiet (fromSlice b) := by
  unfold fromSlice; quiet

namespace Wire

theorem map_quiet (w : Wire) (op : Nat → R Nat) (h : ∀ x, Quiet (op x)) : Quiet (w.map op) := by
  unfold Wire.map
  refine Quiet.bind (Quiet.ofFnM _ fun _ => Quiet.bind (h _) fun _ => .pure _) fun _ => .pure _

theorem mapAsU16_quiet (dbg : Bool) (w : Wire) (op : Nat → R Nat) (h : ∀ x, Quiet (op x)) : Quiet (w.mapAsU16 dbg op) := by
  unfold Wire.mapAsU16
  refine Quiet.bind (Quiet.ofFnM _ fun _ => Quiet.bind (h _) fun _ => .pure _) fun _ => ?_
  quiet

theorem mapWith_quiet (dbg : Bool) (a b : Wire) (op : Nat → Nat → R Nat) (h : ∀ x y, Quiet (op x y)) :
    Quiet (a.mapWith dbg b op) := by
  unfold Wire.mapWith
  refine Quiet.bind (.debugAssert ..) fun _ => Quiet.bind (Quiet.ofFnM _ fun _ => Quiet.bind (h _ _) fun _ => .pure _) fun _ => ?_
  quiet

theorem mapWithAsU16_quiet (dbg : Bool) (a b : Wire) (op : Nat → Nat → R Nat) (h : ∀ x y, Quiet (op x y)) :
    Quiet (a.mapWithAsU16 dbg b op) := by
  unfold Wire.mapWithAsU16
  refine Quiet.bind (.debugAssert ..) fun _ => Quiet.bind (Quiet.ofFnM _ fun _ => Quiet.bind (h _ _) fun _ => .pure _) fun _ => ?_
  quiet

theorem add_quiet (dbg : Bool) (a b : Wire) : Quiet (Wire.add dbg a b) := by
  unfold Wire.add
  split
  · exact mapWith_quiet _ _ _ _ fun _ _ => .ok _
  · exact mapWith_quiet _ _ _ _ fun _ _ => .rem _ _
  · exact mapWith_quiet _ _ _ _ fun _ _ => .ok _
  · exact mapWithAsU16_quiet _ _ _ _ fun _ _ => .rem _ _
  · exact mapWithAsU16_quiet _ _ _ _ fun _ _ => .ok _

theorem sub_quiet (dbg : Bool) (a b : Wire) : Quiet (Wire.sub dbg a b) := by
  unfold Wire.sub
  split
  · exact mapWith_quiet _ _ _ _ fun _ _ => .ok _
  · exact mapWith_quiet _ _ _ _ fun _ _ => by quiet
  · exact mapWith_quiet _ _ _ _ fun _ _ => .ok _
  · exact mapWithAsU16_quiet _ _ _ _ fun _ _ => by quiet
  · exact mapWithAsU16_quiet _ _ _ _ fun _ _ => .ok _

theorem neg_quiet (dbg : Bool) (a : Wire) : Quiet (Wire.neg dbg a) := by
  unfold Wire.neg
  split
  · exact map_quiet _ _ fun _ => .ok _
  · exact map_quiet _ _ fun _ => by quiet
  · exact map_quiet _ _ fun _ => .ok _
  · exact mapAsU16_quiet _ _ _ fun _ => by quiet
  · exact mapAsU16_quiet _ _ _ fun _ => .ok _

theorem mul_quiet (dbg : Bool) (a : Wire) (k : Nat) : Quiet (Wire.mul dbg a k) := by
  unfold Wire.mul
  refine Quiet.bind (.debugAssert ..) fun _ => ?_
  split
  · exact map_quiet _ _ fun _ => .ok _
  · exact map_quiet _ _ fun _ => by quiet
  · exact mapAsU16_quiet _ _ _ fun _ => by quiet
  · exact map_quiet _ _ fun _ => .ok _
  · exact mapAsU16_quiet _ _ _ fun _ => .ok _

theorem sum_quiet (dbg : Bool) (l : List Wire) : Quiet (Wire.sum dbg l) := by
  cases l with
  | nil => exact .panic
  | cons a l => exact Quiet.foldlM _ _ fun _ _ _ => add_quiet ..

theorem fromArray_quiet (dbg : Bool) (v : WireBytes) (d : Domain) : Quiet (Wire.fromArray dbg v d) := by
  unfold Wire.fromArray
  dsimp only
  split
  · exact .ok _
  · exact .ok _
  · exact .ok _
  · exact map_quiet _ _ fun _ => .rem _ _
  · exact mapAsU16_quiet _ _ _ fun _ => .rem _ _

theorem fromBytes_quiet (dbg : Bool) (v : Bytes) (d : Domain) : Quiet (Wire.fromBytes dbg v d) := by
  unfold Wire.fromBytes
  split
  · exact fromArray_quiet ..
  · exact .panic

end Wire

theorem hashWire_quiet (E : Env) (i : Nat) (w t : Wire) : Quiet (hashWire E i w t) := Wire.fromArray_quiet ..

/-! ### Evaluating a circuit of any shape -/

theorem Safe.foldlM_pre {α σ : Type} {f : σ → α → R σ} (l : List α) (s : σ) (P : List α → σ → Prop) (h0 : P [] s)
    (hf : ∀ pre a post s, l = pre ++ a :: post → P pre s → Safe (P (pre ++ [a])) (f s a)) : Safe (P l) (l.foldlM f s) := by
  induction l generalizing s P with
  | nil => exact h0
  | cons a l ih =>
    rw [List.foldlM_cons]
    refine (hf [] a l s rfl h0).bind fun s' hs' => ?_
    exact ih s' (fun pre => P (a :: pre)) hs' fun pre b post s e h => hf (a :: pre) b post s (by rw [e]; rfl) h

/-- The wires in `W` have labels. -/
def Filled (N : Nat) (W : Nat → Prop) (wires : List (Option Wire)) : Prop :=
  wires.length = N ∧ ∀ i, W i → i < N → ∃ w, wires[i]? = some (some w)

theorem readInit_quiet {N : Nat} {W : Nat → Prop} {wires : List (Option Wire)} (h : Filled N W wires) {i : Nat} (hi : W i) :
    Quiet (readInit wires i) := by
  unfold readInit
  by_cases hl : i < N
  · obtain ⟨w, e⟩ := h.2 i hi hl
    rw [idxR_ok e, okb]
    exact .pure _
  · unfold idxR
    rw [List.getElem?_eq_none (by rw [h.1]; omega)]
    exact .panic

theorem Filled.set {N : Nat} {W W' : Nat → Prop} {wires : List (Option Wire)} (h : Filled N W wires) (k : Nat) (w : Wire)
    (hW : ∀ i, W' i → W i ∨ i = k) : Filled N W' (wires.set k (some w)) := by
  refine ⟨by rw [List.length_set]; exact h.1, fun i hi hl => ?_⟩
  by_cases e : i = k
  · subst e
    exact ⟨w, by rw [List.getElem?_set_self (by rw [h.1]; omega)]⟩
  · obtain ⟨w', e'⟩ := h.2 i ((hW i hi).resolve_right e) hl
    exact ⟨w', by rw [List.getElem?_set_ne (Ne.symm e)]; exact e'⟩

theorem evalGate_quiet (E : Env) (gc : GarbledCircuit) {N : Nat} {W : Nat → Prop} {wires : List (Option Wire)} (j : Nat)
    (g : Gate) (h : Filled N W wires) (hg : ∀ i ∈ gateReads g, W i) : Quiet (evalGate E gc wires j g) := by
  have h0 : ∀ (k n : Nat), k < n → g.inputs.take n = gateReads g → ∀ f : Nat → R (Wire × Nat), (∀ i, W i → Quiet (f i)) →
      Quiet (idxR g.inputs k >>= f) := by
    intro k n hk e f hf
    unfold idxR
    split
    · next a ha =>
      refine hf a (hg a ?_)
      rw [← e]
      refine List.mem_of_getElem? (i := k) ?_
      rw [List.getElem?_take_of_lt hk, ha]
    · exact .panic
  unfold evalGate
  cases hk : g.kind with
  | add =>
    refine Quiet.bind (Quiet.mapM _ fun i hi => readInit_quiet h (hg i ?_)) fun _ => Quiet.bind (Wire.sum_quiet ..) fun _ => .pure _
    simpa [gateReads, hk] using hi
  | mul c =>
    dsimp only
    exact h0 0 1 (by decide) (by simp [gateReads, hk]) _ fun i hi =>
      (readInit_quiet h hi).bind fun _ => Quiet.bind (Wire.mul_quiet ..) fun _ => .pure _
  | proj p =>
    dsimp only
    refine h0 0 1 (by decide) (by simp [gateReads, hk]) _ fun i hi => (readInit_quiet h hi).bind fun w => ?_
    refine Quiet.bind (.get _ _) fun _ => Quiet.bind (.idx _ _) fun _ => Quiet.bind (hashWire_quiet ..) fun _ =>
      Quiet.bind (Wire.sub_quiet ..) fun _ => .pure _
  | and =>
    dsimp only
    refine h0 0 2 (by decide) (by simp [gateReads, hk]) _ fun i hi => (readInit_quiet h hi).bind fun wa => ?_
    refine h0 1 2 (by decide) (by simp [gateReads, hk]) _ fun i hi => (readInit_quiet h hi).bind fun wb => ?_
    refine Quiet.bind (.get _ _) fun p => ?_
    have hq : ∀ a b, Quiet (Wire.add E.dbg a b) := fun a b => Wire.add_quiet ..
    split
    · refine Quiet.bind (hq _ _) fun _ => ?_
      split
      · exact Quiet.bind (hq _ _) fun _ => Quiet.bind (hq _ _) fun _ => Quiet.bind (hq _ _) fun _ => .pure _
      · exact Quiet.bind (.pure _) fun _ => Quiet.bind (hq _ _) fun _ => .pure _
    · refine Quiet.bind (.pure _) fun _ => ?_
      split
      · exact Quiet.bind (hq _ _) fun _ => Quiet.bind (hq _ _) fun _ => Quiet.bind (hq _ _) fun _ => .pure _
      · exact Quiet.bind (.pure _) fun _ => Quiet.bind (hq _ _) fun _ => .pure _

theorem subR_safe (dbg : Bool) (W a b : Nat) : Safe (fun c => a - b ≤ c) (subR dbg W a b) := by
  unfold subR
  split
  · exact Nat.le_refl _
  · next hle =>
    split
    · exact .panic
    · show a - b ≤ _
      omega

/-- Whatever the tables and labels are. -/
theorem evaluate_quiet (E : Env) (gc : GarbledCircuit) (x : List Wire) (h : Ordered gc.circuit) : Quiet (evaluate E gc x) := by
  obtain ⟨hg, ho⟩ := h
  unfold evaluate
  dsimp only
  refine Quiet.bind (.debugAssert ..) fun _ => ?_
  refine Safe.bind (P := Filled gc.circuit.numWires (· < gc.circuit.numInputs)) ?_ ?_
  · refine (Safe.foldlM_pre (List.range gc.circuit.numInputs) _
      (fun pre w => Filled gc.circuit.numWires (· < pre.length) w) ⟨by simp, fun i hi => by simp at hi⟩ ?_).mono ?_
    · intro pre i post w e hw
      refine (Safe.idx ..).bind fun a _ => Safe.set _ _ _ fun _ => ?_
      refine hw.set i a fun k hk => ?_
      have : i = pre.length := by
        have := congrArg (fun l => l[pre.length]?) e
        simp only [List.getElem?_append_right (Nat.le_refl _), Nat.sub_self, List.getElem?_cons_zero] at this
        obtain ⟨hl, e⟩ := List.getElem?_eq_some_iff.mp this
        rw [List.getElem_range] at e
        exact e.symm
      have hk : k < (pre ++ [i]).length := hk
      simp at hk
      omega
    · intro w hw
      simpa using hw
  intro wires hw
  refine Safe.bind (P := fun s : List (Option Wire) × Nat => Filled gc.circuit.numWires
    (fun i => i < gc.circuit.numInputs ∨ ∃ g ∈ gc.circuit.gates, g.output = i) s.1) ?_ ?_
  · refine Safe.foldlM_pre gc.circuit.gates _ (fun pre (s : List (Option Wire) × Nat) => Filled gc.circuit.numWires
      (fun i => i < gc.circuit.numInputs ∨ ∃ g ∈ pre, g.output = i) s.1) ⟨hw.1, fun i hi => ?_⟩ ?_
    · exact hw.2 i (hi.resolve_right (by simp))
    · intro pre g post s e hs
      refine Safe.bind (evalGate_quiet E gc s.2 g hs (hg pre g post e)) fun p _ => ?_
      refine Safe.bind (P := fun w => Filled gc.circuit.numWires
        (fun i => i < gc.circuit.numInputs ∨ ∃ g' ∈ pre ++ [g], g'.output = i) w) ?_ fun w hw => hw
      refine Safe.set _ _ _ fun _ => hs.set _ _ fun i hi => ?_
      rcases hi with hi | ⟨g', hg', hi⟩
      · exact .inl (.inl hi)
      · rcases List.mem_append.mp hg' with hg' | hg'
        · exact .inl (.inr ⟨g', hg', hi⟩)
        · rw [List.mem_singleton] at hg'
          subst hg'
          exact .inr hi.symm
  rintro ⟨wires, j⟩ hw
  dsimp only at hw ⊢
  have hfin : ∀ a, gc.circuit.numWires - gc.circuit.numOutputs ≤ a → Quiet (do
      let out ← sliceR wires a gc.circuit.numWires
      out.mapM fun w => match w with
        | some w => pure w
        | none => ubR) := by
    intro a ha
    unfold sliceR
    split
    · next hl =>
      rw [okb]
      refine Quiet.mapM _ fun w hmem => ?_
      obtain ⟨i, hi, e⟩ := List.mem_iff_getElem.mp hmem
      have hi' : i < gc.circuit.numWires - a := by
        have := hi
        simp at this
        omega
      obtain ⟨w', e'⟩ := hw.2 (a + i) (ho _ (by omega) (by omega)) (by omega)
      have : wires[a + i]? = some w := by
        rw [← e]
        rw [List.getElem_take, List.getElem_drop, List.getElem?_eq_getElem]
      rw [this] at e'
      have := Option.some.inj e'
      subst this
      exact .pure _
    · exact .panic
  exact Safe.bind (subR_safe ..) hfin

theorem evaluatedKey_quiet (E : Env) (gc : GarbledCircuit) (x : List Wire) (h : Ordered gc.circuit) :
    Quiet (evaluatedKey E gc x) := by
  unfold evaluatedKey
  refine Quiet.bind (evaluate_quiet E gc x h) fun _ => ?_
  quiet

/-! ### Parties -/

/-- The party stays in bounds unless it receives a message of the kind `B`; what it returns satisfies `Q`. -/
def Calm {α : Type} (B : Bytes → Prop) (Q : α → Prop) : Proc α → Prop
  | .ret a => Q a
  | .fail e => e ≠ .ub
  | .send _ k => Calm B Q k
  | .recv k => ∀ m, B m ∨ Calm B Q (k m)

namespace Calm
variable {α β : Type} {B : Bytes → Prop} {P : α → Prop} {Q : β → Prop}

theorem bind {p : Proc α} {f : α → Proc β} (h : Calm B P p) (hf : ∀ a, P a → Calm B Q (f a)) : Calm B Q (p >>= f) := by
  induction p with
  | ret a => exact hf a h
  | fail e => exact h
  | send m k ih => exact ih h
  | recv k ih => exact fun m => (h m).imp id fun h => ih m h

theorem mono {P' : α → Prop} {p : Proc α} (h : Calm B P p) (hP : ∀ a, P a → P' a) : Calm B P' p := by
  induction p with
  | ret a => exact hP a h
  | fail e => exact h
  | send m k ih => exact ih h
  | recv k ih => exact fun m => (h m).imp id fun h => ih m h

theorem lift {r : R α} (h : Safe P r) : Calm B P (liftM r : Proc α) := by
  cases r with
  | ok a => exact h
  | error e => exact h

theorem quietly {r : R α} (h : Quiet r) : Calm B (fun _ => True) (liftM r : Proc α) := lift h

theorem send (m : Bytes) : Calm B (fun _ => True) (sendP m) := trivial

theorem recv : Calm B (fun m => ¬ B m) recvP := fun m => by
  by_cases h : B m
  · exact .inl h
  · exact .inr h

theorem ret {a : α} (h : P a) : Calm B P (pure a : Proc α) := h

theorem err {e : ErrKind} : Calm B P (liftM (errR e : R α) : Proc α) := by
  show Fault.err e ≠ .ub
  simp

theorem against {p : Proc α} (h : Calm B P p) : MemorySafeUnless B p := by
  intro inputs
  induction p generalizing inputs with
  | ret a => intro h; simp [Proc.against] at h
  | fail e =>
    intro h'
    simp [Proc.against] at h'
    exact absurd h' h
  | send m k ih =>
    intro h'
    exact ih h inputs h'
  | recv k ih =>
    intro h'
    cases inputs with
    | nil => simp [Proc.against] at h'
    | cons m rest =>
      rcases h m with hb | hc
      · exact ⟨m, by simp, hb⟩
      · obtain ⟨m', hm', hb⟩ := ih m hc rest h'
        exact ⟨m', by simp [hm'], hb⟩

theorem safe {p : Proc α} (h : Calm (fun _ => False) P p) : MemorySafe p := by
  intro inputs h'
  obtain ⟨m, -, hb⟩ := h.against inputs h'
  exact hb

theorem weaken {B' : Bytes → Prop} {p : Proc α} (h : Calm B P p) (hB : ∀ m, B m → B' m) : Calm B' P p := by
  induction p with
  | ret a => exact h
  | fail e => exact h
  | send m k ih => exact ih h
  | recv k ih => exact fun m => (h m).imp (hB m) fun h => ih m h

theorem sendAll (ms : List Bytes) : Calm B (fun _ => True) (FP.sendAll ms) := by
  induction ms with
  | nil => trivial
  | cons m ms ih => exact ih

theorem recvEach {f : Bytes → R α} (hf : ∀ m, Quiet (f m)) (n : Nat) : Calm B (fun _ => True) (FP.recvEach n f) := by
  induction n with
  | zero => trivial
  | succ n ih =>
    exact recv.bind fun m _ => (quietly (hf m)).bind fun _ _ => ih.bind fun _ _ => ret trivial

end Calm

/-- The converse: what the predicate says is exactly what one sees against all peers. -/
theorem calm_of_memorySafe {α : Type} {p : Proc α} (h : MemorySafe p) : Calm (fun _ => False) (fun _ => True) p := by
  induction p with
  | ret a => trivial
  | fail e => exact fun he => h [] (by rw [he]; rfl)
  | send m k ih => exact ih fun inputs h' => h inputs h'
  | recv k ih => exact fun m => .inr (ih m fun inputs h' => h (m :: inputs) h')

end FP
