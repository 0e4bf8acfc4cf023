import Verif.Spec.Shape
import Verif.Proof.Post
/-
What follows from an evaluation that returns.
-/
namespace FP
open Spec

theorem idxR_lt {α} {l : List α} {i : Nat} {a : α} (h : idxR l i = .ok a) : i < l.length := by
  unfold idxR at h
  split at h
  · rename_i b hb; exact (List.getElem?_eq_some_iff.mp hb).1
  · cases h

theorem setR_len {α} {l l' : List α} {i : Nat} {a : α} (h : setR l i a = .ok l') : i < l.length ∧ l'.length = l.length := by
  unfold setR at h
  split at h
  · rename_i hi; cases h; exact ⟨hi, by simp⟩
  · cases h

theorem bind_inv {α β : Type} {r : R α} {f : α → R β} {b : β} (h : (r >>= f) = .ok b) : ∃ a, r = .ok a ∧ f a = .ok b := by
  cases r with
  | error e => cases h
  | ok a => exact ⟨a, rfl, h⟩

theorem mapM_each {α β : Type} {f : α → R β} {l : List α} {bs : List β} (h : l.mapM f = .ok bs) :
    ∀ a ∈ l, ∃ b, f a = .ok b := by
  induction l generalizing bs with
  | nil => intro a ha; cases ha
  | cons c l ih =>
    rw [List.mapM_cons] at h
    obtain ⟨b, h1, h2⟩ := bind_inv h
    obtain ⟨bs', h3, -⟩ := bind_inv h2
    intro a ha
    rcases List.mem_cons.mp ha with rfl | ha
    · exact ⟨b, h1⟩
    · exact ih h3 a ha

/-- A loop over the gates that keeps the number of wires. -/
theorem foldlM_each {α σ : Type} {len : σ → Nat} {P : Nat → α → Prop} {f : σ → α → R σ}
    (hf : ∀ s a t, f s a = .ok t → len t = len s ∧ P (len s) a) {l : List α} {s t : σ} (h : l.foldlM f s = .ok t) :
    len t = len s ∧ ∀ a ∈ l, P (len s) a := by
  induction l generalizing s with
  | nil => cases h; exact ⟨rfl, fun a ha => by cases ha⟩
  | cons a l ih =>
    rw [List.foldlM_cons] at h
    obtain ⟨u, h1, h2⟩ := bind_inv h
    obtain ⟨e1, e2⟩ := hf s a u h1
    obtain ⟨e3, e4⟩ := ih h2
    refine ⟨by rw [e3, e1], fun b hb => ?_⟩
    rcases List.mem_cons.mp hb with rfl | hb
    · exact e2
    · rw [← e1]; exact e4 b hb

theorem foldlM_all {α σ : Type} {I : σ → Prop} {f : σ → α → R σ} {l : List α}
    (hf : ∀ s, I s → ∀ a ∈ l, ∃ t, f s a = .ok t ∧ I t) {s : σ} (hs : I s) : ∃ t, l.foldlM f s = .ok t ∧ I t := by
  induction l generalizing s with
  | nil => exact ⟨s, rfl, hs⟩
  | cons a l ih =>
    obtain ⟨u, h1, h2⟩ := hf s hs a (by simp)
    rw [List.foldlM_cons, h1, okb]
    exact ih (fun s hs b hb => hf s hs b (by simp [hb])) h2

/-! ### The plain evaluator -/

theorem firstR_inv {α} {l : List α} {a : α} (h : firstR l = .ok a) : l[0]? = some a := by
  cases l with
  | nil => cases h
  | cons b l => cases h; rfl

theorem firstR_of {α} {l : List α} {a : α} (h : l[0]? = some a) : firstR l = .ok a := by
  cases l with
  | nil => cases h
  | cons b l => simp only [List.getElem?_cons_zero, Option.some.injEq] at h; subst h; rfl

theorem evalPlain_inv {dbg : Bool} {g : Gate} {wires : List Nat} {v : Nat} (h : g.evalPlain dbg wires = .ok v) :
    match g.kind with
    | .add => (∀ i ∈ g.inputs, i < wires.length) ∧ g.domain ≠ 0
    | .mul _ | .and => ∃ i, g.inputs[0]? = some i ∧ i < wires.length
    | .proj p => (∃ i, g.inputs[0]? = some i ∧ i < wires.length) ∧ p.dom ≠ 0 := by
  unfold Gate.evalPlain at h
  split at h <;> rename_i hk <;> rw [hk]
  · obtain ⟨vs, h3, h1⟩ := bind_inv h
    obtain ⟨s, -, h2⟩ := bind_inv h1
    refine ⟨fun i hi => ?_, fun h0 => ?_⟩
    · obtain ⟨b, hb⟩ := mapM_each h3 i hi
      exact idxR_lt hb
    · rw [remR, if_pos h0] at h2; cases h2
  · obtain ⟨i, h3, h1⟩ := bind_inv h
    obtain ⟨a, h4, h2⟩ := bind_inv h1
    exact ⟨i, firstR_inv h3, idxR_lt h4⟩
  · obtain ⟨i, h3, h1⟩ := bind_inv h
    obtain ⟨a, h4, h2⟩ := bind_inv h1
    refine ⟨⟨i, firstR_inv h3, idxR_lt h4⟩, fun h0 => ?_⟩
    rename_i p
    cases p with
    | map m => rw [ProjKind.dom] at h0; rw [ProjKind.project, remR, if_pos h0] at h2; cases h2
    | less t => cases h0
  · obtain ⟨i, h3, h1⟩ := bind_inv h
    obtain ⟨a, h4, h2⟩ := bind_inv h1
    exact ⟨i, firstR_inv h3, idxR_lt h4⟩

theorem eval_shape {dbg : Bool} {c : Circuit} {x w : List Nat} (h : c.eval dbg x = .ok w) :
    w.length = c.numWires ∧ x.length ≤ c.numWires ∧ ∀ g ∈ c.gates, Computable c.numWires g := by
  unfold Circuit.eval at h
  obtain ⟨u, h1, h2⟩ := bind_inv h
  obtain ⟨e1, e2⟩ := foldlM_each (len := List.length) (P := fun n (p : Nat × Nat) => p.2 < n)
    (fun s a t ht => by obtain ⟨q1, q2⟩ := setR_len ht; exact ⟨q2, q1⟩) h1
  obtain ⟨e3, e4⟩ := foldlM_each (len := List.length) (P := Computable) (fun s g t ht => by
    obtain ⟨v, h3, h4⟩ := bind_inv ht
    obtain ⟨q1, q2⟩ := setR_len h4
    exact ⟨q2, q1, evalPlain_inv h3⟩) h2
  rw [List.length_replicate] at e1 e2
  refine ⟨by rw [e3, e1], ?_, by rw [← e1]; exact e4⟩
  by_contra hlt
  have hlast : (x.getD c.numWires 0, c.numWires) ∈ x.zipIdx := by
    rw [List.mem_iff_getElem?]
    refine ⟨c.numWires, ?_⟩
    rw [List.getElem?_zipIdx, List.getD, List.getElem?_eq_getElem (by omega)]
    simp
  have := e2 _ hlast
  simp at this

theorem addR_release (W a b : Nat) : ∃ v, addR false W a b = .ok v := by
  unfold addR
  split
  · exact ⟨_, rfl⟩
  · exact ⟨_, rfl⟩

theorem mulR_release (W a b : Nat) : ∃ v, mulR false W a b = .ok v := by
  unfold mulR
  split
  · exact ⟨_, rfl⟩
  · exact ⟨_, rfl⟩

theorem idxR_total {α} {l : List α} {i : Nat} (h : i < l.length) : ∃ a, idxR l i = .ok a := by
  unfold idxR
  rw [List.getElem?_eq_getElem h]
  exact ⟨_, rfl⟩

theorem remR_total {a m : Nat} (h : m ≠ 0) : remR a m = .ok (a % m) := by
  rw [remR, if_neg h]

theorem evalPlain_total {g : Gate} {wires : List Nat} (h : Computable wires.length g) :
    ∃ v, g.evalPlain false wires = .ok v := by
  have h2 := h.2
  unfold Gate.evalPlain
  split <;> rename_i hk <;> rw [hk] at h2 <;> simp only at h2
  · obtain ⟨h3, h4⟩ := h2
    obtain ⟨vs, hvs, -⟩ := mapM_exists (l := g.inputs) (f := idxR wires) (P := fun _ _ => True) (fun i hi => by
      obtain ⟨a, ha⟩ := idxR_total (h3 i hi); exact ⟨a, ha, trivial⟩)
    obtain ⟨s, hs, -⟩ := foldlM_all (I := fun _ : Nat => True) (f := addR false 65536) (l := vs) (fun s _ a _ => by
      obtain ⟨t, ht⟩ := addR_release 65536 s a; exact ⟨t, ht, trivial⟩) (s := 0) trivial
    rw [hvs, okb, sumU16, hs, okb, remR_total h4]
    exact ⟨_, rfl⟩
  · obtain ⟨i, h3, h4⟩ := h2
    obtain ⟨a, ha⟩ := idxR_total h4
    rw [firstR_of h3, okb, ha, okb]
    exact mulR_release _ _ _
  · obtain ⟨⟨i, h3, h4⟩, h5⟩ := h2
    obtain ⟨a, ha⟩ := idxR_total h4
    rw [firstR_of h3, okb, ha, okb]
    rename_i p
    cases p with
    | map m => exact ⟨_, remR_total h5⟩
    | less t => exact ⟨_, rfl⟩
  · obtain ⟨i, h3, h4⟩ := h2
    obtain ⟨a, ha⟩ := idxR_total h4
    rw [firstR_of h3, okb, ha, okb]
    exact ⟨_, rfl⟩

theorem eval_total {c : Circuit} {x : List Nat} (hx : x.length ≤ c.numWires) (hg : ∀ g ∈ c.gates, Computable c.numWires g) :
    ∃ w, c.eval false x = .ok w := by
  unfold Circuit.eval
  obtain ⟨u, h1, h2⟩ := foldlM_all (I := fun s : List Nat => s.length = c.numWires)
    (f := fun w (p : Nat × Nat) => setR w p.2 p.1) (l := x.zipIdx) (fun s hs p hp => by
      have : p.2 < x.length := by
        obtain ⟨k, hk⟩ := List.mem_iff_getElem?.mp hp
        rw [List.getElem?_zipIdx] at hk
        cases hxk : x[k]? with
        | none => rw [hxk] at hk; cases hk
        | some v =>
          rw [hxk] at hk
          cases hk
          simpa using (List.getElem?_eq_some_iff.mp hxk).1
      refine ⟨_, setR_ok _ (by omega), by simp [hs]⟩) (s := List.replicate c.numWires 0) (by simp)
  rw [h1, okb]
  obtain ⟨w, h3, -⟩ := foldlM_all (I := fun s : List Nat => s.length = c.numWires)
    (f := fun w (g : Gate) => do setR w g.output (← g.evalPlain false w)) (l := c.gates) (fun s hs g hgm => by
      have hgc := hg g hgm
      rw [← hs] at hgc
      obtain ⟨v, hv⟩ := evalPlain_total hgc
      refine ⟨_, by rw [hv, okb]; exact setR_ok _ hgc.1, by simp [hs]⟩) h2
  exact ⟨w, h3⟩

/-! ### The evaluator of garbled circuits -/

theorem readInit_lt {wires : List (Option Wire)} {i : Nat} {w : Wire} (h : readInit wires i = .ok w) : i < wires.length := by
  unfold readInit at h
  obtain ⟨a, h1, -⟩ := bind_inv h
  exact idxR_lt h1

theorem idxR_some {α} {l : List α} {i : Nat} {a : α} (h : idxR l i = .ok a) : l[i]? = some a := by
  unfold idxR at h
  split at h
  · rename_i b hb; cases h; exact hb
  · cases h

theorem take_one {α} {l : List α} {a : α} (h : l[0]? = some a) : l.take 1 = [a] := by
  cases l with
  | nil => cases h
  | cons b l => simp only [List.getElem?_cons_zero, Option.some.injEq] at h; subst h; simp

theorem take_two {α} {l : List α} {a b : α} (h : l[0]? = some a) (h' : l[1]? = some b) : l.take 2 = [a, b] := by
  match l, h, h' with
  | x :: y :: l, h, h' =>
    simp only [List.getElem?_cons_zero, List.getElem?_cons_succ, Option.some.injEq] at h h'
    subst h h'; simp

theorem evalGate_reads {E : Env} {gc : GarbledCircuit} {wires : List (Option Wire)} {j : Nat} {g : Gate} {p : Wire × Nat}
    (h : evalGate E gc wires j g = .ok p) : ∀ i ∈ gateReads g, i < wires.length := by
  unfold evalGate at h
  unfold gateReads
  split at h <;> rename_i hk <;> rw [hk] <;> simp only
  · obtain ⟨vs, h1, -⟩ := bind_inv h
    intro i hi
    obtain ⟨b, hb⟩ := mapM_each h1 i hi
    exact readInit_lt hb
  · obtain ⟨i, h1, h2⟩ := bind_inv h
    obtain ⟨w, h3, -⟩ := bind_inv h2
    rw [take_one (idxR_some h1)]
    intro k hk
    rw [List.mem_singleton.mp hk]
    exact readInit_lt h3
  · obtain ⟨i, h1, h2⟩ := bind_inv h
    obtain ⟨w, h3, -⟩ := bind_inv h2
    rw [take_one (idxR_some h1)]
    intro k hk
    rw [List.mem_singleton.mp hk]
    exact readInit_lt h3
  · obtain ⟨a, h1, h2⟩ := bind_inv h
    obtain ⟨wa, h3, h4⟩ := bind_inv h2
    obtain ⟨b, h5, h6⟩ := bind_inv h4
    obtain ⟨wb, h7, -⟩ := bind_inv h6
    rw [take_two (idxR_some h1) (idxR_some h5)]
    intro k hk
    simp only [List.mem_cons, List.not_mem_nil, or_false] at hk
    rcases hk with rfl | rfl
    · exact readInit_lt h3
    · exact readInit_lt h7

theorem evaluate_shape {E : Env} {gc : GarbledCircuit} {x out : List Wire} (hw : gc.circuit.numWires < 2 ^ 64)
    (ho : gc.circuit.numOutputs < 2 ^ 64) (h : evaluate E gc x = .ok out) :
    out.length = gc.circuit.numOutputs ∧ gc.circuit.numInputs ≤ x.length ∧
      (E.dbg = true → x.length = gc.circuit.numInputs) ∧ Addressed gc.circuit := by
  unfold evaluate at h
  simp only at h
  obtain ⟨_, h0, h⟩ := bind_inv h
  obtain ⟨u, h1, h⟩ := bind_inv h
  obtain ⟨⟨v, j⟩, h2, h⟩ := bind_inv h
  obtain ⟨k, h3, h⟩ := bind_inv h
  obtain ⟨sl, h4, h⟩ := bind_inv h
  obtain ⟨e1, e2⟩ := foldlM_each (len := List.length) (P := fun n i => i < n ∧ i < x.length) (fun s i t ht => by
    obtain ⟨a, q1, q2⟩ := bind_inv ht
    obtain ⟨q3, q4⟩ := setR_len q2
    exact ⟨q4, q3, idxR_lt q1⟩) h1
  obtain ⟨e3, e4⟩ := foldlM_each (len := fun s : List (Option Wire) × Nat => s.1.length)
    (P := fun n g => g.output < n ∧ ∀ i ∈ gateReads g, i < n) (fun s g t ht => by
      obtain ⟨⟨w, j⟩, q1, q2⟩ := bind_inv ht
      obtain ⟨l, q3, q4⟩ := bind_inv q2
      obtain ⟨q5, q6⟩ := setR_len q3
      cases q4
      exact ⟨q6, q5, evalGate_reads q1⟩) h2
  rw [List.length_replicate] at e1 e2
  simp only [e1] at e3 e4
  have hout : gc.circuit.numOutputs ≤ gc.circuit.numWires ∧ k = gc.circuit.numWires - gc.circuit.numOutputs ∧
      sl.length = gc.circuit.numOutputs := by
    unfold sliceR at h4
    split at h4
    · rename_i hs
      unfold subR at h3
      split at h3
      · rename_i hle
        cases h3
        cases h4
        refine ⟨hle, rfl, ?_⟩
        rw [List.length_take, List.length_drop]
        omega
      · split at h3
        · cases h3
        · rename_i hle _
          have := Except.ok.inj h3
          omega
    · cases h4
  have hall : ∀ i, i < gc.circuit.numInputs → i < gc.circuit.numWires ∧ i < x.length := fun i hi =>
    e2 i (List.mem_range.mpr hi)
  refine ⟨by rw [mapM_length h, hout.2.2], ?_, ?_, ?_, hout.1, fun g hg => (e4 g hg).1, fun g hg => (e4 g hg).2⟩
  · by_contra hlt
    have := (hall x.length (by omega)).2
    omega
  · intro hd
    unfold debugAssertR at h0
    by_contra hne
    rw [hd] at h0
    simp [hne, assertR, panicR] at h0
  · by_contra hlt
    have := (hall gc.circuit.numWires (by omega)).1
    omega

/-! ### Garbling -/

theorem garbleGate_d {E : Env} {dl : HMap Nat Wire} {s t : GarbleState} {g : Gate} (h : garbleGate E dl s g = .ok t) :
    t.d = s.d := by
  unfold garbleGate at h
  split at h
  · obtain ⟨vs, -, h⟩ := bind_inv h
    obtain ⟨w, -, h⟩ := bind_inv h
    cases h; rfl
  · obtain ⟨i, -, h⟩ := bind_inv h
    obtain ⟨w, -, h⟩ := bind_inv h
    obtain ⟨w', -, h⟩ := bind_inv h
    cases h; rfl
  · obtain ⟨⟨w, t⟩, -, h⟩ := bind_inv h
    cases h; rfl
  · obtain ⟨⟨w, t⟩, -, h⟩ := bind_inv h
    cases h; rfl

theorem garbleDecoding_d {E : Env} {dl : HMap Nat Wire} {n : Nat} {s t : GarbleState} {g : Gate}
    (h : garbleDecoding E dl n s g = .ok t) :
    t.d.map List.length = s.d.map List.length ++ if n ≤ g.output then [g.outputDomain] else [] := by
  unfold garbleDecoding at h
  split at h
  · rename_i hn
    obtain ⟨vs, h1, h⟩ := bind_inv h
    cases h
    rw [if_pos hn]
    simp [mapM_length h1]
  · rename_i hn
    cases h
    rw [if_neg hn]
    simp

theorem garble_shape {E : Env} {rnd : GarbleRand} {c : Circuit} {gc : GarbledCircuit} {e : EncodingKey} {d : DecodingKey}
    (h : garble E rnd c = .ok (gc, e, d)) :
    gc.circuit = c ∧ e.wires.length = c.numInputs ∧ c.numInputs ≤ c.inputDomains.length ∧
      (c.numOutputs ≤ c.numWires → d.offset = c.numWires - c.numOutputs) ∧
      d.hashes.map List.length = (c.gates.filter fun g => d.offset ≤ g.output).map Gate.outputDomain := by
  unfold garble at h
  obtain ⟨run, h1, h⟩ := bind_inv h
  cases h
  unfold garbleRun at h1
  obtain ⟨dl, -, h1⟩ := bind_inv h1
  obtain ⟨ws, h2, h1⟩ := bind_inv h1
  obtain ⟨enc, h3, h1⟩ := bind_inv h1
  obtain ⟨k, h4, h1⟩ := bind_inv h1
  obtain ⟨s, h5, h1⟩ := bind_inv h1
  cases h1
  have hl := mapM_length h2
  rw [List.length_zipIdx] at hl
  have h3' : enc.length = c.numInputs ∧ c.numInputs ≤ ws.length := by
    unfold sliceR at h3
    split at h3
    · rename_i hs
      cases h3
      refine ⟨?_, hs.2⟩
      rw [List.length_take, List.length_drop]
      omega
    · cases h3
  refine ⟨rfl, h3'.1, by omega, fun hle => ?_, ?_⟩
  · rw [subR, if_pos hle] at h4
    exact (Except.ok.inj h4).symm
  · simp only
    have key : ∀ (gs : List Gate) (s t : GarbleState), gs.foldlM (fun s g => do
        garbleDecoding E dl k (← garbleGate E dl s g) g) s = .ok t →
        t.d.map List.length = s.d.map List.length ++ (gs.filter fun g => k ≤ g.output).map Gate.outputDomain := by
      intro gs
      induction gs with
      | nil => intro s t h; cases h; simp
      | cons g gs ih =>
        intro s t h
        rw [List.foldlM_cons] at h
        obtain ⟨u, g1, g2⟩ := bind_inv h
        obtain ⟨v, g3, g4⟩ := bind_inv g1
        rw [ih u t g2, garbleDecoding_d g4, garbleGate_d g3]
        by_cases hk : k ≤ g.output <;> simp [hk]
    have := key _ _ _ h5
    simpa using this

theorem encode_length {dbg : Bool} {e : EncodingKey} {x : List Nat} {X : List Wire} (h : e.encode dbg x = .ok X) :
    X.length = min e.wires.length x.length ∧ (dbg = true → e.wires.length = x.length) := by
  unfold EncodingKey.encode at h
  obtain ⟨_, h0, h⟩ := bind_inv h
  refine ⟨by rw [mapM_length h, List.length_zip], fun hd => ?_⟩
  unfold debugAssertR at h0
  by_contra hne
  rw [hd] at h0
  simp [hne, assertR, panicR] at h0

end FP
