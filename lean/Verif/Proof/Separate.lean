import Verif.Spec.Separate
import Verif.Proof.HalfPrivate
import Verif.Proof.Bits
import Verif.Proof.Shape
import Verif.Proof.Keys
/-
Garbling and evaluating depend on the hash function only where the gates and outputs of the circuit use it.
-/
namespace FP
open Spec

theorem pairBytes_eq (x : Nat) : beBytes 2 x = pairBytes x := by
  simp [beBytes, pairBytes, List.range_succ, Nat.shiftRight_eq_div_pow]

theorem pairBytes_inj {x y : Nat} (hx : x < 2 ^ 16) (hy : y < 2 ^ 16) (h : pairBytes x = pairBytes y) : x = y := by
  simp only [pairBytes, List.cons.injEq, and_true] at h
  obtain ⟨a, b⟩ := h
  have a' := congrArg BitVec.toNat a
  have b' := congrArg BitVec.toNat b
  simp only [BitVec.toNat_ofNat] at a' b'
  omega

section
variable {E : Env} {sha' : Bytes → WireBytes}

theorem hashHalf_same {j : Nat} (h : ∀ w, sha' (andBytes j w) = E.sha256 (andBytes j w)) (w : Wire) :
    hashHalf { E with sha256 := sha' } w j = hashHalf E w j := by
  unfold hashHalf Wire.bytes
  rw [rowBytes_eq]
  exact congrArg _ (h w.values)

theorem hashWire_same {o : Nat} (h : ∀ w, sha' (projBytes o w) = E.sha256 (projBytes o w)) (w t : Wire) :
    hashWire { E with sha256 := sha' } o w t = hashWire E o w t := by
  unfold hashWire Wire.bytes
  rw [rowBytes_eq]
  exact congrArg (fun v => Wire.fromArray E.dbg v t.domain) (h w.values)

theorem hashOut_same {o x : Nat} (h : ∀ w, sha' (decodeBytes o x w) = E.sha256 (decodeBytes o x w)) (w : Wire) :
    hashOut { E with sha256 := sha' } o x w = hashOut E o x w := by
  unfold hashOut Wire.bytes
  rw [rowBytes_eq, pairBytes_eq]
  exact h w.values

/-- Agreement for one gate, an AND gate having number `k`. -/
def SameAt (sha sha' : Bytes → WireBytes) (g : Gate) (k : Nat) : Prop :=
  (isAnd g = true → ∀ w, sha' (andBytes k w) = sha (andBytes k w)) ∧
  (isProjection g → ∀ w, sha' (projBytes g.output w) = sha (projBytes g.output w))

theorem garbleGate_same {g : Gate} {s : GarbleState} (h : SameAt E.sha256 sha' g (s.j + 1)) (delta : HMap Nat Wire) :
    garbleGate { E with sha256 := sha' } delta s g = garbleGate E delta s g := by
  unfold garbleGate
  split
  · rfl
  · rfl
  · rename_i p hk
    have := hashWire_same (h.2 ⟨p, hk⟩)
    unfold garbleProj
    simp only [this]
  · rename_i hk
    have := hashHalf_same (h.1 (by simp [isAnd, hk]))
    unfold garbleAnd
    simp only [this]

theorem evalGate_same {g : Gate} {j : Nat} (h : SameAt E.sha256 sha' g (j + 1)) (gc : GarbledCircuit)
    (ws : List (Option Wire)) : evalGate { E with sha256 := sha' } gc ws j g = evalGate E gc ws j g := by
  unfold evalGate
  split
  · rfl
  · rfl
  · rename_i p hk
    simp only [hashWire_same (h.2 ⟨p, hk⟩)]
  · rename_i hk
    simp only [hashHalf_same (h.1 (by simp [isAnd, hk]))]

/-- Agreement for a list of gates, the first AND gate having number `k`. -/
def SameFrom (sha sha' : Bytes → WireBytes) (gates : List Gate) (k : Nat) : Prop :=
  (∀ p ∈ (gates.filter isAnd).zipIdx k, ∀ w, sha' (andBytes p.2 w) = sha (andBytes p.2 w)) ∧
  ∀ g ∈ gates, isProjection g → ∀ w, sha' (projBytes g.output w) = sha (projBytes g.output w)

theorem SameFrom.head {sha : Bytes → WireBytes} {g : Gate} {gates : List Gate} {k : Nat}
    (h : SameFrom sha sha' (g :: gates) k) : SameAt sha sha' g k :=
  ⟨fun ha => h.1 (g, k) (by simp [ha]), fun hp => h.2 g (by simp) hp⟩

theorem SameFrom.tail {sha : Bytes → WireBytes} {g : Gate} {gates : List Gate} {k : Nat}
    (h : SameFrom sha sha' (g :: gates) k) : SameFrom sha sha' gates (if isAnd g then k + 1 else k) := by
  refine ⟨fun p hp => h.1 p ?_, fun g' hg => h.2 g' (by simp [hg])⟩
  by_cases ha : isAnd g = true
  · simp only [ha, if_true] at hp
    rw [List.filter_cons_of_pos ha]
    simp [hp]
  · simp only [ha] at hp
    rw [List.filter_cons_of_neg ha]
    simpa using hp

/-- The state without its decoding information. -/
def GarbleState.bare (s : GarbleState) : GarbleState := { s with d := [] }

theorem garbleGate_j {E : Env} {delta : HMap Nat Wire} {s s' : GarbleState} {g : Gate}
    (h : garbleGate E delta s g = .ok s') : s'.j = if isAnd g then s.j + 1 else s.j := by
  unfold garbleGate at h
  split at h <;> rename_i hk
  · obtain ⟨_, _, h⟩ := bind_inv h
    obtain ⟨_, _, h⟩ := bind_inv h
    cases h; simp [isAnd, hk]
  · obtain ⟨_, _, h⟩ := bind_inv h
    obtain ⟨_, _, h⟩ := bind_inv h
    obtain ⟨_, _, h⟩ := bind_inv h
    cases h; simp [isAnd, hk]
  · obtain ⟨_, _, h⟩ := bind_inv h
    cases h; simp [isAnd, hk]
  · obtain ⟨_, _, h⟩ := bind_inv h
    cases h; simp [isAnd, hk]

theorem garbleDecoding_j {E : Env} {delta : HMap Nat Wire} {o : Nat} {s s' : GarbleState} {g : Gate}
    (h : garbleDecoding E delta o s g = .ok s') : s'.j = s.j := by
  unfold garbleDecoding at h
  split at h
  · obtain ⟨_, _, h⟩ := bind_inv h
    cases h; rfl
  · cases h; rfl

theorem garbleDecoding_same {delta : HMap Nat Wire} {o : Nat} {s : GarbleState} {g : Gate}
    (h : o ≤ g.output → ∀ x < g.outputDomain, ∀ w, sha' (decodeBytes g.output x w) = E.sha256 (decodeBytes g.output x w)) :
    garbleDecoding { E with sha256 := sha' } delta o s g = garbleDecoding E delta o s g := by
  unfold garbleDecoding
  split
  · rename_i ho
    congr 1
    apply mapM_congr_mem
    intro x hx
    have := hashOut_same (h ho x (List.mem_range.mp hx))
    simp only [this]
  · rfl

/-- All steps of the loop, when the hash functions agree on everything. -/
theorem loop_same {delta : HMap Nat Wire} {o : Nat} (gates : List Gate) : ∀ (s : GarbleState),
    SameFrom E.sha256 sha' gates (s.j + 1) →
    (∀ g ∈ gates, o ≤ g.output → ∀ x < g.outputDomain, ∀ w,
      sha' (decodeBytes g.output x w) = E.sha256 (decodeBytes g.output x w)) →
    gates.foldlM (fun s g => do
      garbleDecoding { E with sha256 := sha' } delta o (← garbleGate { E with sha256 := sha' } delta s g) g) s =
    gates.foldlM (fun s g => do garbleDecoding E delta o (← garbleGate E delta s g) g) s := by
  induction gates with
  | nil => intro s _ _; rfl
  | cons g gates ih =>
    intro s h hd
    rw [List.foldlM_cons, List.foldlM_cons, garbleGate_same h.head]
    cases h1 : garbleGate E delta s g with
    | error e => rfl
    | ok s1 =>
      simp only [okb]
      rw [garbleDecoding_same (hd g (by simp))]
      cases h2 : garbleDecoding E delta o s1 g with
      | error e => rfl
      | ok s2 =>
        simp only [okb]
        have j1 := garbleGate_j h1
        have j2 := garbleDecoding_j h2
        refine ih s2 ?_ (fun g' hg => hd g' (by simp [hg]))
        have := h.tail
        rw [j2, j1]
        split <;> simp_all

/-- Applying a function to a returned value. -/
def mapR {α β} (f : α → β) (r : R α) : R β := r >>= fun a => pure (f a)

theorem garbleGate_bare {E : Env} {delta : HMap Nat Wire} {s t : GarbleState} {g : Gate} (h : s.bare = t.bare) :
    mapR GarbleState.bare (garbleGate E delta s g) = mapR GarbleState.bare (garbleGate E delta t g) := by
  obtain ⟨w, f, fh, d, j⟩ := s
  obtain ⟨w', f', fh', d', j'⟩ := t
  simp only [GarbleState.bare, GarbleState.mk.injEq, and_true, true_and] at h
  obtain ⟨rfl, rfl, rfl, rfl⟩ := h
  unfold garbleGate mapR
  cases g.kind <;> simp only [bind_assoc, pure_bind, GarbleState.bare]

theorem outs_same {delta : HMap Nat Wire} {ws : List Wire} {g : Gate} (l : List Nat) :
    mapR (fun _ => ()) (l.mapM fun x => do
      return hashOut { E with sha256 := sha' } g.output x
        (← Wire.add E.dbg (← idxR ws g.output) (← Wire.mul E.dbg (← delta.getR g.outputDomain) x))) =
    mapR (fun _ => ()) (l.mapM fun x => do
      return hashOut E g.output x
        (← Wire.add E.dbg (← idxR ws g.output) (← Wire.mul E.dbg (← delta.getR g.outputDomain) x))) := by
  unfold mapR
  induction l with
  | nil => rfl
  | cons x l ih =>
    simp only [List.mapM_cons, bind_assoc, pure_bind] at ih ⊢
    simp only [ih]

theorem garbleDecoding_bare {delta : HMap Nat Wire} {o : Nat} {s t : GarbleState} {g : Gate} (h : s.bare = t.bare) :
    mapR GarbleState.bare (garbleDecoding { E with sha256 := sha' } delta o s g) =
      mapR GarbleState.bare (garbleDecoding E delta o t g) := by
  obtain ⟨w, f, fh, d, j⟩ := s
  obtain ⟨w', f', fh', d', j'⟩ := t
  simp only [GarbleState.bare, GarbleState.mk.injEq, and_true, true_and] at h
  obtain ⟨rfl, rfl, rfl, rfl⟩ := h
  unfold garbleDecoding
  split
  · have := outs_same (E := E) (sha' := sha') (delta := delta) (ws := w) (g := g) (List.range g.outputDomain)
    unfold mapR at this ⊢
    simp only [bind_assoc, pure_bind, GarbleState.bare]
    have := congrArg (fun r => r >>= fun _ : Unit => (pure ⟨w, f, fh, [], j⟩ : R GarbleState)) this
    simpa only [bind_assoc, pure_bind] using this
  · rfl

theorem mapR_inv {α β} {f : α → β} {r r' : R α} (h : mapR f r = mapR f r') :
    (∃ e, r = .error e ∧ r' = .error e) ∨ ∃ a a', r = .ok a ∧ r' = .ok a' ∧ f a = f a' := by
  cases r <;> cases r' <;> simp_all [mapR, okb, errb, purek]

theorem loop_bare {delta : HMap Nat Wire} {o : Nat} (gates : List Gate) : ∀ (s t : GarbleState), s.bare = t.bare →
    SameFrom E.sha256 sha' gates (t.j + 1) →
    mapR GarbleState.bare (gates.foldlM (fun s g => do
      garbleDecoding { E with sha256 := sha' } delta o (← garbleGate { E with sha256 := sha' } delta s g) g) s) =
    mapR GarbleState.bare (gates.foldlM (fun s g => do garbleDecoding E delta o (← garbleGate E delta s g) g) t) := by
  induction gates with
  | nil => intro s t h _; simp [mapR, okb, purek, h]
  | cons g gates ih =>
    intro s t h hs
    have ej : s.j = t.j := show s.bare.j = t.bare.j by rw [h]
    rw [List.foldlM_cons, List.foldlM_cons, garbleGate_same (ej ▸ hs.head)]
    rcases mapR_inv (garbleGate_bare (E := E) (delta := delta) (g := g) h) with ⟨e, e1, e2⟩ | ⟨a, a', e1, e2, e3⟩
    · simp only [e1, e2, errb]
    · simp only [e1, e2, okb]
      rcases mapR_inv (garbleDecoding_bare (E := E) (sha' := sha') (delta := delta) (o := o) (g := g) e3) with
        ⟨e, f1, f2⟩ | ⟨b, b', f1, f2, f3⟩
      · simp only [f1, f2, errb]
      · simp only [f1, f2, okb]
        refine ih b b' f3 ?_
        have := hs.tail
        rw [garbleDecoding_j f2, garbleGate_j e2]
        split <;> simp_all

theorem garbleRun_bare (rnd : GarbleRand) {c : Circuit} (h : SameForGates c E.sha256 sha') :
    mapR (fun r => (r.state.bare, r.delta, r.encWires, r.outputsStartAt)) (garbleRun { E with sha256 := sha' } rnd c) =
      mapR (fun r => (r.state.bare, r.delta, r.encWires, r.outputsStartAt)) (garbleRun E rnd c) := by
  unfold garbleRun mapR
  simp only [bind_assoc, pure_bind]
  refine bind_congr fun delta => ?_
  refine bind_congr fun wires => ?_
  refine bind_congr fun enc => ?_
  refine bind_congr fun o => ?_
  have := loop_bare (E := E) (sha' := sha') (delta := delta) (o := o) c.gates ⟨wires, [], [], [], 0⟩
    ⟨wires, [], [], [], 0⟩ rfl h
  have := congrArg (fun r => r >>= fun b => (pure (b, delta, enc, o) : R _)) this
  simpa only [mapR, bind_assoc, pure_bind] using this

theorem garble_bare (rnd : GarbleRand) {c : Circuit} (h : SameForGates c E.sha256 sha') :
    mapR (fun r => (r.1, r.2.1)) (garble { E with sha256 := sha' } rnd c) =
      mapR (fun r => (r.1, r.2.1)) (garble E rnd c) := by
  have := garbleRun_bare (E := E) rnd h
  have := congrArg (fun r => r >>= fun b =>
    (pure ((⟨c, b.1.f, b.1.fHalf⟩ : GarbledCircuit), (⟨b.2.2.1, b.2.1⟩ : EncodingKey)) : R _)) this
  simpa only [garble, mapR, bind_assoc, pure_bind, GarbleState.bare] using this

theorem garble_same (rnd : GarbleRand) {c : Circuit} (h : SameForGates c E.sha256 sha')
    (hd : SameForOutputs c E.sha256 sha') : garble { E with sha256 := sha' } rnd c = garble E rnd c := by
  unfold garble garbleRun
  simp only [bind_assoc, pure_bind]
  refine bind_congr fun delta => ?_
  refine bind_congr fun wires => ?_
  refine bind_congr fun enc => ?_
  cases ho : subR E.dbg (2 ^ 64) c.numWires c.numOutputs with
  | error e => rfl
  | ok o =>
    simp only [okb]
    rw [loop_same c.gates ⟨wires, [], [], [], 0⟩ h]
    intro g hg hle
    refine hd g hg ?_
    unfold subR at ho
    split at ho
    · have := Except.ok.inj ho; omega
    · split at ho
      · cases ho
      · omega

theorem evaluate_same {gc : GarbledCircuit} (h : SameForGates gc.circuit E.sha256 sha') (x : List Wire) :
    evaluate { E with sha256 := sha' } gc x = evaluate E gc x := by
  have loop : ∀ (gates : List Gate) (s : List (Option Wire) × Nat), SameFrom E.sha256 sha' gates (s.2 + 1) →
      gates.foldlM (fun (s : List (Option Wire) × Nat) g => do
        let (w, j) ← evalGate { E with sha256 := sha' } gc s.1 s.2 g
        return (← setR s.1 g.output (some w), j)) s =
      gates.foldlM (fun (s : List (Option Wire) × Nat) g => do
        let (w, j) ← evalGate E gc s.1 s.2 g
        return (← setR s.1 g.output (some w), j)) s := by
    intro gates
    induction gates with
    | nil => intro s _; rfl
    | cons g gates ih =>
      intro s hs
      rw [List.foldlM_cons, List.foldlM_cons, evalGate_same hs.head]
      cases h1 : evalGate E gc s.1 s.2 g with
      | error e => rfl
      | ok p =>
        simp only [okb]
        cases h2 : setR s.1 g.output (some p.1) with
        | error e => rfl
        | ok l =>
          simp only [okb, purek]
          refine ih (l, p.2) ?_
          have hj : p.2 = if isAnd g then s.2 + 1 else s.2 := by
            unfold evalGate at h1
            split at h1 <;> rename_i hk
            · obtain ⟨_, _, h1⟩ := bind_inv h1
              obtain ⟨_, _, h1⟩ := bind_inv h1
              cases h1; simp [isAnd, hk]
            · obtain ⟨_, _, h1⟩ := bind_inv h1
              obtain ⟨_, _, h1⟩ := bind_inv h1
              obtain ⟨_, _, h1⟩ := bind_inv h1
              cases h1; simp [isAnd, hk]
            · obtain ⟨_, _, h1⟩ := bind_inv h1
              obtain ⟨_, _, h1⟩ := bind_inv h1
              obtain ⟨_, _, h1⟩ := bind_inv h1
              obtain ⟨_, _, h1⟩ := bind_inv h1
              obtain ⟨_, _, h1⟩ := bind_inv h1
              obtain ⟨_, _, h1⟩ := bind_inv h1
              cases h1; simp [isAnd, hk]
            · obtain ⟨_, _, h1⟩ := bind_inv h1
              obtain ⟨_, _, h1⟩ := bind_inv h1
              obtain ⟨_, _, h1⟩ := bind_inv h1
              obtain ⟨_, _, h1⟩ := bind_inv h1
              obtain ⟨_, _, h1⟩ := bind_inv h1
              have : p.2 = s.2 + 1 := by
                simp only [bind_assoc, pure_bind] at h1
                repeat' split at h1
                all_goals
                  simp only [okb, purek] at h1
                  repeat obtain ⟨_, _, h1⟩ := bind_inv h1
                  cases h1
                  rfl
              simp [isAnd, hk, this]
          have := hs.tail
          simp only [hj]
          split <;> simp_all
  unfold evaluate
  simp only []
  refine bind_congr fun _ => ?_
  refine bind_congr fun ws => ?_
  rw [loop gc.circuit.gates (ws, 0) h]

end

end FP
