import Verif.Proof.Separate
import Verif.Props.Garble
import Verif.Proof.Witness
/-
C83: garbling uses the hash function for different purposes on different inputs, and not elsewhere.
-/
namespace FP.Props
open FP Spec

/-- C83: what `garble` returns depends on the hash function only at the inputs that belong to the AND gates, the
projection gates and the outputs of the circuit. -/
theorem C83_garble (E : Env) (sha' : Bytes → WireBytes) (rnd : GarbleRand) (c : Circuit)
    (hg : SameForGates c E.sha256 sha') (ho : SameForOutputs c E.sha256 sha') :
    garble { E with sha256 := sha' } rnd c = garble E rnd c :=
  garble_same rnd hg ho

/-- C83: the garbled circuit and the encoding key depend only on those that belong to the gates; nor do the others
decide whether garbling succeeds. -/
theorem C83_tables (E : Env) (sha' : Bytes → WireBytes) (rnd : GarbleRand) (c : Circuit)
    (hg : SameForGates c E.sha256 sha') (gc : GarbledCircuit) (e : EncodingKey) :
    (∃ d, garble { E with sha256 := sha' } rnd c = .ok (gc, e, d)) ↔ ∃ d, garble E rnd c = .ok (gc, e, d) := by
  rcases mapR_inv (garble_bare (E := E) rnd hg) with ⟨e, e1, e2⟩ | ⟨⟨a1, a2, a3⟩, ⟨b1, b2, b3⟩, e1, e2, e3⟩
  · simp only [e1, e2, reduceCtorEq]
  · simp only [Prod.mk.injEq] at e3
    obtain ⟨rfl, rfl⟩ := e3
    rw [e1, e2]
    simp only [Except.ok.injEq, Prod.mk.injEq]
    constructor
    · rintro ⟨d, h1, h2, _⟩; exact ⟨b3, h1, h2, rfl⟩
    · rintro ⟨d, h1, h2, _⟩; exact ⟨a3, h1, h2, rfl⟩

/-- C83: the same for a failure. -/
theorem C83_tables_error (E : Env) (sha' : Bytes → WireBytes) (rnd : GarbleRand) (c : Circuit)
    (hg : SameForGates c E.sha256 sha') (x : Fault) :
    garble { E with sha256 := sha' } rnd c = .error x ↔ garble E rnd c = .error x := by
  rcases mapR_inv (garble_bare (E := E) rnd hg) with ⟨e, e1, e2⟩ | ⟨a, b, e1, e2, _⟩
  · rw [e1, e2]
  · simp only [e1, e2, reduceCtorEq]

/-- C83: evaluation depends only on those that belong to the gates, whatever the tables and labels. -/
theorem C83_evaluate (E : Env) (sha' : Bytes → WireBytes) (gc : GarbledCircuit)
    (hg : SameForGates gc.circuit E.sha256 sha') (x : List Wire) :
    evaluate { E with sha256 := sha' } gc x = evaluate E gc x :=
  evaluate_same hg x

private theorem decodeOne_same (E : Env) (sha' : Bytes → WireBytes) (d : DecodingKey) (p : Wire × Nat)
    (h : ∀ k w, sha' (decodeBytes (d.offset + p.2) k w) = E.sha256 (decodeBytes (d.offset + p.2) k w)) :
    decodeOne { E with sha256 := sha' } d p = decodeOne E d p := by
  have hs : ∀ hashes l, decodeSearch { E with sha256 := sha' } (d.offset + p.2) p.1 hashes l =
      decodeSearch E (d.offset + p.2) p.1 hashes l := by
    intro hashes l
    induction l with
    | nil => rfl
    | cons k l ih => simp only [decodeSearch, hashOut_same (h k), ih]
  unfold decodeOne
  simp only [hs]

/-- C83: decoding depends only on those that belong to the outputs. -/
theorem C83_decode (E : Env) (sha' : Bytes → WireBytes) (d : DecodingKey) (z : List Wire)
    (h : ∀ i < z.length, ∀ x w, sha' (decodeBytes (d.offset + i) x w) = E.sha256 (decodeBytes (d.offset + i) x w)) :
    d.decode { E with sha256 := sha' } z = d.decode E z := by
  unfold DecodingKey.decode
  apply mapM_congr_mem
  rintro ⟨w, i⟩ hp
  have := List.mem_zipIdx hp
  exact decodeOne_same E sha' d (w, i) (h i (by omega))

/-- C83: the inputs for the gates have 40 bytes, those for the outputs have 42. -/
theorem C83_lengths (k o x : Nat) (w : WireBytes) :
    (andBytes k w).length = 40 ∧ (projBytes o w).length = 40 ∧ (decodeBytes o x w).length = 42 := by
  simp [andBytes, projBytes, decodeBytes, pairBytes, rowBytes]

/-- C83: hence whoever knows a garbled circuit and the labels to evaluate it knows nothing of what is stored for
decoding: replacing the hash function by any other on all inputs that do not have 40 bytes leaves the garbled circuit,
the encoding key and the result of every evaluation as they are. -/
theorem C83_decoding_apart (E : Env) (sha' : Bytes → WireBytes) (h : ∀ b, b.length = 40 → sha' b = E.sha256 b)
    (rnd : GarbleRand) (c : Circuit) (gc : GarbledCircuit) (e : EncodingKey) :
    ((∃ d, garble { E with sha256 := sha' } rnd c = .ok (gc, e, d)) ↔ ∃ d, garble E rnd c = .ok (gc, e, d)) ∧
    ∀ gc x, evaluate { E with sha256 := sha' } gc x = evaluate E gc x := by
  have hs : ∀ c, SameForGates c E.sha256 sha' := fun c =>
    ⟨fun p _ w => h _ (C83_lengths p.2 0 0 w).1, fun g _ _ w => h _ (C83_lengths 0 g.output 0 w).2.1⟩
  exact ⟨C83_tables E sha' rnd c (hs c) gc e, fun gc x => C83_evaluate E sha' gc (hs _) x⟩

/-- C83: in the other direction, decoding does not depend on the hash function at inputs that do not have 42 bytes. -/
theorem C83_gates_apart (E : Env) (sha' : Bytes → WireBytes) (h : ∀ b, b.length = 42 → sha' b = E.sha256 b)
    (d : DecodingKey) (z : List Wire) : d.decode { E with sha256 := sha' } z = d.decode E z :=
  C83_decode E sha' d z fun i _ x w => h _ (C83_lengths 0 (d.offset + i) x w).2.2

/-- C83: two AND gates, two projection gates with different output wires, and two pairs of an output wire and a value
never hash the same bytes, whatever the labels; and a gate never hashes what is hashed for decoding. -/
theorem C83_apart {k k' o o' x x' : Nat} (hk : k < 2 ^ 64) (hk' : k' < 2 ^ 64) (ho : o < 2 ^ 64) (ho' : o' < 2 ^ 64)
    (hx : x < 2 ^ 16) (hx' : x' < 2 ^ 16) (w w' : WireBytes) :
    (andBytes k w = andBytes k' w' ↔ k = k' ∧ w = w') ∧
    (projBytes o w = projBytes o' w' ↔ o = o' ∧ w = w') ∧
    (decodeBytes o x w = decodeBytes o' x' w' ↔ o = o' ∧ x = x' ∧ w = w') ∧
    andBytes k w ≠ decodeBytes o x w' ∧ projBytes o' w ≠ decodeBytes o x w' := by
  refine ⟨⟨fun h => ?_, fun h => by rw [h.1, h.2]⟩, ⟨fun h => ?_, fun h => by rw [h.1, h.2]⟩,
    ⟨fun h => ?_, fun h => by rw [h.1, h.2.1, h.2.2]⟩, fun h => ?_, fun h => ?_⟩
  · exact (key_inj hk hk' h).symm
  · obtain ⟨h1, h2⟩ := List.append_inj h (by simp [rowBytes])
    exact ⟨rowBytes_inj ho ho' h1, Vector.toList_inj.mp h2⟩
  · obtain ⟨h1, h2⟩ := List.append_inj h (by simp [rowBytes, pairBytes])
    obtain ⟨h3, h4⟩ := List.append_inj h1 (by simp [rowBytes])
    exact ⟨rowBytes_inj ho ho' h3, pairBytes_inj hx hx' h4, Vector.toList_inj.mp h2⟩
  · have := congrArg List.length h
    rw [(C83_lengths k o x w).1, (C83_lengths k o x w').2.2] at this
    omega
  · have := congrArg List.length h
    rw [(C83_lengths k o' x w).2.1, (C83_lengths k o x w').2.2] at this
    omega

example := C83_apart (k := 1) (k' := 1) (o := 1) (o' := 1) (x := 1) (x' := 1) (by meets) (by meets) (by meets)
    (by meets) (by meets) (by meets) (Witness.bytes 1) (Witness.bytes 1)

/-- C83 is not met between AND gates and projection gates: they hash the same bytes exactly when the label at the AND
gate starts with the number of the projection's output, the label at the projection ends with the number of the AND
gate, and the remaining 24 bytes are the same. -/
theorem C83_exact (k o : Nat) (w w' : WireBytes) : andBytes k w = projBytes o w' ↔
    ∃ mid : Bytes, mid.length = 24 ∧ w.toList = rowBytes o ++ mid ∧ w'.toList = mid ++ rowBytes k := by
  unfold andBytes projBytes
  constructor
  · intro h
    refine ⟨w.toList.drop 8, by simp, ?_, ?_⟩
    · have := congrArg (List.take 8) h
      rw [List.take_append_of_le_length (by simp), List.take_left' (by simp [rowBytes])] at this
      rw [← this, List.take_append_drop]
    · have := congrArg (List.drop 8) h
      rw [List.drop_append_of_le_length (by simp), List.drop_left' (by simp [rowBytes])] at this
      exact this.symm
  · rintro ⟨mid, _, h1, h2⟩
    rw [h1, h2, List.append_assoc]

/-- Two binary inputs, their AND, and a projection of the second input. -/
def sharedCircuit : Circuit :=
  { numWires := 4, numInputs := 2, numOutputs := 2, inputDomains := [2, 2]
    gates := [⟨2, 2, [0, 1], .and⟩, ⟨3, 2, [1], .proj (.map 2)⟩] }

/-- Draws that make the first label eight bytes three followed by zeros, and the second end with the number one. -/
def sharedDraws : GarbleRand :=
  { delta := fun _ => Vector.replicate 32 0
    input := fun i => if i = 0 then Vector.ofFn fun k => if k.val = 7 then 3 else 0
      else Vector.ofFn fun k => if k.val = 31 then 1 else 0 }

/-- A hash function with the value `v` at one input. -/
def hashAt (s : Bytes) (v : WireBytes) : Bytes → WireBytes := fun b => if b = s then v else Vector.replicate 32 0

/-- The input that both gates of `sharedCircuit` hash. -/
def sharedInput : Bytes := rowBytes 3 ++ List.replicate 24 0 ++ rowBytes 1

/-- The computation behind `C83_fails_and_projection`. -/
def sharedDiffers (dbg : Bool) : Bool :=
  match garble ⟨dbg, hashAt sharedInput (Vector.replicate 32 0)⟩ sharedDraws sharedCircuit,
    garble ⟨dbg, hashAt sharedInput (Vector.replicate 32 6)⟩ sharedDraws sharedCircuit with
  | .ok (gc, _, _), .ok (gc', _, _) => decide (List.lookup 2 gc.fHalf ≠ List.lookup 2 gc'.fHalf) &&
      decide (List.lookup 3 gc.f ≠ List.lookup 3 gc'.f)
  | _, _ => false

/-- C83 fails: there are a well-typed circuit and random draws for which the hash of one and the same input enters both
the table of an AND gate and the table of a projection gate.  Changing the hash function at that input alone changes
both. -/
theorem C83_fails_and_projection (dbg : Bool) : WellTyped sharedCircuit ∧ ∃ gc e d gc' e' d',
    garble ⟨dbg, hashAt sharedInput (Vector.replicate 32 0)⟩ sharedDraws sharedCircuit = .ok (gc, e, d) ∧
    garble ⟨dbg, hashAt sharedInput (Vector.replicate 32 6)⟩ sharedDraws sharedCircuit = .ok (gc', e', d') ∧
    List.lookup 2 gc.fHalf ≠ List.lookup 2 gc'.fHalf ∧ List.lookup 3 gc.f ≠ List.lookup 3 gc'.f := by
  refine ⟨?_, ?_⟩
  · refine ⟨rfl, ?_, ?_, rfl, by decide⟩
    · intro d hd
      simp only [sharedCircuit, List.mem_cons, List.not_mem_nil, or_false, or_self] at hd
      subst hd
      exact ⟨by decide, ⟨2, 2, [0, 1], .and⟩, by simp [sharedCircuit], .inl rfl⟩
    · exact ⟨⟨rfl, by decide, by decide, by decide, by simp⟩, ⟨rfl, by decide, by decide, by decide, by simp⟩, trivial⟩
  · have : sharedDiffers dbg = true := by cases dbg <;> decide +kernel
    unfold sharedDiffers at this
    split at this
    · rename_i gc e d gc' e' d' h1 h2
      simp only [Bool.and_eq_true, decide_eq_true_eq] at this
      exact ⟨gc, e, d, gc', e', d', h1, h2, this.1, this.2⟩
    · cases this

/-- The hypotheses of `C83_tables` and `C83_garble` hold for the example circuit and a hash function that differs at
inputs of another length. -/
example (sha : Bytes → WireBytes) (v : WireBytes) :
    SameForGates exCircuit sha (fun b => if b.length = 41 then v else sha b) ∧
    SameForOutputs exCircuit sha (fun b => if b.length = 41 then v else sha b) := by
  refine ⟨⟨fun p _ w => ?_, fun g _ _ w => ?_⟩, fun g _ _ x _ w => ?_⟩
  · simp [(C83_lengths p.2 0 0 w).1]
  · simp [(C83_lengths 0 g.output 0 w).2.1]
  · simp [(C83_lengths 0 g.output x w).2.2]

end FP.Props
