import Verif.Proof.Bincode
import Verif.Proof.Witness
/-
C39, C40: what one party serialises, the other one reads back.

`Fits` says that the numbers in a value fit the Rust types of the fields they model (`u16`, `usize`)
and that lengths fit a `usize`; every Rust value satisfies it.
-/
namespace FP.Props

/-- C39: transaction properties. -/
theorem C39_properties (p : TransactionProperties) (h : p.msgSize < 2 ^ 64)
    (hs : p.protocol.utf8ByteSize < 2 ^ 64) :
    Codec.properties.deserialize (Codec.properties.enc p) = .ok p :=
  deserialize_ok properties_rt ⟨h, hs⟩

example := C39_properties ⟨258, "Chou-Orlandi"⟩ (by meets) (by meets)

/-- C39: lists of wire labels (encoded inputs). -/
theorem C39_wires (ws : List Wire) (hn : ws.length < 2 ^ 64) (h : ∀ w ∈ ws, w.Fits) :
    Codec.wires.deserialize (Codec.wires.enc ws) = .ok ws :=
  deserialize_ok wires_rt ⟨hn, h⟩

example := C39_wires [⟨.u16 513, Witness.bytes 1⟩, ⟨.binary, Witness.bytes 2⟩] (by meets)
    (by intro w hw; simp only [List.mem_cons, List.not_mem_nil, or_false] at hw
        rcases hw with rfl | rfl
        · show 513 < 65536; decide
        · trivial)

/-- C39: ciphertext pairs. -/
theorem C39_payload (l : List (Bytes × Bytes)) (hn : l.length < 2 ^ 64)
    (h : ∀ p ∈ l, p.1.length < 2 ^ 64 ∧ p.2.length < 2 ^ 64) :
    Codec.payload.deserialize (Codec.payload.enc l) = .ok l :=
  deserialize_ok payload_rt ⟨hn, h⟩

example := C39_payload Witness.messages (by meets) (by meets)

/-- C39: bit vectors and polynomials. -/
theorem C39_bytes (b : Bytes) (h : b.length < 2 ^ 64) :
    Codec.bytes.deserialize (Codec.bytes.enc b) = .ok b :=
  deserialize_ok bytes_rt h

example := C39_bytes [1, 7] (by meets)

/-- C39: bit matrices and lists of byte strings. -/
theorem C39_bytesList (l : List Bytes) (hn : l.length < 2 ^ 64) (h : ∀ b ∈ l, b.length < 2 ^ 64) :
    Codec.bytesList.deserialize (Codec.bytesList.enc l) = .ok l :=
  deserialize_ok bytesList_rt ⟨hn, h⟩

example := C39_bytesList Witness.passwords (by meets) (by meets)

/-- C39: circuits. -/
theorem C39_circuit (c : Circuit) (h : c.Fits) :
    Codec.circuit.deserialize (Codec.circuit.enc c) = .ok c :=
  deserialize_ok circuit_rt h

/-- C39: garbled circuits.  For any iteration orders `lf`, `lh` of the two hash maps the receiver
gets a garbled circuit with the same circuit and the same entries in both tables, and it evaluates
exactly like the original on every input (including failures). -/
theorem C39_garbled (E : Env) (gc : GarbledCircuit) (lf : List (Nat × List Wire))
    (lh : List (Nat × (Wire × Wire))) (hf : IsIteration gc.f lf) (hh : IsIteration gc.fHalf lh)
    (hfit : GarbledFits gc.circuit lf lh) :
    ∃ gc', deserializeGarbled (serializeGarbled gc lf lh) = .ok gc' ∧
      gc'.circuit = gc.circuit ∧
      (∀ k, List.lookup k gc'.f = List.lookup k gc.f) ∧
      (∀ k, List.lookup k gc'.fHalf = List.lookup k gc.fHalf) ∧
      ∀ x, evaluate E gc' x = evaluate E gc x :=
  ⟨_, deserializeGarbled_ok hfit, rfl, iteration_lookup hf, iteration_lookup hh,
    evaluate_congr E rfl (iteration_lookup hf) (iteration_lookup hh)⟩

/-- C39: every table has an iteration order, so the theorem above applies to every garbled
circuit. -/
theorem C39_order_exists {V : Type} (m : HMap Nat V) : ∃ l, IsIteration m l := exists_iteration m

/-- C39: a truncated message is rejected with an error, never accepted or a panic. -/
theorem C39_truncated_bytes (b : Bytes) (h : b.length < 2 ^ 64) (k : Nat)
    (hk : k < (Codec.bytes.enc b).length) :
    Codec.bytes.deserialize ((Codec.bytes.enc b).take k) = errR .bincode := by
  have henc : Codec.bytes.enc b = leBytes 8 b.length ++ b := by
    show leBytes 8 b.length ++ b.flatMap (fun x => [x]) = _
    rw [List.flatMap_singleton']
  rw [henc] at hk ⊢
  have hl : (leBytes 8 b.length).length = 8 := by simp [leBytes]
  rw [List.length_append, hl] at hk
  have key : Codec.bytes.dec ((leBytes 8 b.length ++ b).take k) = none := by
    by_cases h8 : k < 8
    · have : (Codec.uint 8).dec ((leBytes 8 b.length ++ b).take k) = none := by
        simp only [Codec.uint]
        rw [if_neg]
        simp only [List.length_take, List.length_append, hl]; omega
      show (do let (n, s) ← (Codec.uint 8).dec _; Codec.decRep Codec.byte n s) = none
      rw [this]; rfl
    · have e : (leBytes 8 b.length ++ b).take k = leBytes 8 b.length ++ b.take (k - 8) := by
        rw [List.take_append, hl, List.take_of_length_le (by omega)]
      rw [e]
      show (do let (n, s) ← (Codec.uint 8).dec _; Codec.decRep Codec.byte n s) = none
      have hd : (Codec.uint 8).dec (leBytes 8 b.length ++ b.take (k - 8)) = some (b.length, b.take (k - 8)) :=
        Codec.uint_rt 8 b.length (b.take (k - 8)) (by simpa using h)
      rw [hd]
      show Codec.decRep Codec.byte b.length (b.take (k - 8)) = none
      have short : ∀ (n : Nat) (s : Bytes), s.length < n → Codec.decRep Codec.byte n s = none := by
        intro n
        induction n with
        | zero => intro s hs; omega
        | succ n ih =>
          intro s hs
          cases s with
          | nil => rfl
          | cons x s =>
            show (do let (xs, s) ← Codec.decRep Codec.byte n s; pure (x :: xs, s)) = none
            rw [ih s (by simpa using hs)]; rfl
      apply short
      rw [List.length_take]; omega
  simp [Codec.deserialize, key]

example := C39_truncated_bytes [1, 7] (by meets) 1 (by meets)

/-- C40: lists of compressed points round-trip. -/
theorem C40_public_roundtrip (ps : List WireBytes) (h : ps.length * 32 < 2 ^ 64) :
    deserializePublic (serializePublic ps) = .ok ps := by
  unfold deserializePublic serializePublic
  rw [deserialize_ok bytes_rt (by rw [flatMap32_length]; exact h)]
  exact visitBytes_flatMap ps

example := C40_public_roundtrip [Witness.bytes 1, Witness.bytes 2] (by meets)

/-- C40: any message that deserialises gives one point for every 32 bytes, and it never panics. -/
theorem C40_no_panic (v : Bytes) :
    ∃ ps, visitBytes v = .ok ps ∧ ps.length = v.length / 32 ∧
      ∀ i (h : i < ps.length), ps[i].toList = (v.drop (i * 32)).take 32 := by
  have : ∀ i ∈ List.range (v.length / 32), ∃ p : WireBytes,
      (do fromSlice (← sliceR v (i * 32) ((i + 1) * 32))) = (Except.ok p : R _) ∧
        p.toList = (v.drop (i * 32)).take 32 := by
    intro i hi
    rw [List.mem_range] at hi
    have hle : (i + 1) * 32 ≤ v.length := by omega
    have hlen : ((v.drop (i * 32)).take 32).length = 32 := by
      rw [List.length_take, List.length_drop]; omega
    refine ⟨⟨((v.drop (i * 32)).take 32).toArray, by simpa using hlen⟩, ?_, rfl⟩
    unfold sliceR
    rw [if_pos ⟨by omega, hle⟩, okb, show (i + 1) * 32 - i * 32 = 32 by omega]
    unfold fromSlice
    rw [dif_pos hlen]
  obtain ⟨ps, h1, h2⟩ := mapM_exists this
  have hl : ps.length = v.length / 32 := by rw [← h2.length_eq, List.length_range]
  refine ⟨ps, h1, hl, fun i h => ?_⟩
  have := h2.get (i := i) (by simpa [hl] using h) h
  simpa using this

/-! ### The hypotheses can be met -/

def sampleWire : Wire := ⟨.u16 513, Vector.replicate 32 7⟩

example : sampleWire.Fits := by show 513 < 65536; decide

def sampleCircuit : Circuit :=
  ⟨4, 2, 1, [⟨2, 3, [0, 1], .add⟩, ⟨3, 2, [2], .proj (.less 2)⟩], [3, 3]⟩

example : sampleCircuit.Fits :=
  ⟨by decide, by decide, by decide, by decide, by
    intro g hg
    rcases List.mem_cons.mp hg with rfl | hg
    · exact ⟨by decide, by decide, by decide, by decide, trivial⟩
    · rw [List.mem_singleton] at hg; subst hg
      exact ⟨by decide, by decide, by decide, by decide, by show 2 < 65536; decide⟩,
    by decide, by decide⟩

example : Codec.properties.enc ⟨258, "ab"⟩ = [2, 1, 0, 0, 0, 0, 0, 0, 2, 0, 0, 0, 0, 0, 0, 0, 97, 98] := by
  decide +kernel

example : IsIteration ([(3, true), (1, false), (3, false)] : HMap Nat Bool) [(1, false), (3, true)] := by
  refine ⟨by decide, fun k v => ?_⟩
  by_cases h3 : k = 3
  · subst h3; cases v <;> decide
  · by_cases h1 : k = 1
    · subst h1; cases v <;> decide
    · have h1' : (k == 1) = false := by simpa using h1
      have h3' : (k == 3) = false := by simpa using h3
      simp only [List.lookup_cons, h1', h3', List.lookup_nil]
      simp [h1, h3]

end FP.Props
