import Verif.Model.Bincode
import Verif.Proof.Monad
/-
Round-trip proofs for the wire format.
-/
namespace FP

/-- Decoding an encoded `P`-value followed by anything gives the value and the rest. -/
def Codec.RT {α} (c : Codec α) (P : α → Prop) : Prop :=
  ∀ a rest, P a → c.dec (c.enc a ++ rest) = some (a, rest)

namespace Codec

theorem leNat_leBytes (k x : Nat) (h : x < 256 ^ k) : leNat (leBytes k x) = x := by
  induction k generalizing x with
  | zero => simp at h; subst h; rfl
  | succ k ih =>
    have e : leBytes (k + 1) x = BitVec.ofNat 8 x :: leBytes k (x / 256) := by
      unfold leBytes
      rw [List.range_succ_eq_map, List.map_cons, List.map_map]
      simp only [Nat.mul_zero, Nat.shiftRight_zero]
      congr 1
      apply List.map_congr_left
      intro i _
      simp only [Function.comp]
      congr 1
      rw [Nat.mul_succ, Nat.add_comm, Nat.shiftRight_add]
      congr 1
      rw [Nat.shiftRight_eq_div_pow]
    rw [e, leNat, ih]
    · simp only [BitVec.toNat_ofNat]; omega
    · rw [Nat.pow_succ] at h; omega

theorem leBytes_length (k x : Nat) : (leBytes k x).length = k := by simp [leBytes]

theorem uint_rt (k : Nat) : (uint k).RT (· < 256 ^ k) := by
  intro a rest h
  simp only [uint]
  rw [if_pos (by simp [leBytes_length])]
  have h1 : (leBytes k a ++ rest).take k = leBytes k a := by
    rw [List.take_append_of_le_length (by simp [leBytes_length]), List.take_of_length_le (by simp [leBytes_length])]
  have h2 : (leBytes k a ++ rest).drop k = rest := by
    rw [List.drop_append_of_le_length (by simp [leBytes_length]), List.drop_of_length_le (by simp [leBytes_length])]
    rfl
  rw [h1, h2, leNat_leBytes k a h]

theorem u8_rt : u8.RT (· < 256) := uint_rt 1
theorem u16_rt : u16.RT (· < 65536) := uint_rt 2
theorem u32_rt : u32.RT (· < 2 ^ 32) := uint_rt 4
theorem usize_rt : usize.RT (· < 2 ^ 64) := uint_rt 8

theorem byte_rt : byte.RT (fun _ => True) := fun _ _ _ => rfl

theorem pair_rt {α β} {a : Codec α} {b : Codec β} {P : α → Prop} {Q : β → Prop} (ha : a.RT P)
    (hb : b.RT Q) : (a.pair b).RT fun x => P x.1 ∧ Q x.2 := by
  intro x rest h
  simp only [pair, List.append_assoc]
  rw [ha _ _ h.1]
  simp only [Option.bind_eq_bind, Option.bind_some]
  rw [hb _ _ h.2]; rfl

theorem iso_rt {α β} {a : Codec α} {P : α → Prop} (ha : a.RT P) {f : α → β} {fr : β → α}
    (h : ∀ x, f (fr x) = x) : (a.iso f fr).RT fun x => P (fr x) := by
  intro x rest hx
  simp only [iso]
  rw [ha _ _ hx]
  simp [h]

theorem decRep_rt {α} {a : Codec α} {P : α → Prop} (ha : a.RT P) (xs : List α)
    (hx : ∀ x ∈ xs, P x) (rest : Bytes) :
    decRep a xs.length (xs.flatMap a.enc ++ rest) = some (xs, rest) := by
  induction xs with
  | nil => rfl
  | cons x xs ih =>
    rw [List.length_cons, decRep, List.flatMap_cons, List.append_assoc, ha _ _ (hx x (by simp))]
    simp only [Option.bind_eq_bind, Option.bind_some]
    rw [ih fun x h => hx x (by simp [h])]; rfl

theorem vec_rt {α} {a : Codec α} {P : α → Prop} (ha : a.RT P) :
    (vec a).RT fun xs => xs.length < 2 ^ 64 ∧ ∀ x ∈ xs, P x := by
  intro xs rest h
  simp only [vec, List.append_assoc]
  rw [usize_rt _ _ h.1]
  simp only [Option.bind_eq_bind, Option.bind_some]
  exact decRep_rt ha xs h.2 rest

theorem wireBytes_rt : wireBytes.RT fun _ => True := by
  intro v rest _
  simp only [wireBytes]
  have hl : v.toList.length = 32 := by simp
  rw [dif_pos (by simp)]
  have h1 : (v.toList ++ rest).take 32 = v.toList := by
    rw [List.take_append_of_le_length (by simp), List.take_of_length_le (by simp)]
  have h2 : (v.toList ++ rest).drop 32 = rest := by
    rw [List.drop_append_of_le_length (by simp), List.drop_of_length_le (by simp)]; rfl
  rw [h2]
  congr 2
  apply Vector.toArray_inj.mp
  show (List.take 32 (v.toList ++ rest)).toArray = v.toArray
  rw [h1]
  exact Array.toArray_toList

theorem RT.mono {α} {c : Codec α} {P Q : α → Prop} (h : c.RT P) (hq : ∀ a, Q a → P a) : c.RT Q :=
  fun a rest ha => h a rest (hq a ha)

theorem string_rt : string.RT fun s => s.utf8ByteSize < 2 ^ 64 := by
  intro s rest h
  simp only [string]
  have hl : (stringBytes s).length < 2 ^ 64 := by
    unfold stringBytes
    rw [List.length_map]
    exact h
  rw [vec_rt byte_rt _ _ ⟨hl, fun _ _ => trivial⟩]
  simp only [Option.bind_eq_bind, Option.bind_some]
  have e : (⟨((stringBytes s).map UInt8.ofBitVec).toArray⟩ : ByteArray) = s.toUTF8 := by
    unfold stringBytes
    rw [List.map_map]
    have : UInt8.ofBitVec ∘ UInt8.toBitVec = id := rfl
    rw [this, List.map_id]
  rw [e]
  have : String.fromUTF8? s.toUTF8 = some s := by
    unfold String.fromUTF8?
    exact dif_pos s.isValidUTF8
  rw [this]; rfl

end Codec

open Codec

theorem properties_rt :
    Codec.properties.RT fun p => p.msgSize < 2 ^ 64 ∧ p.protocol.utf8ByteSize < 2 ^ 64 :=
  iso_rt (pair_rt usize_rt string_rt) fun _ => rfl

/-- The fields of a domain fit their types. -/
def Domain.Fits : Domain → Prop
  | .u8 m => m < 256
  | .u16 m => m < 65536
  | _ => True

theorem domain_rt : Codec.domain.RT Domain.Fits := by
  intro d rest h
  cases d with
  | binary => simp only [Codec.domain]; rw [u32_rt _ _ (by decide)]; rfl
  | u8 m =>
    simp only [Codec.domain, List.append_assoc]; rw [u32_rt _ _ (by decide)]
    simp only [Option.bind_eq_bind, Option.bind_some]
    rw [u8_rt _ _ h]; rfl
  | u16 m =>
    simp only [Codec.domain, List.append_assoc]; rw [u32_rt _ _ (by decide)]
    simp only [Option.bind_eq_bind, Option.bind_some]
    rw [u16_rt _ _ h]; rfl
  | u8max => simp only [Codec.domain]; rw [u32_rt _ _ (by decide)]; rfl
  | u16max => simp only [Codec.domain]; rw [u32_rt _ _ (by decide)]; rfl

def Wire.Fits (w : Wire) : Prop := w.domain.Fits

theorem wire_rt : Codec.wire.RT Wire.Fits :=
  (iso_rt (pair_rt domain_rt wireBytes_rt) fun _ => rfl).mono fun _ h => ⟨h, trivial⟩

def ProjKind.Fits : ProjKind → Prop
  | .map m => m < 65536
  | .less t => t < 65536

theorem projKind_rt : Codec.projKind.RT ProjKind.Fits := by
  intro p rest h
  cases p with
  | map m =>
    simp only [Codec.projKind, List.append_assoc]; rw [u32_rt _ _ (by decide)]
    simp only [Option.bind_eq_bind, Option.bind_some]
    rw [u16_rt _ _ h]; rfl
  | less m =>
    simp only [Codec.projKind, List.append_assoc]; rw [u32_rt _ _ (by decide)]
    simp only [Option.bind_eq_bind, Option.bind_some]
    rw [u16_rt _ _ h]; rfl

def GateKind.Fits : GateKind → Prop
  | .mul c => c < 65536
  | .proj p => p.Fits
  | _ => True

theorem gateKind_rt : Codec.gateKind.RT GateKind.Fits := by
  intro k rest h
  cases k with
  | add => simp only [Codec.gateKind]; rw [u32_rt _ _ (by decide)]; rfl
  | mul c =>
    simp only [Codec.gateKind, List.append_assoc]; rw [u32_rt _ _ (by decide)]
    simp only [Option.bind_eq_bind, Option.bind_some]
    rw [u16_rt _ _ h]; rfl
  | proj p =>
    simp only [Codec.gateKind, List.append_assoc]; rw [u32_rt _ _ (by decide)]
    simp only [Option.bind_eq_bind, Option.bind_some]
    rw [projKind_rt _ _ h]; rfl
  | and => simp only [Codec.gateKind]; rw [u32_rt _ _ (by decide)]; rfl

/-- The numbers in a gate fit the types of its fields. -/
structure Gate.Fits (g : Gate) : Prop where
  output : g.output < 2 ^ 64
  domain : g.domain < 65536
  arity : g.inputs.length < 2 ^ 64
  inputs : ∀ i ∈ g.inputs, i < 2 ^ 64
  kind : g.kind.Fits

theorem gate_rt : Codec.gate.RT Gate.Fits :=
  (iso_rt (pair_rt usize_rt (pair_rt u16_rt (pair_rt (vec_rt usize_rt) gateKind_rt))) fun _ => rfl).mono
    fun _ h => ⟨h.output, h.domain, ⟨h.arity, h.inputs⟩, h.kind⟩

/-- The numbers in a circuit fit the types of its fields. -/
structure Circuit.Fits (c : Circuit) : Prop where
  numWires : c.numWires < 2 ^ 64
  numInputs : c.numInputs < 2 ^ 64
  numOutputs : c.numOutputs < 2 ^ 64
  ngates : c.gates.length < 2 ^ 64
  gates : ∀ g ∈ c.gates, g.Fits
  ndoms : c.inputDomains.length < 2 ^ 64
  doms : ∀ d ∈ c.inputDomains, d < 65536

theorem circuit_rt : Codec.circuit.RT Circuit.Fits :=
  (iso_rt (pair_rt usize_rt (pair_rt usize_rt (pair_rt usize_rt
    (pair_rt (vec_rt gate_rt) (vec_rt u16_rt))))) fun _ => rfl).mono
    fun _ h => ⟨h.numWires, h.numInputs, h.numOutputs, ⟨h.ngates, h.gates⟩, h.ndoms, h.doms⟩

theorem deserialize_ok {α} {c : Codec α} {P : α → Prop} (h : c.RT P) {a : α} (ha : P a) :
    c.deserialize (c.enc a) = .ok a := by
  have := h a [] ha
  rw [List.append_nil] at this
  simp [Codec.deserialize, this]

/-! ### Hash maps -/

theorem lookup_eq_none_iff {V} {k : Nat} {l : List (Nat × V)} :
    List.lookup k l = none ↔ k ∉ l.map Prod.fst := by
  induction l with
  | nil => simp
  | cons p l ih =>
    obtain ⟨a, v⟩ := p
    rw [List.lookup_cons]
    by_cases h : k = a
    · subst h; simp
    · have : (k == a) = false := by simpa using h
      simp only [this, ih, List.map_cons, List.mem_cons]
      simp [h]

theorem lookup_of_mem {V} {k : Nat} {v : V} {l : List (Nat × V)} (hn : (l.map Prod.fst).Nodup)
    (h : (k, v) ∈ l) : List.lookup k l = some v := by
  induction l with
  | nil => simp at h
  | cons p l ih =>
    obtain ⟨a, w⟩ := p
    rw [List.map_cons, List.nodup_cons] at hn
    rw [List.lookup_cons]
    rcases List.mem_cons.mp h with h' | h'
    · injection h' with h1 h2; subst h1 h2; simp
    · have : k ≠ a := by
        rintro rfl
        exact hn.1 (List.mem_map.mpr ⟨_, h', rfl⟩)
      have : (k == a) = false := by simpa using this
      simp only [this]
      exact ih hn.2 h'

theorem mem_of_lookup {V} {k : Nat} {v : V} {l : List (Nat × V)} (h : List.lookup k l = some v) :
    (k, v) ∈ l := by
  induction l with
  | nil => simp at h
  | cons p l ih =>
    obtain ⟨a, w⟩ := p
    rw [List.lookup_cons] at h
    by_cases hk : k = a
    · subst hk; simp only [beq_self_eq_true, Option.some.injEq] at h; subst h; simp
    · have : (k == a) = false := by simpa using hk
      simp only [this] at h
      exact List.mem_cons_of_mem _ (ih h)

theorem hmapOfEntries_eq {V} (l : List (Nat × V)) : hmapOfEntries l = l.reverse := by
  unfold hmapOfEntries
  have : ∀ acc : HMap Nat V, l.foldl (fun m p => HMap.insert m p.1 p.2) acc = l.reverse ++ acc := by
    induction l with
    | nil => intro acc; rfl
    | cons p l ih => intro acc; rw [List.foldl_cons, ih]; simp [HMap.insert]
  rw [this]; simp

theorem iteration_lookup {V} {m : HMap Nat V} {l : List (Nat × V)} (h : IsIteration m l) (k : Nat) :
    List.lookup k (hmapOfEntries l) = List.lookup k m := by
  have hn : ((hmapOfEntries l).map Prod.fst).Nodup := by
    rw [hmapOfEntries_eq, List.map_reverse]; exact (List.reverse_perm _).nodup_iff.mpr h.1
  cases hm : List.lookup k m with
  | some v =>
    apply lookup_of_mem hn
    rw [hmapOfEntries_eq, List.mem_reverse]
    exact (h.2 k v).mpr hm
  | none =>
    rw [lookup_eq_none_iff, hmapOfEntries_eq, List.map_reverse, List.mem_reverse]
    intro hmem
    obtain ⟨⟨k', v⟩, hkv, rfl⟩ := List.mem_map.mp hmem
    rw [(h.2 k' v).mp hkv] at hm
    cases hm

/-- Every hash map has an iteration order (so the hypothesis can be met). -/
theorem exists_iteration {V} (m : HMap Nat V) : ∃ l, IsIteration m l := by
  induction m with
  | nil => exact ⟨[], by simp [IsIteration]⟩
  | cons p m ih =>
    obtain ⟨a, w⟩ := p
    obtain ⟨l, h1, h2⟩ := ih
    refine ⟨(a, w) :: l.filter (fun p => p.1 ≠ a), ?_, fun k v => ?_⟩
    · rw [List.map_cons, List.nodup_cons]
      refine ⟨by simp, (List.Sublist.map _ List.filter_sublist).nodup h1⟩
    · rw [List.lookup_cons, List.mem_cons, List.mem_filter]
      by_cases hk : k = a
      · subst hk; simp [eq_comm]
      · have : (k == a) = false := by simpa using hk
        simp only [this]
        rw [h2]
        simp [hk]

/-- All numbers in a garbled circuit fit. -/
structure GarbledFits (c : Circuit) (lf : List (Nat × List Wire)) (lh : List (Nat × (Wire × Wire))) :
    Prop where
  circuit : c.Fits
  nf : lf.length < 2 ^ 64
  f : ∀ p ∈ lf, p.1 < 2 ^ 64 ∧ p.2.length < 2 ^ 64 ∧ ∀ w ∈ p.2, w.Fits
  nh : lh.length < 2 ^ 64
  h : ∀ p ∈ lh, p.1 < 2 ^ 64 ∧ p.2.1.Fits ∧ p.2.2.Fits

theorem garbled_rt : Codec.garbled.RT fun x => GarbledFits x.1 x.2.1 x.2.2 :=
  (pair_rt circuit_rt (pair_rt (vec_rt (pair_rt usize_rt (vec_rt wire_rt)))
    (vec_rt (pair_rt usize_rt (pair_rt wire_rt wire_rt))))).mono
    fun _ h => ⟨h.circuit, ⟨h.nf, h.f⟩, h.nh, h.h⟩

theorem deserializeGarbled_ok {gc : GarbledCircuit} {lf lh} (h : GarbledFits gc.circuit lf lh) :
    deserializeGarbled (serializeGarbled gc lf lh) =
      .ok ⟨gc.circuit, hmapOfEntries lf, hmapOfEntries lh⟩ := by
  unfold deserializeGarbled serializeGarbled
  rw [deserialize_ok garbled_rt (a := (gc.circuit, lf, lh)) h]; rfl

theorem evalGate_congr (E : Env) {gc gc' : GarbledCircuit}
    (hf : ∀ k, List.lookup k gc'.f = List.lookup k gc.f)
    (hh : ∀ k, List.lookup k gc'.fHalf = List.lookup k gc.fHalf) (ws : List (Option Wire)) (j : Nat)
    (g : Gate) : evalGate E gc' ws j g = evalGate E gc ws j g := by
  unfold evalGate HMap.getR
  simp only [hf, hh]

theorem evaluate_congr (E : Env) {gc gc' : GarbledCircuit} (hc : gc'.circuit = gc.circuit)
    (hf : ∀ k, List.lookup k gc'.f = List.lookup k gc.f)
    (hh : ∀ k, List.lookup k gc'.fHalf = List.lookup k gc.fHalf) (x : List Wire) :
    evaluate E gc' x = evaluate E gc x := by
  unfold evaluate
  simp only [hc, evalGate_congr E hf hh]

theorem bytes_rt : Codec.bytes.RT fun b => b.length < 2 ^ 64 :=
  (vec_rt byte_rt).mono fun _ h => ⟨h, fun _ _ => trivial⟩

theorem bytesList_rt :
    Codec.bytesList.RT fun l => l.length < 2 ^ 64 ∧ ∀ b ∈ l, b.length < 2 ^ 64 := vec_rt bytes_rt

theorem payload_rt : Codec.payload.RT fun l =>
    l.length < 2 ^ 64 ∧ ∀ p ∈ l, p.1.length < 2 ^ 64 ∧ p.2.length < 2 ^ 64 :=
  vec_rt (pair_rt bytes_rt bytes_rt)

theorem wires_rt : Codec.wires.RT fun l => l.length < 2 ^ 64 ∧ ∀ w ∈ l, w.Fits := vec_rt wire_rt

theorem fromSlice_toList (v : WireBytes) : fromSlice v.toList = .ok v := by
  unfold fromSlice
  rw [dif_pos (by simp)]
  refine congrArg Except.ok ?_
  apply Vector.toArray_inj.mp
  exact Array.toArray_toList

theorem flatMap32_slice (ps : List WireBytes) (i : Nat) (h : i < ps.length) :
    ((ps.flatMap (·.toList)).drop (i * 32)).take 32 = ps[i].toList := by
  induction ps generalizing i with
  | nil => simp at h
  | cons p ps ih =>
    rw [List.flatMap_cons]
    cases i with
    | zero =>
      rw [Nat.zero_mul, List.drop_zero, List.take_append_of_le_length (by simp),
        List.take_of_length_le (by simp)]; rfl
    | succ i =>
      have e : (i + 1) * 32 = p.toList.length + i * 32 := by simp; omega
      rw [e, ← List.drop_drop, List.drop_left]
      exact ih i (by simpa using h)

theorem flatMap32_length (ps : List WireBytes) : (ps.flatMap (·.toList)).length = ps.length * 32 := by
  induction ps with
  | nil => rfl
  | cons p ps ih => rw [List.flatMap_cons, List.length_append, ih]; simp; omega

theorem visitBytes_flatMap (ps : List WireBytes) : visitBytes (ps.flatMap (·.toList)) = .ok ps := by
  unfold visitBytes
  rw [flatMap32_length, Nat.mul_div_cancel _ (by decide)]
  have : ∀ i ∈ List.range ps.length, (do fromSlice (← sliceR (ps.flatMap (·.toList)) (i * 32) ((i + 1) * 32))) =
      (Except.ok (ps.getD i (Vector.replicate 32 0)) : R _) := by
    intro i hi
    rw [List.mem_range] at hi
    unfold sliceR
    rw [if_pos ⟨by omega, by rw [flatMap32_length]; omega⟩, okb]
    rw [show (i + 1) * 32 - i * 32 = 32 by omega, flatMap32_slice ps i hi, fromSlice_toList]
    simp [List.getD, hi]
  rw [mapM_ok this]
  refine congrArg Except.ok ?_
  apply List.ext_getElem (by simp)
  intro i h1 h2
  simp [h2]

end FP
