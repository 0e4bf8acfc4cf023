import Verif.Proof.Bincode
/-
What is decoded was encoded: the decoders accept nothing but encodings followed by other bytes.
-/
namespace FP

/-- Whatever is decoded is a `P`-value whose encoding starts the input. -/
def Codec.Sound {α} (c : Codec α) (P : α → Prop) : Prop :=
  ∀ s a rest, c.dec s = some (a, rest) → P a ∧ s = c.enc a ++ rest

namespace Codec

theorem leBytes_succ (k x : Nat) : leBytes (k + 1) x = BitVec.ofNat 8 x :: leBytes k (x / 256) := by
  unfold leBytes
  rw [List.range_succ_eq_map, List.map_cons, List.map_map]
  simp only [Nat.mul_zero, Nat.shiftRight_zero]
  congr 1
  apply List.map_congr_left
  intro i _
  simp only [Function.comp]
  congr 1
  rw [Nat.mul_succ, Nat.add_comm, Nat.shiftRight_add]
  congr 1
  rw [Nat.shiftRight_eq_div_pow]

theorem leNat_lt (s : Bytes) : leNat s < 256 ^ s.length := by
  induction s with
  | nil => simp [leNat]
  | cons b s ih =>
    have := b.isLt
    rw [leNat, List.length_cons, Nat.pow_succ]
    omega

theorem leBytes_leNat (s : Bytes) : leBytes s.length (leNat s) = s := by
  induction s with
  | nil => rfl
  | cons b s ih =>
    have hb := b.isLt
    rw [List.length_cons, leBytes_succ, leNat]
    have e : (b.toNat + 256 * leNat s) / 256 = leNat s := by omega
    rw [e, ih]
    congr 1
    apply BitVec.eq_of_toNat_eq
    simp only [BitVec.toNat_ofNat]
    omega

theorem uint_sound (k : Nat) : (uint k).Sound (· < 256 ^ k) := by
  intro s a rest h
  simp only [uint] at h ⊢
  split at h
  · rename_i hk
    obtain ⟨rfl, rfl⟩ := Prod.mk.inj (Option.some.inj h)
    have hl : (s.take k).length = k := by simp [hk]
    have h1 := leNat_lt (s.take k)
    have h2 := leBytes_leNat (s.take k)
    rw [hl] at h1 h2
    exact ⟨h1, by rw [h2, List.take_append_drop]⟩
  · cases h

theorem u8_sound : u8.Sound (· < 256) := uint_sound 1
theorem u16_sound : u16.Sound (· < 65536) := uint_sound 2
theorem u32_sound : u32.Sound (· < 2 ^ 32) := uint_sound 4
theorem usize_sound : usize.Sound (· < 2 ^ 64) := uint_sound 8

theorem byte_sound : byte.Sound (fun _ => True) := by
  intro s a rest h
  cases s with
  | nil => cases h
  | cons b s => obtain ⟨rfl, rfl⟩ := Prod.mk.inj (Option.some.inj h); exact ⟨trivial, rfl⟩

theorem pair_sound {α β} {a : Codec α} {b : Codec β} {P : α → Prop} {Q : β → Prop} (ha : a.Sound P)
    (hb : b.Sound Q) : (a.pair b).Sound fun x => P x.1 ∧ Q x.2 := by
  intro s x rest h
  simp only [pair, Option.bind_eq_bind, Option.bind_eq_some_iff] at h
  obtain ⟨⟨x1, s1⟩, h1, ⟨x2, s2⟩, h2, h3⟩ := h
  obtain ⟨rfl, rfl⟩ := Prod.mk.inj (Option.some.inj h3)
  obtain ⟨p, rfl⟩ := ha _ _ _ h1
  obtain ⟨q, rfl⟩ := hb _ _ _ h2
  exact ⟨⟨p, q⟩, by simp [pair]⟩

theorem iso_sound {α β} {a : Codec α} {P : α → Prop} (ha : a.Sound P) {f : α → β} {fr : β → α}
    (h : ∀ x, fr (f x) = x) : (a.iso f fr).Sound fun x => P (fr x) := by
  intro s x rest hx
  simp only [iso, Option.bind_eq_bind, Option.bind_eq_some_iff] at hx
  obtain ⟨⟨x1, s1⟩, h1, h3⟩ := hx
  obtain ⟨rfl, rfl⟩ := Prod.mk.inj (Option.some.inj h3)
  obtain ⟨p, rfl⟩ := ha _ _ _ h1
  refine ⟨?_, ?_⟩
  · show P (fr (f x1)); rw [h]; exact p
  · show _ = a.enc (fr (f x1)) ++ _; rw [h]

theorem decRep_sound {α} {a : Codec α} {P : α → Prop} (ha : a.Sound P) (n : Nat) : ∀ (s : Bytes) xs rest,
    decRep a n s = some (xs, rest) → xs.length = n ∧ (∀ x ∈ xs, P x) ∧ s = xs.flatMap a.enc ++ rest := by
  induction n with
  | zero =>
    intro s xs rest h
    obtain ⟨rfl, rfl⟩ := Prod.mk.inj (Option.some.inj h)
    simp
  | succ n ih =>
    intro s xs rest h
    simp only [decRep, Option.bind_eq_bind, Option.bind_eq_some_iff] at h
    obtain ⟨⟨x1, s1⟩, h1, ⟨x2, s2⟩, h2, h3⟩ := h
    obtain ⟨rfl, rfl⟩ := Prod.mk.inj (Option.some.inj h3)
    obtain ⟨p, rfl⟩ := ha _ _ _ h1
    obtain ⟨q1, q2, rfl⟩ := ih _ _ _ h2
    refine ⟨by simp [q1], ?_, by simp⟩
    intro x hx
    rcases List.mem_cons.mp hx with rfl | hx
    · exact p
    · exact q2 x hx

theorem vec_sound {α} {a : Codec α} {P : α → Prop} (ha : a.Sound P) :
    (vec a).Sound fun xs => xs.length < 2 ^ 64 ∧ ∀ x ∈ xs, P x := by
  intro s xs rest h
  simp only [vec, Option.bind_eq_bind, Option.bind_eq_some_iff] at h
  obtain ⟨⟨n, s1⟩, h1, h2⟩ := h
  obtain ⟨p, rfl⟩ := usize_sound _ _ _ h1
  obtain ⟨rfl, q2, rfl⟩ := decRep_sound ha _ _ _ _ h2
  exact ⟨⟨p, q2⟩, by simp [vec]⟩

theorem wireBytes_sound : wireBytes.Sound fun _ => True := by
  intro s v rest h
  simp only [wireBytes] at h ⊢
  split at h
  · obtain ⟨rfl, rfl⟩ := Prod.mk.inj (Option.some.inj h)
    refine ⟨trivial, ?_⟩
    show s = List.take 32 s ++ List.drop 32 s
    rw [List.take_append_drop]
  · cases h

theorem Sound.mono {α} {c : Codec α} {P Q : α → Prop} (h : c.Sound P) (hq : ∀ a, P a → Q a) : c.Sound Q :=
  fun s a rest ha => ⟨hq a (h s a rest ha).1, (h s a rest ha).2⟩

theorem fromUTF8_inv {b : ByteArray} {s : String} (h : String.fromUTF8? b = some s) : s.toUTF8 = b := by
  unfold String.fromUTF8? at h
  split at h
  · obtain rfl := Option.some.inj h
    rfl
  · cases h

theorem string_sound : string.Sound fun s => s.utf8ByteSize < 2 ^ 64 := by
  intro s a rest h
  simp only [string, Option.bind_eq_bind, Option.bind_eq_some_iff] at h
  obtain ⟨⟨x, s1⟩, h1, y, h2, h3⟩ := h
  obtain ⟨rfl, rfl⟩ := Prod.mk.inj (Option.some.inj h3)
  obtain ⟨p, rfl⟩ := vec_sound byte_sound _ _ _ h1
  have e := fromUTF8_inv h2
  have e' : stringBytes y = x := by
    unfold stringBytes
    rw [e]
    simp only [List.map_map]
    have : UInt8.toBitVec ∘ UInt8.ofBitVec = id := rfl
    rw [this, List.map_id]
  refine ⟨?_, by simp only [string, e']⟩
  have : y.utf8ByteSize = (stringBytes y).length := by
    unfold stringBytes
    rw [List.length_map]
    rfl
  show y.utf8ByteSize < 2 ^ 64
  rw [this, e']
  exact p.1

end Codec

open Codec

theorem properties_sound :
    Codec.properties.Sound fun p => p.msgSize < 2 ^ 64 ∧ p.protocol.utf8ByteSize < 2 ^ 64 :=
  iso_sound (pair_sound usize_sound string_sound) fun _ => rfl

theorem domain_sound : Codec.domain.Sound Domain.Fits := by
  intro s d rest h
  simp only [Codec.domain, Option.bind_eq_bind, Option.bind_eq_some_iff] at h
  obtain ⟨⟨t, s1⟩, h1, h2⟩ := h
  obtain ⟨p, rfl⟩ := u32_sound _ _ _ h1
  match t, h2 with
  | 0, h2 => obtain ⟨rfl, rfl⟩ := Prod.mk.inj (Option.some.inj h2); exact ⟨trivial, rfl⟩
  | 1, h2 =>
    simp only [Option.bind_eq_bind, Option.bind_eq_some_iff] at h2
    obtain ⟨⟨m, s2⟩, h2, h3⟩ := h2
    obtain ⟨q, rfl⟩ := u8_sound _ _ _ h2
    obtain ⟨rfl, rfl⟩ := Prod.mk.inj (Option.some.inj h3)
    exact ⟨q, by simp [Codec.domain]⟩
  | 2, h2 =>
    simp only [Option.bind_eq_bind, Option.bind_eq_some_iff] at h2
    obtain ⟨⟨m, s2⟩, h2, h3⟩ := h2
    obtain ⟨q, rfl⟩ := u16_sound _ _ _ h2
    obtain ⟨rfl, rfl⟩ := Prod.mk.inj (Option.some.inj h3)
    exact ⟨q, by simp [Codec.domain]⟩
  | 3, h2 => obtain ⟨rfl, rfl⟩ := Prod.mk.inj (Option.some.inj h2); exact ⟨trivial, rfl⟩
  | 4, h2 => obtain ⟨rfl, rfl⟩ := Prod.mk.inj (Option.some.inj h2); exact ⟨trivial, rfl⟩
  | n + 5, h2 => cases h2

theorem wire_sound : Codec.wire.Sound Wire.Fits :=
  (iso_sound (pair_sound domain_sound wireBytes_sound) fun _ => rfl).mono fun _ h => h.1

theorem projKind_sound : Codec.projKind.Sound ProjKind.Fits := by
  intro s d rest h
  simp only [Codec.projKind, Option.bind_eq_bind, Option.bind_eq_some_iff] at h
  obtain ⟨⟨t, s1⟩, h1, h2⟩ := h
  obtain ⟨p, rfl⟩ := u32_sound _ _ _ h1
  match t, h2 with
  | 0, h2 =>
    simp only [Option.bind_eq_bind, Option.bind_eq_some_iff] at h2
    obtain ⟨⟨m, s2⟩, h2, h3⟩ := h2
    obtain ⟨q, rfl⟩ := u16_sound _ _ _ h2
    obtain ⟨rfl, rfl⟩ := Prod.mk.inj (Option.some.inj h3)
    exact ⟨q, by simp [Codec.projKind]⟩
  | 1, h2 =>
    simp only [Option.bind_eq_bind, Option.bind_eq_some_iff] at h2
    obtain ⟨⟨m, s2⟩, h2, h3⟩ := h2
    obtain ⟨q, rfl⟩ := u16_sound _ _ _ h2
    obtain ⟨rfl, rfl⟩ := Prod.mk.inj (Option.some.inj h3)
    exact ⟨q, by simp [Codec.projKind]⟩
  | n + 2, h2 => cases h2

theorem gateKind_sound : Codec.gateKind.Sound GateKind.Fits := by
  intro s d rest h
  simp only [Codec.gateKind, Option.bind_eq_bind, Option.bind_eq_some_iff] at h
  obtain ⟨⟨t, s1⟩, h1, h2⟩ := h
  obtain ⟨p, rfl⟩ := u32_sound _ _ _ h1
  match t, h2 with
  | 0, h2 => obtain ⟨rfl, rfl⟩ := Prod.mk.inj (Option.some.inj h2); exact ⟨trivial, rfl⟩
  | 1, h2 =>
    simp only [Option.bind_eq_bind, Option.bind_eq_some_iff] at h2
    obtain ⟨⟨m, s2⟩, h2, h3⟩ := h2
    obtain ⟨q, rfl⟩ := u16_sound _ _ _ h2
    obtain ⟨rfl, rfl⟩ := Prod.mk.inj (Option.some.inj h3)
    exact ⟨q, by simp [Codec.gateKind]⟩
  | 2, h2 =>
    simp only [Option.bind_eq_bind, Option.bind_eq_some_iff] at h2
    obtain ⟨⟨m, s2⟩, h2, h3⟩ := h2
    obtain ⟨q, rfl⟩ := projKind_sound _ _ _ h2
    obtain ⟨rfl, rfl⟩ := Prod.mk.inj (Option.some.inj h3)
    exact ⟨q, by simp [Codec.gateKind]⟩
  | 3, h2 => obtain ⟨rfl, rfl⟩ := Prod.mk.inj (Option.some.inj h2); exact ⟨trivial, rfl⟩
  | n + 4, h2 => cases h2

theorem gate_sound : Codec.gate.Sound Gate.Fits :=
  (iso_sound (pair_sound usize_sound (pair_sound u16_sound (pair_sound (vec_sound usize_sound) gateKind_sound)))
    fun _ => rfl).mono fun _ h => ⟨h.1, h.2.1, h.2.2.1.1, h.2.2.1.2, h.2.2.2⟩

theorem circuit_sound : Codec.circuit.Sound Circuit.Fits :=
  (iso_sound (pair_sound usize_sound (pair_sound usize_sound (pair_sound usize_sound
    (pair_sound (vec_sound gate_sound) (vec_sound u16_sound))))) fun _ => rfl).mono
    fun _ h => ⟨h.1, h.2.1, h.2.2.1, h.2.2.2.1.1, h.2.2.2.1.2, h.2.2.2.2.1, h.2.2.2.2.2⟩

theorem garbled_sound : Codec.garbled.Sound fun x => GarbledFits x.1 x.2.1 x.2.2 :=
  (pair_sound circuit_sound (pair_sound (vec_sound (pair_sound usize_sound (vec_sound wire_sound)))
    (vec_sound (pair_sound usize_sound (pair_sound wire_sound wire_sound))))).mono
    fun _ h => ⟨h.1, h.2.1.1, h.2.1.2, h.2.2.1, h.2.2.2⟩

theorem bytes_sound : Codec.bytes.Sound fun b => b.length < 2 ^ 64 :=
  (vec_sound byte_sound).mono fun _ h => h.1

theorem bytesList_sound : Codec.bytesList.Sound fun l => l.length < 2 ^ 64 ∧ ∀ b ∈ l, b.length < 2 ^ 64 :=
  vec_sound bytes_sound

theorem payload_sound : Codec.payload.Sound fun l =>
    l.length < 2 ^ 64 ∧ ∀ p ∈ l, p.1.length < 2 ^ 64 ∧ p.2.length < 2 ^ 64 :=
  vec_sound (pair_sound bytes_sound bytes_sound)

theorem wires_sound : Codec.wires.Sound fun ws => ws.length < 2 ^ 64 ∧ ∀ w ∈ ws, w.Fits := vec_sound wire_sound

theorem deserialize_iff {α} {c : Codec α} {P : α → Prop} (h : c.RT P) (hs : c.Sound P) (s : Bytes) (a : α) :
    c.deserialize s = .ok a ↔ P a ∧ c.enc a <+: s := by
  unfold Codec.deserialize
  constructor
  · intro hd
    split at hd
    · rename_i x r hx
      obtain rfl := Except.ok.inj hd
      obtain ⟨p, e⟩ := hs _ _ _ hx
      exact ⟨p, r, e.symm⟩
    · cases hd
  · rintro ⟨p, r, rfl⟩
    rw [h a r p]

theorem deserialize_fails {α} (c : Codec α) (s : Bytes) :
    (∃ a, c.deserialize s = .ok a) ∨ c.deserialize s = errR .bincode := by
  unfold Codec.deserialize
  split
  · exact .inl ⟨_, rfl⟩
  · exact .inr rfl

end FP
