import Mathlib.Data.ZMod.Basic
import Verif.Spec.ManyFpake
import Verif.Spec.Fresh
import Verif.Spec.Served
import Verif.Spec.Uneven
import Verif.Spec.Circuit
import Verif.Model.Channel
import Verif.Proof.Bincode
/-
Concrete draws, a concrete curve and a concrete hash function, to show that the hypotheses of theorems can be met.
-/
namespace FP.Witness
open Spec

/-- A curve with cofactor 2: the integers modulo 14 with base point 2, of order 7. -/
def curve : Curve where
  Pt := ZMod 14
  base := 2
  compress x := Vector.replicate 32 (BitVec.ofNat 8 x.val)
  decompress v := some ((v[0].toNat : ℕ) : ZMod 14)
  decompress_compress := by decide

/-- Generators that repeat their seed, and the hash that keeps the last 32 bytes. -/
def crypto (dbg : Bool) : Crypto :=
  { toEnv := toyEnv dbg
    chacha20 := fun s i => s.toList.getD (i % 32) 0 + BitVec.ofNat 8 i
    chacha8 := fun s i => s.toList.getD ((i + 1) % 32) 0 + BitVec.ofNat 8 i }

/-- Some random bytes. -/
def bytes (k : Nat) : WireBytes := Vector.ofFn fun i => BitVec.ofNat 8 (k * 37 + i * 11 + 5)

/-- Some labels. -/
def rand : GarbleRand := ⟨fun k => bytes (k + 100), fun i => bytes i⟩

/-- Other labels. -/
def rand' : GarbleRand := ⟨fun k => bytes (k + 50), fun i => bytes (i + 7)⟩

/-- Orders that visit every entry. -/
noncomputable def order : MapOrder where
  f m := (exists_iteration m).choose
  h m := (exists_iteration m).choose

theorem order_valid : order.Valid := ⟨fun m => (exists_iteration m).choose_spec, fun m => (exists_iteration m).choose_spec⟩

/-- Four cores whose workers run in reverse order. -/
def send : OTSend := ⟨false, 4, fun m => (List.range m).reverse, bytes 1, Vector.ofFn fun i => BitVec.ofNat 8 (3 * i + 1), fun i => i + 3⟩

theorem send_valid : send.Valid := ⟨by decide, fun m => List.reverse_perm (List.range m)⟩

/-- Three cores, and the first workers in order. -/
def recv : OTRecv :=
  { arm := true, cores := 3, sched1 := List.range, sched2 := fun m => (List.range m).reverse, coin := bytes 2
    bonus := Vector.ofFn fun i => decide (i.val % 3 = 1)
    seed0 := Vector.ofFn fun i => bytes (i + 3)
    seed1 := Vector.ofFn fun i => bytes (i + 150)
    base := fun i => 2 * i + 1 }

theorem recv_valid : recv.Valid := ⟨by decide, fun _ => List.Perm.refl _, fun m => List.reverse_perm (List.range m)⟩

noncomputable def g : GarblerDraws := ⟨rand, order, send⟩

theorem g_valid : g.Valid := ⟨order_valid, send_valid⟩

noncomputable def g' : GarblerDraws := ⟨rand', order, { send with arm := true, cores := 1, coin := bytes 9 }⟩

theorem g'_valid : g'.Valid := ⟨order_valid, by decide, fun m => List.reverse_perm (List.range m)⟩

/-- Four passwords of two bytes. -/
abbrev passwords : List Bytes := [[1, 2], [3, 4], [5, 6], [7, 8]]

theorem database : Database passwords 2 := ⟨⟨2, rfl⟩, by decide, by decide⟩

/-- Four passwords of sixteen bytes, for which the domain of the sum is 129. -/
abbrev wide : List Bytes := [List.replicate 16 1, List.replicate 16 2, List.replicate 16 3, List.replicate 16 4]

theorem wide_database : Database wide 16 := ⟨⟨2, rfl⟩, by decide, by decide⟩

/-- One bit away from the second of them. -/
abbrev password : Bytes := [3, 5]

/-- Two cores, which share four rows, running in reverse order. -/
def many : ManySend := ⟨2, [1, 0], fun j => (bytes (2 * j), bytes (2 * j + 1)), fun i => i + 1⟩

theorem many_valid (dbg : Bool) : many.Valid dbg 4 := ⟨by decide, List.Perm.swap 0 1 [], .inl (by decide)⟩

theorem roundedUp_two : roundedUp 2 = 2 := by
  unfold roundedUp; rw [Nat.clog_of_two_le (by decide) (by decide), Nat.clog_of_right_le_one (by decide)]

theorem roundedUp_three : roundedUp 3 = 4 := by
  unfold roundedUp
  rw [Nat.clog_of_two_le (by decide) (by decide), Nat.clog_of_two_le (by decide) (by decide),
    Nat.clog_of_right_le_one (by decide)]

theorem roundedUp_four : roundedUp 4 = 4 := by
  unfold roundedUp; rw [show (4 : Nat) = 2 ^ 2 by decide, Nat.clog_pow 2 2 (by decide)]

theorem many_possible : many.Possible 2 ∧ many.Possible 3 ∧ many.Possible 4 := by
  refine ⟨⟨by decide, ?_⟩, ⟨by decide, ?_⟩, ⟨by decide, ?_⟩⟩
  · rw [roundedUp_two]; exact List.Perm.swap 0 1 []
  · rw [roundedUp_three]; exact List.Perm.swap 0 1 []
  · rw [roundedUp_four]; exact List.Perm.swap 0 1 []

/-- Three passwords are never served. -/
theorem three_refused (dbg : Bool) (cores : Nat) : ¬ Servable dbg cores 3 := by
  rintro ⟨⟨k, hk⟩, -⟩
  rcases k with _ | _ | k
  · simp at hk
  · simp at hk
  · have : 2 ^ (k + 2) = 4 * 2 ^ k := by omega
    have := Nat.pos_of_ne_zero (n := 2 ^ k) (Nat.pow_pos (by decide)).ne'
    omega

abbrev three : List Bytes := [[1, 2], [3, 4], [5, 6]]

/-- The second password is longer than the others. -/
abbrev uneven : List Bytes := [[1, 2], [3, 4, 9], [5, 6], [7, 8]]

theorem uneven_first : NoneShorter uneven := by simp [NoneShorter, firstLength]

theorem uneven_unequal : ¬ AllEqual uneven := by simp [AllEqual, firstLength]

/-- The second password is shorter than the others. -/
abbrev shorter : List Bytes := [[1, 2], [3], [5, 6], [7, 8]]

theorem shorter_second : ¬ NoneShorter shorter := by simp [NoneShorter, firstLength]

noncomputable abbrev manyDraws : ManyDraws := ⟨fun i => BitVec.ofNat 8 (i + 77), many, g, recv⟩

noncomputable abbrev singleDraws : SingleDraws := ⟨fun i => i + 5, recv, g'⟩

noncomputable abbrev serverDraws : ServerDraws := ⟨g, fun i => BitVec.ofNat 8 (i + 77), many, send⟩

abbrev clientDraws : ClientDraws := ⟨recv, fun i => i + 5, recv⟩

noncomputable abbrev serverDraws1 : ServerDraws1 := ⟨g, many⟩

abbrev clientDraws1 : ClientDraws1 := ⟨recv, fun i => i + 5⟩

noncomputable abbrev clientGarbler1 : ClientGarbler1 := ⟨g, fun i j => bytes (3 * i + j)⟩

noncomputable abbrev clientGarbler2 : ClientGarbler2 := ⟨g, fun i => i + 5⟩

abbrev serverEvaluator2 : ServerEvaluator2 := ⟨fun i => BitVec.ofNat 8 (i + 77), recv, many⟩

/-- Eight pairs of messages of two bytes. -/
abbrev messages : List (Bytes × Bytes) :=
  [([1, 2], [3, 4]), ([5, 6], [7, 8]), ([1, 1], [0, 0]), ([9, 8], [7, 6]), ([1, 2], [3, 5]), ([0, 9], [8, 7]), ([2, 2], [2, 2]),
    ([250, 251], [252, 253])]

/-- Eight choices. -/
abbrev choices : List Bool := [true, false, false, true, true, false, true, true]

/-- A channel with products of bytes for the key exchange, and a code that depends on the key and the message. -/
abbrev channel : ChannelCrypto where
  hmac key m := key.set 0 (key[0] + m.headD 0)
  Secret := BitVec 8
  pub s := Vector.replicate 32 s
  dh s p := Vector.replicate 32 (s * p[0])
  dh_comm a b := by simp [BitVec.mul_comm]

/-- A signature scheme, in which the empty string is malformed. -/
abbrev signatures : SigScheme where
  Keypair := Byte
  publicKey k := [k]
  sign k m := k :: m
  parse s := !s.isEmpty
  parseKey k := k.length == 1
  verify key m s := s == key ++ m
  sign_parse _ _ := rfl
  key_parse _ := rfl
  sign_verify _ _ := by simp

/-- The same hash function, but for inputs of 42 bytes. -/
def hash' (m : Bytes) : WireBytes := if m.length = 42 then bytes 6 else toyHash m

theorem hash'_agrees (dbg : Bool) : AgreeBut42 (crypto dbg).sha256 hash' := fun _ hm => if_neg hm

theorem curve_order : IsOfFinAddOrder curve.base := by
  rw [isOfFinAddOrder_iff_nsmul_eq_zero]
  exact ⟨7, by decide, (by decide : 7 • (2 : ZMod 14) = 0)⟩

theorem circuit_typed : WellTyped exCircuit := by
  refine ⟨rfl, ?_, ?_, rfl, by decide⟩
  · intro d hd
    simp only [exCircuit, List.mem_cons, List.not_mem_nil, or_false] at hd
    rcases hd with rfl | rfl | rfl
    · exact ⟨by decide, ⟨3, 2, [0, 1], .and⟩, by simp [exCircuit], .inl rfl⟩
    · exact ⟨by decide, ⟨3, 2, [0, 1], .and⟩, by simp [exCircuit], .inl rfl⟩
    · exact ⟨by decide, ⟨5, 5, [4], .mul 3⟩, by simp [exCircuit], .inl rfl⟩
  · refine ⟨⟨rfl, by decide, by decide, by decide, by simp⟩,
      ⟨rfl, by decide, by decide, by decide, by simp⟩,
      ⟨rfl, by decide, by decide, by decide, by simp⟩,
      ⟨rfl, by decide, by decide, by decide, by simp⟩,
      ⟨rfl, by decide, by decide, by decide, by simp⟩, trivial⟩

theorem circuit_small : WellFormed SmallPos exCircuit := by
  refine ⟨rfl, ?_, ?_, rfl, by decide⟩
  · intro d hd
    simp only [exCircuit, List.mem_cons, List.not_mem_nil, or_false] at hd
    rcases hd with rfl | rfl | rfl
    · exact ⟨by decide, ⟨3, 2, [0, 1], .and⟩, by simp [exCircuit], .inl rfl⟩
    · exact ⟨by decide, ⟨3, 2, [0, 1], .and⟩, by simp [exCircuit], .inl rfl⟩
    · exact ⟨by decide, ⟨5, 5, [4], .mul 3⟩, by simp [exCircuit], .inl rfl⟩
  · refine ⟨⟨rfl, by decide, by decide, by decide, by simp⟩,
      ⟨rfl, by decide, by decide, by decide, by simp⟩,
      ⟨rfl, by decide, by decide, by decide, by simp⟩,
      ⟨rfl, by decide, by decide, by decide, by simp⟩,
      ⟨rfl, by decide, by decide, by decide, by simp⟩, trivial⟩

theorem circuit_input' : InputOK exCircuit [0, 1, 4] := .cons (by decide) (.cons (by decide) (.cons (by decide) .nil))

theorem circuit_input : InputOK exCircuit [1, 0, 4] := .cons (by decide) (.cons (by decide) (.cons (by decide) .nil))

end FP.Witness

/-- Shows that concrete values meet a hypothesis. -/
syntax "meets" : tactic

macro_rules
  | `(tactic| meets) => `(tactic| first
    | with_reducible exact FP.Witness.g_valid
    | with_reducible exact FP.Witness.g'_valid
    | with_reducible exact FP.Witness.recv_valid
    | with_reducible exact FP.Witness.send_valid
    | with_reducible exact FP.Witness.order_valid
    | with_reducible exact FP.Witness.database
    | with_reducible exact FP.Witness.wide_database
    | with_reducible exact FP.Witness.circuit_typed
    | with_reducible exact FP.Witness.circuit_small
    | with_reducible exact FP.Witness.circuit_input
    | with_reducible exact FP.Witness.circuit_input'
    | with_reducible exact FP.Witness.hash'_agrees _
    | with_reducible exact FP.Witness.curve_order
    | with_reducible exact FP.Witness.uneven_first
    | with_reducible exact .inl FP.Witness.shorter_second
    | with_reducible exact FP.Witness.shorter_second
    | with_reducible rfl
    | (simp only [List.length_replicate]; done)
    | (simp only [List.length_replicate]; decide)
    | decide
    | exact fun _ => List.Perm.refl _
    | exact FP.Witness.many_valid _
    | exact FP.Witness.many_possible.2.2
    | exact FP.Witness.many_possible.2.1
    | exact FP.Witness.many_possible.1
    | exact FP.Witness.three_refused _ _
    | (intros; decide)
    | (unfold FP.Spec.GoodLength; decide)
    | (unfold FP.Spec.GoodDomain; decide)
    | (refine ⟨?_, ?_⟩ <;> meets)
    | exact ⟨0, by decide, by decide⟩
    | exact ⟨2, rfl⟩
    | simp)
