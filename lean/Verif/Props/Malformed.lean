import Verif.Proof.Malformed
import Verif.Proof.Witness
/-
C24, C45: the sender of the OT extension in src/ot/apricot.rs against messages of any length.
-/
namespace FP.Props
open FP.Spec

attribute [local irreducible] Spec.modulus

/-- The sender has received at least 32 bytes for seed `i`. -/
def SeedHere (payloads : List Bytes) (i : Nat) : Prop := ∃ p, payloads[i]? = some p ∧ 32 ≤ p.length

/-- C24 and C45, the whole decision of the sender.  Let the matrix `u` have the columns that are used, whatever
its length.  Let `r` be the sum of the sender's rows times the coefficients plus the first sixteen bytes of
`x` times delta.  A debug build panics unless both check values have sixteen bytes.  Otherwise a first value
of fewer than sixteen bytes is read out of bounds; the messages are sent if the second value is a prefix
of `r`; the sender panics if it is longer but begins with `r`; in all other cases the receiver is
reported. -/
theorem C24_apricot_exact (X : Crypto) (arm : Bool) (cores : Nat) (sched : Nat → List Nat) (delta : Bytes)
    (seed : WireBytes) (msg : List (Bytes × Bytes)) (ms : Nat) (payloads : List Bytes) (s : Nat → WireBytes)
    (w : Nat) (hw : msg.length + 256 = 8 * w) (hn : 0 < msg.length) (hms : 0 < ms)
    (hm : ∀ m ∈ msg, m.1.length = ms ∧ m.2.length = ms) (hd : delta.length = 16) (hc : 0 < cores)
    (hs : ∀ m, IsOrder m (sched m))
    (hp : ∀ i < 128, ∃ p, payloads[i]? = some p ∧ 32 ≤ p.length ∧ p.take 32 = (s i).toList)
    (u x t : Bytes) (rest : List Bytes) (hu : ∀ i < 128, bitAt delta i = true → w * (i + 1) ≤ u.length) :
    ∃ r d : Bytes, r.length = 16 ∧ d.length = msg.length * (ms * 2) ∧
      elt r = (∑ j ∈ Finset.range (8 * w), senderRow (fun i => X.fill (s i) w) delta u w j *
        chi (X.fill seed (16 * (8 * w))) j) + elt (x.take 16) * elt delta ∧
      (apricotSenderExtend X arm cores sched delta seed msg ms payloads).against (u :: x :: t :: rest) =
        if X.dbg = true ∧ (x.length ≠ 16 ∨ t.length ≠ 16) then ([], some (.error .panic))
        else if x.length < 16 then ([], some (.error .ub))
        else if t <+: r then ([d], some (.ok ()))
        else if r <+: t then ([], some (.error .panic))
        else ([], some (.error (.err .polychromatic))) := by
  obtain ⟨K, eK, -, hK⟩ := senderExtend_usable X arm cores sched delta seed msg ms payloads s w hw hd hp
  obtain ⟨qT, qSum, hq1, hq2, hq3, hKu⟩ := hK u hu
  obtain ⟨r, hr, he, hf⟩ := apFinish_eq X arm cores sched delta qT qSum msg ms hc hs hn hms hd (by omega) hm hq2 x t
  refine ⟨r, (List.range msg.length).flatMap (apPair X delta qT msg), hr, ?_, by rw [he, hq3], ?_⟩
  · rw [flatMap_len (w := ms * 2) (fun j hj => apPair_length X delta qT msg ms j hj hm), Nat.mul_comm]
  · rw [eK]
    simp only [Proc.against, hKu, hf]
    split
    · rfl
    split
    · rfl
    split
    · rfl
    split <;> rfl

/-- C45, exactly: the sender's accesses out of bounds.  Either the first seed that is not there in full is
there in part; or all are there, and the matrix is too short for a column whose secret bit is set, or, in
a release build, the first check value has fewer than sixteen bytes. -/
theorem C45_apricot_exact (X : Crypto) (arm : Bool) (cores : Nat) (sched : Nat → List Nat) (delta : Bytes)
    (seed : WireBytes) (msg : List (Bytes × Bytes)) (ms : Nat) (payloads inputs : List Bytes)
    (w : Nat) (hw : msg.length + 256 = 8 * w) (hn : 0 < msg.length) (hms : 0 < ms)
    (hm : ∀ m ∈ msg, m.1.length = ms ∧ m.2.length = ms) (hd : delta.length = 16) (hc : 0 < cores)
    (hs : ∀ m, IsOrder m (sched m)) :
    ((apricotSenderExtend X arm cores sched delta seed msg ms payloads).against inputs).2 = some (.error .ub) ↔
      (∃ k < 128, (∀ i < k, SeedHere payloads i) ∧ ∃ p, payloads[k]? = some p ∧ p.length < 32) ∨
      ((∀ i < 128, SeedHere payloads i) ∧ ∃ u rest, inputs = u :: rest ∧
        ((∃ i < 128, bitAt delta i = true ∧ u.length < w * (i + 1)) ∨
          X.dbg = false ∧ ∃ x t rest', rest = x :: t :: rest' ∧ x.length < 16)) := by
  by_cases hall : ∀ i < 128, SeedHere payloads i
  · have hsel : ∀ i, ∃ v : WireBytes, i < 128 → ∃ p, payloads[i]? = some p ∧ 32 ≤ p.length ∧ p.take 32 = v.toList := by
      intro i
      by_cases hi : i < 128
      · obtain ⟨p, h1, h2⟩ := hall i hi
        exact ⟨⟨(p.take 32).toArray, by simp; omega⟩, fun _ => ⟨p, h1, h2, by simp⟩⟩
      · exact ⟨Vector.replicate 32 0, fun h => absurd h hi⟩
    choose s hp using hsel
    have hleft : ¬ ∃ k < 128, (∀ i < k, SeedHere payloads i) ∧ ∃ p, payloads[k]? = some p ∧ p.length < 32 := by
      rintro ⟨k, hk, -, p, h1, h2⟩
      obtain ⟨p', h3, h4⟩ := hall k hk
      rw [h1] at h3
      have := Option.some.inj h3
      subst this
      omega
    rw [or_iff_right hleft, and_iff_right hall]
    obtain ⟨K, eK, hbad, hK⟩ := senderExtend_usable X arm cores sched delta seed msg ms payloads s w hw hd hp
    rw [eK]
    cases inputs with
    | nil => simp [Proc.against]
    | cons u rest =>
      by_cases hu : ∀ i < 128, bitAt delta i = true → w * (i + 1) ≤ u.length
      · have hnot : ¬ ∃ i < 128, bitAt delta i = true ∧ u.length < w * (i + 1) := by
          rintro ⟨i, hi, hb, hl⟩
          have := hu i hi hb
          omega
        obtain ⟨qT, qSum, hq1, hq2, hq3, hKu⟩ := hK u hu
        simp only [Proc.against, hKu]
        constructor
        · intro h
          refine ⟨u, rest, rfl, .inr ?_⟩
          rcases rest with _ | ⟨x, _ | ⟨t, rest⟩⟩
          · simp [Proc.against] at h
          · simp [Proc.against] at h
          · simp only [Proc.against] at h
            obtain ⟨r, hr, he, hf⟩ := apFinish_eq X arm cores sched delta qT qSum msg ms hc hs hn hms hd (by omega) hm hq2 x t
            rw [hf] at h
            split at h
            · simp [Proc.against] at h
            next hdb =>
            split at h
            next hx =>
              refine ⟨?_, x, t, rest, rfl, hx⟩
              cases hX : X.dbg with
              | false => rfl
              | true => exact absurd ⟨hX, .inl (by omega)⟩ hdb
            · split at h
              · simp [Proc.against] at h
              · split at h <;> simp [Proc.against] at h
        · rintro ⟨u', rest', e, h⟩
          cases e
          obtain ⟨hX, x, t, rest', rfl, hx⟩ := h.resolve_left hnot
          obtain ⟨r, hr, he, hf⟩ := apFinish_eq X arm cores sched delta qT qSum msg ms hc hs hn hms hd (by omega) hm hq2 x t
          simp only [Proc.against]
          rw [hf, if_neg (by simp [hX]), if_pos hx]
          rfl
      · push Not at hu
        have := hbad u hu
        simp only [Proc.against, this]
        exact iff_of_true trivial ⟨u, rest, rfl, .inl hu⟩
  · rw [or_iff_left (fun h => hall h.1)]
    push Not at hall
    classical
    obtain ⟨hk, hbad⟩ := Nat.find_spec hall
    have hpre : ∀ i < Nat.find hall, SeedHere payloads i := by
      intro i hi
      by_contra h
      exact Nat.find_min hall hi ⟨by omega, h⟩
    have hrun : ∀ e, (do arrayFromSlice (← idxR payloads (Nat.find hall))) = (.error e : R WireBytes) →
        ((apricotSenderExtend X arm cores sched delta seed msg ms payloads).against inputs).2 = some (.error e) := by
      intro e he
      unfold apricotSenderExtend
      dsimp only
      rw [apRows_bad X _ payloads (Nat.find hall) hk e hpre he]
      rfl
    cases hx : payloads[Nat.find hall]? with
    | none =>
      rw [hrun .panic (by unfold idxR; rw [hx]; rfl)]
      refine iff_of_false (by simp) ?_
      rintro ⟨k, hk', hp', p, h1, h2⟩
      rcases Nat.lt_trichotomy k (Nat.find hall) with h | h | h
      · obtain ⟨p', h3, h4⟩ := hpre k h
        rw [h1] at h3
        have := Option.some.inj h3
        subst this
        omega
      · rw [h, hx] at h1
        cases h1
      · exact hbad (hp' _ h)
    | some p =>
      have hl : p.length < 32 := by
        by_contra h
        exact hbad ⟨p, hx, by omega⟩
      rw [hrun .ub (by
        rw [idxR_ok hx, okb]
        unfold arrayFromSlice
        rw [dif_neg (by omega)]
        rfl)]
      exact iff_of_true rfl ⟨_, hk, hpre, p, hx, hl⟩

example := C45_apricot_exact (Witness.crypto true) true 4 List.range (List.replicate 16 5) (Witness.bytes 1)
    Witness.messages 2 Witness.passwords Witness.passwords 33 (by meets) (by meets) (by meets) (by meets) (by meets)
    (by meets) (by meets)

/-- C45 is false even before the extension proper: a seed of fewer than 32 bytes delivered by the bootstrap
transfer is read past its end, in every build and whatever follows. -/
theorem C45_short_seed (X : Crypto) (arm : Bool) (cores : Nat) (sched : Nat → List Nat) (delta : Bytes)
    (seed : WireBytes) (msg : List (Bytes × Bytes)) (ms : Nat) (payloads inputs : List Bytes)
    (h : ∃ k < 128, (∀ i < k, SeedHere payloads i) ∧ ∃ p, payloads[k]? = some p ∧ p.length < 32) :
    (apricotSenderExtend X arm cores sched delta seed msg ms payloads).against inputs = ([], some (.error .ub)) := by
  obtain ⟨k, hk, hpre, p, hp, hl⟩ := h
  unfold apricotSenderExtend
  dsimp only
  rw [apRows_bad X _ payloads k hk .ub hpre (by
    rw [idxR_ok hp, okb]
    unfold arrayFromSlice
    rw [dif_neg (by omega)]
    rfl)]
  rfl

/-! ### The hypotheses can be met -/

/-- Delta with one bit set: a matrix of a single column is usable. -/
example : ∀ i < 128, bitAt (1 :: List.replicate 15 0) i = true → 34 * (i + 1) ≤ (List.replicate 34 (7 : Byte)).length := by
  intro i hi hb
  have h0 : i = 0 := by
    by_contra hne
    revert hb
    have : ∀ j : Fin 128, j.val ≠ 0 → ¬ bitAt (1 :: List.replicate 15 0) j.val = true := by decide +kernel
    exact this ⟨i, hi⟩ hne
  subst h0
  simp

/-- Seeds with trailing bytes. -/
example (s : Nat → WireBytes) : ∀ i < 128, ∃ p, ((List.range 128).map fun i => (s i).toList ++ [1, 2, 3])[i]? = some p ∧
    32 ≤ p.length ∧ p.take 32 = (s i).toList := by
  intro i hi
  refine ⟨(s i).toList ++ [1, 2, 3], by simp [hi], by simp, ?_⟩
  rw [List.take_append_of_le_length (by simp), List.take_of_length_le (by simp)]

/-- A bootstrap that delivers an empty first seed. -/
example : ∃ k < 128, (∀ i < k, SeedHere [[]] i) ∧ ∃ p, ([[]] : List Bytes)[k]? = some p ∧ p.length < 32 :=
  ⟨0, by decide, by simp, [], rfl, by decide⟩

end FP.Props
