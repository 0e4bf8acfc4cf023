import Verif.Proof.Sower
import Verif.Props.Fpake
import Verif.Proof.Witness
/-
C93: what a party that deviates from the protocol makes the evaluating party's half key say about its password.
Against a party that runs the code the half key is one of two keys: C88_half.
-/
namespace FP.Props
open Spec

/-- A garbling party that offers labels of its own choice and has the evaluating party add them up: the half key of the
evaluating party is a hash of the sum of the labels that belong to its password, whatever the labels are. -/
theorem C93_chosen_labels (C : Curve) (X : Crypto) (s : OTSend) (o : OTRecv) (hs : s.Valid) (ho : o.Valid) (p : Bytes)
    (hp : 0 < p.length) (hfit : p.length < 2 ^ 58) (labels : List (WireBytes × WireBytes)) (hl : labels.length = 8 * p.length) :
    Completes (sower (s.run C X) labels) (HalfKey.evaluator C X o p) ()
      (hashOut X.toEnv (16 * p.length) 1 ⟨.binary, sumLabels (picked labels (bitsOf p))⟩) := by
  have := Ends.completes (sower_ends X.toEnv p (8 * p.length) rfl hp (by omega)
    (ot_correct C X hs ho (n := 8 * p.length) (by omega) (by omega) (by omega)) labels hl)
  rw [show 8 * p.length + 8 * p.length = 16 * p.length by omega] at this
  exact this

example := C93_chosen_labels Witness.curve (Witness.crypto true) Witness.send Witness.recv (by meets) (by meets) [3, 4]
  (by meets) (by meets) (List.replicate 16 (Witness.bytes 1, Witness.bytes 2)) (by meets)

/-- C93 is false of the code.  There are labels, the same for all passwords of a length of at most 32 bytes, with which the half
key of the evaluating party is a hash of the password itself, with nothing in it that the deviating party does not know.  So it
can test every password against anything that depends on the key, without a further run. -/
theorem C93_fails_dictionary (C : Curve) (X : Crypto) (s : OTSend) (len : Nat) (hs : s.Valid) (hlen : 0 < len) (hmax : len ≤ 32) :
    ∃ labels, ∀ (o : OTRecv) (p : Bytes), o.Valid → p.length = len →
      Completes (sower (s.run C X) labels) (HalfKey.evaluator C X o p) ()
        (X.toEnv.sha256 (beBytes 8 (16 * len) ++ beBytes 2 1 ++ (p ++ List.replicate (32 - len) 0))) := by
  refine ⟨marks (8 * len), fun o p ho hp => ?_⟩
  subst hp
  have := C93_chosen_labels C X s o hs ho p hlen (by omega) (marks (8 * p.length)) (by simp [marks])
  rw [sum_marks p hmax] at this
  unfold hashOut at this
  have hb : (⟨.binary, padded p⟩ : Wire).bytes = p ++ List.replicate (32 - p.length) 0 := by
    show (padded p).toList = _
    apply List.ext_getElem
    · simp; omega
    · intro i h1 h2
      have hi : i < 32 := by simpa using h1
      rw [Vector.getElem_toList]
      unfold padded
      rw [Vector.getElem_ofFn]
      by_cases h : i < p.length
      · rw [List.getElem_append_left h]
        simp [h]
      · rw [List.getElem_append_right (by omega), List.getElem_replicate]
        simp [Nat.le_of_not_lt h]
  rw [hb] at this
  exact this

example := C93_fails_dictionary Witness.curve (Witness.crypto true) Witness.send 2 (by meets) (by meets) (by meets)

/-- The strings hashed for two passwords of the same length differ. -/
theorem C93_distinct (len : Nat) (p q : Bytes) (hp : p.length = len) (hq : q.length = len)
    (h : beBytes 8 (16 * len) ++ beBytes 2 1 ++ (p ++ List.replicate (32 - len) 0) =
      beBytes 8 (16 * len) ++ beBytes 2 1 ++ (q ++ List.replicate (32 - len) 0)) : p = q := by
  have := List.append_cancel_left h
  exact List.append_cancel_right this

example := C93_distinct 2 [3, 4] [3, 4] (by meets) (by meets) rfl

/-- C93 is false of the code also for what a deviating party can learn if it sees only which of two keys is in use, and for
passwords of any length: the number of ones of the password at any places of its choice, modulo two.  With a single place this
is a bit of the password. -/
theorem C93_fails_parity (C : Curve) (X : Crypto) (s : OTSend) (len : Nat) (hs : s.Valid) (hlen : 0 < len) (hmax : len < 2 ^ 58)
    (places : Nat → Bool) (label : WireBytes) :
    ∃ labels, ∀ (o : OTRecv) (p : Bytes), o.Valid → p.length = len →
      Completes (sower (s.run C X) labels) (HalfKey.evaluator C X o p) ()
        (if oddAt p places then hashOut X.toEnv (16 * len) 1 ⟨.binary, label⟩
          else hashOut X.toEnv (16 * len) 1 ⟨.binary, zeroLabel⟩) := by
  refine ⟨parityLabels (8 * len) places label, fun o p ho hp => ?_⟩
  subst hp
  have := C93_chosen_labels C X s o hs ho p hlen hmax (parityLabels (8 * p.length) places label) (by simp [parityLabels])
  rw [sum_parity] at this
  by_cases h : oddAt p places
  · rw [if_pos h] at this ⊢; exact this
  · rw [if_neg h] at this ⊢; exact this

example := C93_fails_parity Witness.curve (Witness.crypto true) Witness.send 2 (by meets) (by meets) (by meets) (fun i => i == 3)
  (Witness.bytes 1)

/-- With one place it is the bit at that place. -/
theorem C93_one_place (p : Bytes) (i : Nat) (hi : i < 8 * p.length) : oddAt p (fun j => j == i) ↔ bitAt p i = true := by
  unfold oddAt
  have : (List.range (8 * p.length)).countP (fun j => (j == i) && bitAt p j) =
      (List.range (8 * p.length)).countP (fun j => bitAt p j && decide (j = i)) := by
    congr 1
    funext j
    rw [Bool.and_comm]
    rfl
  rw [this, countP_single]
  cases bitAt p i <;> simp [hi]

example : oddAt [8, 0] (fun j => j == 3) ∧ ¬ oddAt [7, 1] (fun j => j == 3) := by decide

end FP.Props
