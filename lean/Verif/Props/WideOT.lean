import Verif.Proof.Witness
import Verif.Proof.WideOT
import Verif.Props.ManyOT
/-
C44, for index widths beyond the 32 bits of an index.
-/
namespace FP.Props

/-- In a build with debug assertions a receiver with a width above 32 panics before it reads or sends anything,
and so does a sender with a width of 64 or more, whatever the messages are. -/
theorem C44_wide_debug (X : Crypto) (hdbg : X.dbg = true) (cores : Nat) (order : List Nat)
    (keys : Nat → WireBytes × WireBytes) (S : List (Bytes × Bytes) → Proc Unit)
    (V : List Bool → Proc (List Bytes)) (messages : List Bytes) (domain index : Nat) :
    (32 < domain → manyReceiver X V index domain = .fail .panic) ∧
    (64 ≤ domain → manySender X cores order keys S messages domain = .fail .panic) := by
  constructor
  · intro h
    have hc : manyChoices X.dbg index domain = .error .panic := by
      obtain ⟨r, rfl⟩ : ∃ r, domain = 32 + (1 + r) := ⟨domain - 33, by omega⟩
      unfold manyChoices
      rw [List.range_add, List.mapM_append]
      have := manyChoices_ok X.dbg index 32 (Nat.le_refl _)
      unfold manyChoices at this
      rw [this, okb, Nat.add_comm 1 r, List.range_succ_eq_map, List.map_cons, List.mapM_cons, hdbg]
      rfl
    unfold manyReceiver
    rw [hc]
    rfl
  · intro h
    have hs : shlOneR X.dbg 64 domain = .error .panic := by
      unfold shlOneR
      rw [if_neg (by omega), hdbg]
      rfl
    have hy : ∀ ks, manyY X cores order messages ks domain = .error .panic := by
      intro ks
      unfold manyY
      cases messages with
      | nil => rfl
      | cons m ms =>
        rw [idxR_ok (a := m) (by simp), okb, hs]
        rfl
    unfold manySender
    simp only [hy]
    rfl

example := (C44_wide_debug (Witness.crypto true) rfl 2 [1, 0] (fun j => (Witness.bytes j, Witness.bytes (j + 9)))
    (coSender Witness.curve (Witness.crypto true) (· + 3)) (coReceiver Witness.curve (Witness.crypto true) (· + 5))
    Witness.passwords 64 1).2 (by decide)

/-- In a release build every width runs to the end with `2 ^ (domain % 64)` messages, and this is what the
receiver obtains: the message at its index, with two masks added for every position at which the sender's
reading of the index (modulo 64) and the receiver's (modulo 32) differ. -/
theorem C44_release (X : Crypto) (hrel : X.dbg = false) (cores : Nat) (order : List Nat)
    (keys : Nat → WireBytes × WireBytes) (S : List (Bytes × Bytes) → Proc Unit)
    (V : List Bool → Proc (List Bytes)) (messages : List Bytes) (domain len index : Nat)
    (hot : Spec.CorrectOT 32 domain S V)
    (hlen : ∀ m ∈ messages, m.length = len) (hn : messages.length = 2 ^ (domain % 64))
    (hi : index < messages.length) (h32 : index < 2 ^ 32)
    (hsize : messages.length * len < 2 ^ 64) (hcores : 0 < cores) (hl : 0 < len)
    (horder : Spec.IsOrder (Spec.workers cores messages.length) order)
    (hsplit : Spec.CleanSplit false cores messages.length) :
    Spec.Completes (manySender X cores order keys S messages domain)
      (manyReceiver X V index domain) () (Spec.opened X keys domain messages[index] index) := by
  rw [hn] at horder hsize hsplit
  have := many_ends_release X hrel cores order keys S V messages domain len index hot hcores hlen (by omega)
    (by omega) h32 hsize (fun _ => ⟨hl, fun h => absurd (hrel.symm.trans h) (by decide),
      by rw [rows_eq]; exact hsplit.1, by rw [jobs_eq _ _ _ hl hcores]; exact horder⟩)
  rw [show messages.getD index [] = messages[index] by simp [hi]] at this
  exact this.completes

/-- Where the two readings agree on all positions the receiver has the message: for every width up to 32, and
for the index 0 at every width. -/
theorem C44_release_right (X : Crypto) (keys : Nat → WireBytes × WireBytes) (domain : Nat) (m : Bytes) (index : Nat)
    (h : ∀ j < domain, index.testBit (j % 64) = index.testBit (j % 32)) :
    Spec.opened X keys domain m index = m := by
  have hz : ∀ (l : List Nat) (k : Nat) (a : Byte), (∀ j ∈ l, j < domain) →
      l.foldl (fun byte j => byte ^^^
        (X.chacha20 (Spec.maskSeed X.sha256 keys index j (index.testBit (j % 64))) k ^^^
        X.chacha20 (Spec.maskSeed X.sha256 keys index j (index.testBit (j % 32))) k)) a = a := by
    intro l k
    induction l with
    | nil => intro a _; rfl
    | cons x l ih =>
      intro a hl
      rw [List.foldl_cons, h x (hl x (by simp)), BitVec.xor_self, BitVec.xor_zero]
      exact ih a fun j hj => hl j (by simp [hj])
  unfold Spec.opened Spec.openedByte
  apply List.ext_getElem
  · simp
  · intro k h1 h2
    rw [List.getElem_map, hz _ _ _ (fun j hj => by simpa using hj), List.getElem_range]
    simp [h2]

example := C44_release_right (Witness.crypto false) (fun j => (Witness.bytes j, Witness.bytes (j + 9))) 32 [3, 4] 5 (by decide)

/-- The first index at which a width above 32 goes wrong: at width 33 the message with index 1 arrives with the
two masks of the last position added, so it is wrong wherever these differ. -/
theorem C44_fails_width_33 (X : Crypto) (keys : Nat → WireBytes × WireBytes) (m : Bytes) (k : Nat) (hk : k < m.length)
    (hmask : X.chacha20 (Spec.maskSeed X.sha256 keys 1 32 false) k ≠
      X.chacha20 (Spec.maskSeed X.sha256 keys 1 32 true) k) :
    Spec.opened X keys 33 m 1 ≠ m := by
  intro h
  have h1 : (Spec.opened X keys 33 m 1)[k]? = m[k]? := by rw [h]
  unfold Spec.opened at h1
  rw [List.getElem?_map, List.getElem?_range hk, List.getElem?_eq_getElem hk] at h1
  have h2 := Option.some.inj h1
  have h0 := C44_release_right X keys 32 m 1 (fun j hj => by
    rw [Nat.mod_eq_of_lt hj, Nat.mod_eq_of_lt (show j < 64 by omega)])
  have h3 : (Spec.opened X keys 32 m 1)[k]? = m[k]? := by rw [h0]
  unfold Spec.opened at h3
  rw [List.getElem?_map, List.getElem?_range hk, List.getElem?_eq_getElem hk] at h3
  have h4 := Option.some.inj h3
  unfold Spec.openedByte at h2 h4
  rw [show (33 : Nat) = 32 + 1 from rfl, List.range_succ, List.foldl_append, h4] at h2
  simp only [List.foldl_cons, List.foldl_nil] at h2
  apply hmask
  have e1 : (1 : Nat).testBit (32 % 64) = false := by decide
  have e2 : (1 : Nat).testBit (32 % 32) = true := by decide
  rw [e1, e2] at h2
  generalize X.chacha20 (Spec.maskSeed X.sha256 keys 1 32 false) k = a at *
  generalize X.chacha20 (Spec.maskSeed X.sha256 keys 1 32 true) k = b at *
  generalize m[k] = c at *
  have : c ^^^ (c ^^^ (a ^^^ b)) = c ^^^ c := by rw [h2]
  rw [← BitVec.xor_assoc, BitVec.xor_self, BitVec.zero_xor] at this
  have h5 : a ^^^ (a ^^^ b) = a ^^^ 0#8 := by rw [this]
  rw [← BitVec.xor_assoc, BitVec.xor_self, BitVec.zero_xor, BitVec.xor_zero] at h5
  exact h5.symm

/-- Two messages at width 65, on four cores. -/
example (X : Crypto) (hrel : X.dbg = false) (C : Curve) (a b : Nat → Nat) (keys : Nat → WireBytes × WireBytes) :
    Spec.Completes (manySender X 4 [1, 0] keys (coSender C X a) [[7], [9]] 65)
      (manyReceiver X (coReceiver C X b) 0 65) () [7] := by
  have h := C44_release X hrel 4 [1, 0] keys (coSender C X a) (coReceiver C X b) [[7], [9]] 65 1 0 (by
      intro msg choices h1 h2 hm
      refine C20_base_ot C X a b msg choices (by omega) (by omega) fun m h => ?_
      obtain ⟨e1, e2⟩ := hm m h
      rw [e1, e2]
      decide) (by simp) (by decide) (by decide) (by decide) (by decide) (by decide) (by decide)
    (by unfold Spec.IsOrder; decide) (by unfold Spec.CleanSplit; decide)
  rw [C44_release_right X keys 65 _ 0 (fun j _ => by simp)] at h
  exact h

end FP.Props
