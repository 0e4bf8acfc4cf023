import Verif.Proof.AskedServer
import Verif.Proof.Witness
/-
C100: the first one-of-many implementation tells the server the client's password.
-/
namespace FP.Props
open FP.Spec

/-- The recording server is the server of the protocol: forgetting what it has recorded leaves the same program. -/
theorem C100_same_messages (C : Curve) (X : Crypto) (o : OTRecv) (passwords : List Bytes) :
    (do let r ← recorderServerV1 C X o passwords
        return r.2.key) = evaluatorServerV1 C X o passwords :=
  recorderServerV1_forget C X o passwords

/-- C100 is false for every database of two or more entries.  Of what the server holds it computes the bits `sumBits2` and the
indices at which all other blocks of strings cancel.  The entry at such an index, changed in those bits, is a candidate for the
password.  The client's password, whatever it is, is always among the candidates.  It is the only one, unless a block of strings
repeats the block at the client's index. -/
theorem C100_fails (C : Curve) (X : Crypto) (g : ClientGarbler1) (o : OTRecv) (passwords : List Bytes)
    (password : Bytes) (len index t : Nat) (hdb : ∀ p ∈ passwords, p.length = len) (hlen : GoodLength len)
    (hcount : 2 ≤ passwords.length) (hcount' : passwords.length < 2 ^ 32)
    (hpw : password.length = len) (hi : index < passwords.length) (hg : g.g.Valid) (ho : o.Valid) (ht : t < 65535) :
    ∃ view held k, Completes (recorderServerV1 C X o passwords) (garblerClientV1 C X g password index passwords.length t)
        (view, held) k ∧
      OthersCancel view passwords.length (len * 8) index ∧
      xorBits (bitsOf passwords[index]) (sumBits2 (len * 8) held.gc held.theirs held.ours) = bitsOf password ∧
      (∀ i < passwords.length, OthersCancel view passwords.length (len * 8) i ↔
        ∀ j < len * 8, view[i * (len * 8) + j]? = view[index * (len * 8) + j]?) ∧
      ∀ i, ∀ h : i < passwords.length, OthersCancel view passwords.length (len * 8) i →
        (∀ j < passwords.length, OthersCancel view passwords.length (len * 8) j → j = i) →
        xorBits (bitsOf passwords[i]) (sumBits2 (len * 8) held.gc held.theirs held.ours) = bitsOf password := by
  obtain ⟨h0, -⟩ := good_fits hlen
  obtain ⟨-, hn', hD⟩ := goodLength hlen
  have hil : passwords[index].length = len := hdb _ (List.getElem_mem hi)
  rw [Nat.mul_comm 8 len] at hn' hD
  have ul : ∀ p : Bytes, p.length = len → (u8VecToBoolVec p).length = len * 8 := fun p h => by rw [unpack_length, h, Nat.mul_comm]
  obtain ⟨z, K, gc, gc', d, H, hev⟩ := sum2 X.toEnv g.g.rnd g.g.ord hg.ord (n := len * 8) (t := t) (by omega) hn' hD ht
  obtain ⟨⟨K', hK'⟩, hS⟩ := hev _ _ (ul password hpw) (ul _ hil)
  have hl24 : len < 2 ^ 24 := by unfold GoodLength at hlen; omega
  obtain ⟨view, h1, h2, h3, -⟩ := recorderServerV1_conn C X g o passwords password len index t hdb h0 hl24 hcount hcount' hpw hi hg
    ho H hK'
  have key : xorBits (bitsOf passwords[index]) (sumBits2 (len * 8) gc' (pick ((z.drop 0).take (len * 8)) (u8VecToBoolVec password))
      (pick ((z.drop (len * 8)).take (len * 8)) (u8VecToBoolVec passwords[index]))) = bitsOf password := by
    rw [hS, bitsOf_unpack, bitsOf_unpack]
    apply List.ext_getElem
    · simp [xorBits, bitsOf_length]; omega
    · intro k h1 h2
      simp only [xorBits, List.getElem_zipWith]
      generalize (bitsOf password)[k]'_ = x; generalize (bitsOf passwords[index])[k]'_ = y
      cases x <;> cases y <;> rfl
  refine ⟨view, _, K, h1.completes, h2, key, h3, fun i h hc hu => ?_⟩
  obtain rfl := hu index hi h2
  exact key

example := C100_fails Witness.curve (Witness.crypto true) Witness.clientGarbler1 Witness.recv Witness.passwords
    Witness.password 2 1 1 (by meets) (by meets) (by meets) (by meets) (by meets) (by meets) (by meets) (by meets)
    (by meets)

/-- The candidate is unique for all but few blinding keys: there are labels, which do not depend on the blinding keys, such that
the server finds exactly one index, and with it the password, exactly if those labels are not one of the blinding rows. -/
theorem C100_fails_unique (C : Curve) (X : Crypto) (g : ClientGarbler1) (o : OTRecv) (passwords : List Bytes)
    (password : Bytes) (len index t : Nat) (hdb : ∀ p ∈ passwords, p.length = len) (hlen : GoodLength len)
    (hcount : 2 ≤ passwords.length) (hcount' : passwords.length < 2 ^ 32)
    (hpw : password.length = len) (hi : index < passwords.length) (hg : g.g.Valid) (ho : o.Valid) (ht : t < 65535) :
    ∃ labels : List Wire, labels.length = len * 8 ∧
      ∀ keys rows, blindingKeys X.dbg keys passwords.length (len * 8) = .ok rows →
      ∃ view held k, Completes (recorderServerV1 C X o passwords)
          (garblerClientV1 C X { g with keys := keys } password index passwords.length t) (view, held) k ∧
        ((∀ i < passwords.length, OthersCancel view passwords.length (len * 8) i ↔ i = index) ↔ labels.map Wire.bytes ∉ rows) ∧
        xorBits (bitsOf passwords[index]) (sumBits2 (len * 8) held.gc held.theirs held.ours) = bitsOf password := by
  obtain ⟨h0, -⟩ := good_fits hlen
  obtain ⟨-, hn', hD⟩ := goodLength hlen
  have hil : passwords[index].length = len := hdb _ (List.getElem_mem hi)
  rw [Nat.mul_comm 8 len] at hn' hD
  have ul : ∀ p : Bytes, p.length = len → (u8VecToBoolVec p).length = len * 8 := fun p h => by rw [unpack_length, h, Nat.mul_comm]
  obtain ⟨z, K, gc, gc', d, H, hev⟩ := sum2 X.toEnv g.g.rnd g.g.ord hg.ord (n := len * 8) (t := t) (by omega) hn' hD ht
  obtain ⟨⟨K', hK'⟩, hS⟩ := hev _ _ (ul password hpw) (ul _ hil)
  have hl24 : len < 2 ^ 24 := by unfold GoodLength at hlen; omega
  have key : xorBits (bitsOf passwords[index]) (sumBits2 (len * 8) gc' (pick ((z.drop 0).take (len * 8)) (u8VecToBoolVec password))
      (pick ((z.drop (len * 8)).take (len * 8)) (u8VecToBoolVec passwords[index]))) = bitsOf password := by
    rw [hS, bitsOf_unpack, bitsOf_unpack]
    apply List.ext_getElem
    · simp [xorBits, bitsOf_length]; omega
    · intro k h1 h2
      simp only [xorBits, List.getElem_zipWith]
      generalize (bitsOf password)[k]'_ = x; generalize (bitsOf passwords[index])[k]'_ = y
      cases x <;> cases y <;> rfl
  have hpl : (pick ((z.drop (len * 8)).take (len * 8)) (u8VecToBoolVec passwords[index])).length = len * 8 := by
    have hz := H.length
    rw [pick_length (by rw [ul _ hil]; simp; omega)]; simp; omega
  refine ⟨pick ((z.drop (len * 8)).take (len * 8)) (u8VecToBoolVec passwords[index]), hpl, fun keys rows hrows => ?_⟩
  obtain ⟨view, h1, h2, h3, rows', h4, h5, h6, h7⟩ := recorderServerV1_conn C X { g with keys := keys } o passwords password len
    index t hdb h0 hl24 hcount hcount' hpw hi hg ho H hK'
  obtain rfl : rows = rows' := Except.ok.inj (hrows.symm.trans h4)
  refine ⟨view, _, K, h1.completes, ⟨fun hu hold => ?_, fun hnew i h => ⟨fun hc => ?_, fun e => e ▸ h2⟩⟩, key⟩
  · obtain ⟨i, h8, h9, h10⟩ := found_again h5 h6 hi hold
    rw [← h7] at h10
    exact h9 ((hu i h8).mp ((h3 i h8).mpr h10))
  · have h8 := (h3 i h).mp hc
    rw [h7] at h8
    exact found_block h5 h6 (by rw [List.length_map]; exact hpl) hi hnew h h8

example := C100_fails_unique Witness.curve (Witness.crypto true) Witness.clientGarbler1 Witness.recv Witness.passwords
    Witness.password 2 1 1 (by meets) (by meets) (by meets) (by meets) (by meets) (by meets) (by meets) (by meets)
    (by meets)

/-- With three entries, whatever the labels are, there are blinding keys none of whose rows they are. -/
example (dbg : Bool) (len : Nat) (hlen : 0 < len) (labels : List Wire) (hl : labels.length = len * 8) :
    ∃ keys rows, blindingKeys dbg keys 3 (len * 8) = .ok rows ∧ labels.map Wire.bytes ∉ rows := by
  have pick : ∃ w : WireBytes, w.toList ≠ (labels[0]'(by omega)).bytes := by
    by_contra h
    have h1 := (not_not.mp fun e => h ⟨_, e⟩ : (Vector.replicate 32 (0 : Byte)).toList = _).trans
      (not_not.mp fun e => h ⟨_, e⟩ : (Vector.replicate 32 (1 : Byte)).toList = _).symm
    exact absurd h1 (by decide)
  obtain ⟨w, hw⟩ := pick
  obtain ⟨rows, h, -⟩ := blindingKeys_ok dbg (fun _ _ => w) (number := 3) (bits := len * 8) (by omega) (by omega)
  refine ⟨_, rows, h, fun hm => ?_⟩
  have := congrArg (fun l => l[0]?) (blindingKeys_three dbg w (len * 8) h _ hm)
  simp only [List.getElem?_map, List.getElem?_eq_getElem (show 0 < labels.length by omega), Option.map_some,
    List.getElem?_replicate, if_pos (show 0 < len * 8 by omega)] at this
  exact hw (Option.some.inj this).symm

end FP.Props
