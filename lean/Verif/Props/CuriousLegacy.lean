import Verif.Proof.CuriousLegacy
import Verif.Proof.Witness
/-
C72 for the first two one-of-many implementations.
-/
namespace FP.Props
open Spec

/-- The curious parties are the parties of the protocols: forgetting what they have read leaves the same programs. -/
theorem C72_same_legacy (C : Curve) (X : Crypto) (c : ClientDraws1) (o : OTRecv) (c2 : ClientDraws) (e : ServerEvaluator2)
    (p : Bytes) (passwords : List Bytes) (number index : Nat) :
    (do let r ← curiousClientV1 C X c p number index
        return r.1) = evaluatorClientV1 C X c p number index ∧
    (do let r ← curiousServerV1 C X o passwords
        return r.1) = evaluatorServerV1 C X o passwords ∧
    (do let r ← curiousClientV2 C X c2 p number index
        return r.1) = evaluatorClientV2 C X c2 p number index ∧
    (do let r ← curiousServerV2 C X e passwords
        return r.1) = evaluatorServerV2 C X e passwords := by
  refine ⟨?_, ?_, ?_, ?_⟩
  · unfold curiousClientV1 evaluatorClientV1
    simp [bindP_assoc, bindP_pure]
  · unfold curiousServerV1 evaluatorServerV1
    simp [bindP_assoc, bindP_pure]
  · unfold curiousClientV2 curiousClientV3 evaluatorClientV2
    simp [bindP_assoc, bindP_pure]
  · unfold curiousServerV2 evaluatorServerV2
    simp [bindP_assoc, bindP_pure]

/-- C72 is false of the first implementation: a client reads the password stored at the index of its choice,
whatever its own password is, and the server reads in which bits the client's password differs from the stored
one.  The server also finds the index (C46). -/
theorem C72_fails_v1 (C : Curve) (X : Crypto) (s : ServerDraws1) (c : ClientDraws1) (g : ClientGarbler1) (o : OTRecv)
    (passwords : List Bytes) (password : Bytes) (len index t : Nat) (hdb : Database passwords len) (hlen : GoodLength len)
    (hcount : X.dbg = true → 2 ≤ passwords.length) (hpw : password.length = len) (hi : index < passwords.length)
    (hm : s.many.Valid X.dbg passwords.length) (hsg : s.g.Valid) (hco : c.ot.Valid) (hg : g.g.Valid) (ho : o.Valid)
    (ht : t < 65535) :
    (∃ k k', Completes (garblerServerV1 C X s passwords t) (evaluatorClientV1 C X c password passwords.length index) k k' ∧
      Completes (garblerServerV1 C X s passwords t) (curiousClientV1 C X c password passwords.length index) k
        (k', bitsOf passwords[index])) ∧
    (∃ k k', Completes (evaluatorServerV1 C X o passwords) (garblerClientV1 C X g password index passwords.length t) k k' ∧
      Completes (curiousServerV1 C X o passwords) (garblerClientV1 C X g password index passwords.length t)
        (k, List.zipWith xor (bitsOf passwords[index]) (bitsOf password)) k') := by
  obtain ⟨k, k', a1, a2⟩ := serverV1_curious C X s c passwords password len index t hdb hlen hpw hi hm hsg hco ht
  obtain ⟨l, l', b1, b2⟩ := clientV1_curious C X g o passwords password len index t hdb.lengths hlen hcount hdb.count hpw hi hg ho ht
  exact ⟨⟨k, k', a1.completes, a2.completes⟩, ⟨l, l', b1.completes, b2.completes⟩⟩

example := C72_fails_v1 Witness.curve (Witness.crypto true) Witness.serverDraws1 Witness.clientDraws1
    Witness.clientGarbler1 Witness.recv Witness.passwords Witness.password 2 1 1 (by meets) (by meets) (by meets)
    (by meets) (by meets) (by meets) (by meets) (by meets) (by meets) (by meets) (by meets)

/-- The same of the second implementation. -/
theorem C72_fails_v2 (C : Curve) (X : Crypto) (s : ServerDraws) (c : ClientDraws) (g : ClientGarbler2) (e : ServerEvaluator2)
    (passwords : List Bytes) (password : Bytes) (len index t : Nat) (hdb : Database passwords len) (hlen : GoodLength len)
    (hpw : password.length = len) (hi : index < passwords.length) (hm : s.many.Valid X.dbg passwords.length)
    (hsg : s.g.Valid) (hs2 : s.ot2.Valid) (hco : c.ot.Valid) (hco2 : c.ot2.Valid) (hg : g.g.Valid)
    (hem : e.many.Valid X.dbg passwords.length) (he : e.ot.Valid) (ht : t < 65535) :
    (∃ k k', Completes (garblerServerV2 C X s passwords t) (evaluatorClientV2 C X c password passwords.length index) k k' ∧
      Completes (garblerServerV2 C X s passwords t) (curiousClientV2 C X c password passwords.length index) k
        (k', bitsOf passwords[index])) ∧
    (∃ k k', Completes (evaluatorServerV2 C X e passwords) (garblerClientV2 C X g password index passwords.length t) k k' ∧
      Completes (curiousServerV2 C X e passwords) (garblerClientV2 C X g password index passwords.length t)
        (k, List.zipWith xor (bitsOf passwords[index]) (bitsOf password)) k') := by
  obtain ⟨k, k', mask, -, a1, a2⟩ := serverV3_curious C X s c passwords password len index t hdb hlen hpw hi hm hsg hs2 hco hco2 ht
  obtain ⟨l, l', b1, b2⟩ := clientV2_curious C X g e passwords password len index t hdb hlen hpw hi hem hg he ht
  refine ⟨⟨k, k', ?_, ?_⟩, ⟨l, l', b1.completes, b2.completes⟩⟩
  · rw [garblerServerV2_eq, evaluatorClientV2_eq]
    exact Ends.completes (.bind a1 (.ret _ _))
  · rw [garblerServerV2_eq]
    exact Ends.completes (.bind a2 (.ret _ _))

example := C72_fails_v2 Witness.curve (Witness.crypto true) Witness.serverDraws Witness.clientDraws
    Witness.clientGarbler2 Witness.serverEvaluator2 Witness.passwords Witness.password 2 1 1 (by meets) (by meets)
    (by meets) (by meets) (by meets) (by meets) (by meets) (by meets) (by meets) (by meets) (by meets) (by meets)
    (by meets)

/-- A database of two passwords, and a client whose password differs from both in every bit. -/
example : Database [[0], [0]] 1 ∧ GoodLength 1 ∧ bitDistance [0] [255] = 8 :=
  ⟨⟨⟨1, rfl⟩, by decide, by decide⟩, by decide, by decide⟩

end FP.Props
