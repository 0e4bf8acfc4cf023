import Verif.Proof.CuriousMany
import Verif.Proof.Witness
/-
C72: what a party learns that follows the protocol to the letter.  The property one relies on is false of the
code; the theorems show how it fails.
-/
namespace FP.Props
open Spec

/-- The curious party is the party of the protocol: forgetting what it has read leaves the same program, so
that it sends and receives the same messages and derives the same half key. -/
theorem C72_same_messages (E : Env) (ot : List Bool → Proc (List Bytes)) (q : Bytes) :
    (do let r ← curious E ot q
        return r.1) = halfEvaluator E ot q := by
  unfold curious halfEvaluator
  simp [bindP_assoc, bindP_pure]

/-- The same of the two parties of the key exchange and of the client and the server of the fourth one-of-many
implementation. -/
theorem C72_same_exchange (C : Curve) (X : Crypto) (g : GarblerDraws) (o : OTRecv) (c : SingleDraws) (d : ManyDraws)
    (p : Bytes) (passwords : List Bytes) (index number t : Nat) :
    (do let r ← curiousFirst C X g o p t
        return r.1) = fpakeFirst C X g o p t ∧
    (do let r ← curiousSecond C X o g p t
        return r.1) = fpakeSecond C X o g p t ∧
    (do let r ← curiousSingle C X c p index number t
        return r.1) = mfpakeSingle C X c p index number t ∧
    (do let r ← curiousMany C X d passwords t
        return r.1) = mfpakeMany C X d passwords t := by
  refine ⟨?_, ?_, ?_, ?_⟩
  · unfold curiousFirst fpakeFirst HalfKey.evaluator
    simp [← C72_same_messages, bindP_assoc]
  · unfold curiousSecond fpakeSecond HalfKey.evaluator
    simp [← C72_same_messages, bindP_assoc]
  · unfold curiousSingle mfpakeSingle HalfKey.evaluator
    simp [← C72_same_messages, bindP_assoc]
  · unfold curiousMany mfpakeMany HalfKey.evaluator
    simp [← C72_same_messages, bindP_assoc]

/-- C72 is false of the code.  A party that evaluates with any password of the right length, for example one
that is nowhere near the other's, and that sends what the protocol prescribes, reads every bit of the
password of the garbling party from what it receives: always, and without computing a single hash. -/
theorem C72_fails_evaluator (C : Curve) (X : Crypto) (g : GarblerDraws) (o : OTRecv) (hg : g.Valid) (ho : o.Valid)
    (p q : Bytes) (t : Nat) (hlen : GoodLength p.length) (hl : q.length = p.length) (ht : t < 65535) :
    ∃ k k', Completes (HalfKey.garbler C X g p t) (curious X.toEnv (o.run C X) q) k (k', bitsOf p) := by
  obtain ⟨k, k', -, h⟩ := curious_good C X hg ho hlen hl ht
  exact ⟨k, k', h.completes⟩

example := C72_fails_evaluator Witness.curve (Witness.crypto true) Witness.g Witness.recv (by meets) (by meets) [3, 4]
    Witness.password 1 (by meets) (by meets) (by meets)

/-- The same in the whole key exchange: each party, whichever password it uses, reads that of the other, and
the other ends with the key it would have ended with anyway. -/
theorem C72_fails_exchange (C : Curve) (X : Crypto) (g g' : GarblerDraws) (o o' : OTRecv) (hg : g.Valid) (hg' : g'.Valid)
    (ho : o.Valid) (ho' : o'.Valid) (p q : Bytes) (t : Nat) (hlen : GoodLength p.length) (hl : q.length = p.length)
    (ht : t < 65535) :
    ∃ k k', Completes (fpakeFirst C X g o p t) (fpakeSecond C X o' g' q t) k k' ∧
      Completes (fpakeFirst C X g o p t) (curiousSecond C X o' g' q t) k (k', bitsOf p) ∧
      Completes (curiousFirst C X g o p t) (fpakeSecond C X o' g' q t) (k, bitsOf q) k' ∧
      Completes (curiousFirst C X g o p t) (curiousSecond C X o' g' q t) (k, bitsOf q) (k', bitsOf p) := by
  obtain ⟨k1, k1', a1, a2⟩ := curious_good C X hg ho' hlen hl ht
  obtain ⟨k2, k2', b1, b2⟩ := curious_good C X hg' ho (p := q) (q := p) (by rw [hl]; exact hlen) hl.symm ht
  refine ⟨combine k1 k2', combine k2 k1', ?_, ?_, ?_, ?_⟩
  · exact Ends.completes (.bind a1 (.bind b1.swap (.ret _ _)))
  · exact Ends.completes (.bind a2 (.bind b1.swap (.ret _ _)))
  · exact Ends.completes (.bind a1 (.bind b2.swap (.ret _ _)))
  · exact Ends.completes (.bind a2 (.bind b2.swap (.ret _ _)))

example := C72_fails_exchange Witness.curve (Witness.crypto true) Witness.g Witness.g' Witness.recv Witness.recv
    (by meets) (by meets) (by meets) (by meets) [3, 4] Witness.password 1 (by meets) (by meets) (by meets)

/-- In the fourth one-of-many implementation a client reads the password stored at the index of its choice,
whatever its own password is. -/
theorem C72_fails_client (C : Curve) (X : Crypto) (d : ManyDraws) (c : SingleDraws) (passwords : List Bytes) (password : Bytes)
    (len index t : Nat) (hdb : Database passwords len) (hlen : GoodLength len) (hpw : password.length = len)
    (hi : index < passwords.length) (hm : d.many.Valid X.dbg passwords.length) (hg : d.g.Valid) (ho : d.ot.Valid)
    (hcg : c.g.Valid) (hco : c.ot.Valid) (ht : t < 65535) :
    ∃ key key', Completes (mfpakeMany C X d passwords t) (mfpakeSingle C X c password index passwords.length t) key key' ∧
      Completes (mfpakeMany C X d passwords t) (curiousSingle C X c password index passwords.length t) key
        (key', bitsOf passwords[index]) := by
  obtain ⟨k, k', h1, h2, -⟩ := curiousSingle_ends C X d c passwords password len index t hdb hlen hpw hi hm hg ho hcg hco ht
  exact ⟨k, k', h1.completes, h2.completes⟩

example := C72_fails_client Witness.curve (Witness.crypto true) Witness.manyDraws Witness.singleDraws Witness.passwords
    Witness.password 2 1 1 (by meets) (by meets) (by meets) (by meets) (by meets) (by meets) (by meets) (by meets)
    (by meets) (by meets)

/-- The server reads in which bits the client's password differs from the stored one: since it holds the stored
passwords, the client's password is one of as many as there are. -/
theorem C72_fails_server (C : Curve) (X : Crypto) (d : ManyDraws) (c : SingleDraws) (passwords : List Bytes) (password : Bytes)
    (len index t : Nat) (hdb : Database passwords len) (hlen : GoodLength len) (hpw : password.length = len)
    (hi : index < passwords.length) (hm : d.many.Valid X.dbg passwords.length) (hg : d.g.Valid) (ho : d.ot.Valid)
    (hcg : c.g.Valid) (hco : c.ot.Valid) (ht : t < 65535) :
    ∃ key key', Completes (mfpakeMany C X d passwords t) (mfpakeSingle C X c password index passwords.length t) key key' ∧
      Completes (curiousMany C X d passwords t) (mfpakeSingle C X c password index passwords.length t)
        (key, List.zipWith xor (bitsOf passwords[index]) (bitsOf password)) key' := by
  obtain ⟨k, k', h1, -, h3⟩ := curiousSingle_ends C X d c passwords password len index t hdb hlen hpw hi hm hg ho hcg hco ht
  exact ⟨k, k', h1.completes, h3.completes⟩

example := C72_fails_server Witness.curve (Witness.crypto true) Witness.manyDraws Witness.singleDraws Witness.passwords
    Witness.password 2 1 1 (by meets) (by meets) (by meets) (by meets) (by meets) (by meets) (by meets) (by meets)
    (by meets) (by meets)

/-- The evaluating parties of the third one-of-many implementation. -/
theorem C72_same_v3 (C : Curve) (X : Crypto) (c : ClientDraws) (o : OTRecv) (p mask : Bytes) (passwords : List Bytes)
    (number index : Nat) :
    (do let r ← curiousClientV3 C X c p number index
        return r.1) = evaluatorClientV3 C X c p number index ∧
    (do let r ← curiousServerV3 C X o passwords mask
        return r.1) = evaluatorServerV3 C X o passwords mask := by
  refine ⟨?_, ?_⟩
  · unfold curiousClientV3 evaluatorClientV3
    simp [bindP_assoc]
  · unfold curiousServerV3 evaluatorServerV3
    simp [bindP_assoc, bindP_pure]

/-- In the third one-of-many implementation, too, a client reads the password stored at the index of its choice,
and the server reads in which bits the client's password differs from it. -/
theorem C72_fails_v3 (C : Curve) (X : Crypto) (d : ServerDraws) (c : ClientDraws) (g : GarblerDraws) (o : OTRecv)
    (passwords : List Bytes) (password : Bytes) (len index t : Nat) (hdb : Database passwords len) (hlen : GoodLength len)
    (hpw : password.length = len) (hi : index < passwords.length) (hm : d.many.Valid X.dbg passwords.length) (hdg : d.g.Valid)
    (hd2 : d.ot2.Valid) (hco : c.ot.Valid) (hco2 : c.ot2.Valid) (hg : g.Valid) (ho : o.Valid) (ht : t < 65535) :
    ∃ key key',
      Completes
        (do let r ← garblerServerV3 C X d passwords t
            let k ← evaluatorServerV3 C X o passwords r.2
            return combine r.1 k)
        (do let r ← curiousClientV3 C X c password passwords.length index
            let k ← garblerClientV3 C X g password r.1.2 index passwords.length t
            return (combine r.1.1 k, r.2)) key (key', bitsOf passwords[index]) ∧
      Completes
        (do let r ← garblerServerV3 C X d passwords t
            let k ← curiousServerV3 C X o passwords r.2
            return (combine r.1 k.1, k.2))
        (do let r ← evaluatorClientV3 C X c password passwords.length index
            let k ← garblerClientV3 C X g password r.2 index passwords.length t
            return combine r.1 k) (key, List.zipWith xor (bitsOf passwords[index]) (bitsOf password)) key' := by
  obtain ⟨k1, k1', mask, hmask, a1, a2⟩ := serverV3_curious C X d c passwords password len index t hdb hlen hpw hi hm hdg hd2
    hco hco2 ht
  obtain ⟨k2, k2', b1, b2⟩ := clientV3_curious C X g o passwords password mask len index passwords.length t hdb.lengths hlen hpw
    hmask hi hg ho ht
  exact ⟨_, _, Ends.completes (.bind a2 (.bind b1 (.ret _ _))), Ends.completes (.bind a1 (.bind b2 (.ret _ _)))⟩

example := C72_fails_v3 Witness.curve (Witness.crypto true) Witness.serverDraws Witness.clientDraws Witness.g
    Witness.recv Witness.passwords Witness.password 2 1 1 (by meets) (by meets) (by meets) (by meets) (by meets)
    (by meets) (by meets) (by meets) (by meets) (by meets) (by meets) (by meets)

/-! ### The hypotheses can be met -/

/-- Two passwords that differ in every bit, and a threshold of zero. -/
example : GoodLength [(0 : Byte)].length ∧ [(255 : Byte)].length = [(0 : Byte)].length ∧ (0 : Nat) < 65535 ∧
    bitsOf [(0 : Byte)] ≠ bitsOf [255] := by decide

/-- A database of four passwords. -/
example : Database [[1], [2], [3], [4]] 1 ∧ GoodLength 1 := ⟨⟨⟨2, rfl⟩, by decide, by decide⟩, by decide⟩

end FP.Props
