import Verif.Proof.Burglar
import Verif.Props.Impostor
import Verif.Proof.Witness
/-
C55, C56: what a party without a password learns.  The properties one relies on are false of the code; the
theorems show how it fails.
-/
namespace FP.Props
open Spec

/-! ### C55 -/

/-- C55 is false of the code.  A party that follows the messages of the evaluating party and knows only the
length of the password and the threshold learns *every bit* of the password of the garbling party in one
run, and its half key.  Its computation fails only if all the colours of the labels drawn for the two
parties' bits differ. -/
theorem C55_fails_reader (C : Curve) (X : Crypto) (g : GarblerDraws) (o : OTRecv) (hg : g.Valid) (ho : o.Valid)
    (p : Bytes) (t : Nat) (hlen : GoodLength p.length) (ht : t < 8 * p.length)
    (hcol : SomeColourAgrees g.rnd (8 * p.length)) :
    ∃ k, Completes (HalfKey.garbler C X g p t) (reader X.toEnv (o.run C X) (8 * p.length) t) k (k, bitsOf p) := by
  obtain ⟨h1, h2, h3⟩ := goodLength hlen
  obtain ⟨k, hk⟩ := reader_ends X.toEnv g.rnd g.ord hg.ord p t (8 * p.length) rfl h1 h2 h3 ht
    (ot_correct C X hg.ot ho (n := 8 * p.length) (by omega) (by omega) (by omega)) hcol
  rw [bitsOf_unpack] at hk
  exact ⟨k, hk.completes⟩

example := C55_fails_reader Witness.curve (Witness.crypto true) Witness.g Witness.recv (by meets) (by meets) [3, 4] 1
    (by meets) (by meets) (by meets)

/-- The same in the whole key exchange: the first party notices nothing, both hold the same key, and the
other holds the password of the first party. -/
theorem C55_fails_second (C : Curve) (X : Crypto) (g : GarblerDraws) (o : OTRecv) (s : OTSend) (r : OTRecv) (hg : g.Valid)
    (ho : o.Valid) (hs : s.Valid) (hr : r.Valid) (p : Bytes) (t : Nat) (hlen : GoodLength p.length) (ht : t < 8 * p.length)
    (hcol : SomeColourAgrees g.rnd (8 * p.length)) (label : WireBytes) :
    ∃ key, Completes (fpakeFirst C X g o p t) (burglar C X s r (8 * p.length) t label) key (key, bitsOf p) := by
  obtain ⟨h1, h2, h3⟩ := goodLength hlen
  obtain ⟨k, hk⟩ := reader_ends X.toEnv g.rnd g.ord hg.ord p t (8 * p.length) rfl h1 h2 h3 ht
    (ot_correct C X hg.ot hr (n := 8 * p.length) (by omega) (by omega) (by omega)) hcol
  have hf := forger_ends X.toEnv p (8 * p.length) rfl h1 (by omega)
    (ot_correct C X hs ho (n := 8 * p.length) (by omega) (by omega) (by omega)) label
  rw [bitsOf_unpack] at hk
  refine ⟨_, Ends.completes (.bind hk (.bind hf.swap (.ret _ _)))⟩

example := C55_fails_second Witness.curve (Witness.crypto true) Witness.g Witness.recv Witness.send Witness.recv
    (by meets) (by meets) (by meets) (by meets) [3, 4] 1 (by meets) (by meets) (by meets) (Witness.bytes 1)

/-- The same against the second party. -/
theorem C55_fails_first (C : Curve) (X : Crypto) (g : GarblerDraws) (o : OTRecv) (s : OTSend) (r : OTRecv) (hg : g.Valid)
    (ho : o.Valid) (hs : s.Valid) (hr : r.Valid) (p : Bytes) (t : Nat) (hlen : GoodLength p.length) (ht : t < 8 * p.length)
    (hcol : SomeColourAgrees g.rnd (8 * p.length)) (label : WireBytes) :
    ∃ key, Completes (burglarFirst C X s r (8 * p.length) t label) (fpakeSecond C X o g p t) (key, bitsOf p) key := by
  obtain ⟨h1, h2, h3⟩ := goodLength hlen
  obtain ⟨k, hk⟩ := reader_ends X.toEnv g.rnd g.ord hg.ord p t (8 * p.length) rfl h1 h2 h3 ht
    (ot_correct C X hg.ot hr (n := 8 * p.length) (by omega) (by omega) (by omega)) hcol
  have hf := forger_ends X.toEnv p (8 * p.length) rfl h1 (by omega)
    (ot_correct C X hs ho (n := 8 * p.length) (by omega) (by omega) (by omega)) label
  rw [bitsOf_unpack] at hk
  refine ⟨_, Ends.completes (.bind hf (.bind hk.swap (.ret _ _)))⟩

example := C55_fails_first Witness.curve (Witness.crypto true) Witness.g Witness.recv Witness.send Witness.recv
    (by meets) (by meets) (by meets) (by meets) [3, 4] 1 (by meets) (by meets) (by meets) (Witness.bytes 1)

/-! ### C56 -/

/-- C56 is false of the fourth implementation.  A client without a password, for an index of its choice,
completes the exchange with the server's key and learns every bit of the password stored at the index. -/
theorem C56_fails_single (C : Curve) (X : Crypto) (d : ManyDraws) (many : Nat → Nat) (s : OTSend) (r : OTRecv)
    (passwords : List Bytes) (len index t : Nat) (hdb : Database passwords len) (hlen : GoodLength len)
    (hi : index < passwords.length) (hm : d.many.Valid X.dbg passwords.length) (hg : d.g.Valid) (ho : d.ot.Valid)
    (hs : s.Valid) (hr : r.Valid) (ht : t < 8 * len) (hcol : SomeColourAgrees d.g.rnd (8 * len)) (label : WireBytes) :
    ∃ key, Completes (mfpakeMany C X d passwords t)
      (burglarSingle C X many s r (8 * len) index passwords.length t label) key (key, bitsOf passwords[index]) := by
  obtain ⟨key, h⟩ := burglarSingle_ends C X d many s r passwords len index t hdb hlen hi hm hg ho hs hr ht hcol label
  exact ⟨key, h.completes⟩

example := C56_fails_single Witness.curve (Witness.crypto true) Witness.manyDraws (· + 3) Witness.send Witness.recv
    Witness.passwords 2 1 1 (by meets) (by meets) (by meets) (by meets) (by meets) (by meets) (by meets) (by meets)
    (by meets) (by meets) (Witness.bytes 1)

/-- A server without passwords completes the exchange with the client's key and learns every bit of the
client's password. -/
theorem C56_fails_server (C : Curve) (X : Crypto) (c : SingleDraws) (many : ManySend) (s : OTSend) (r : OTRecv)
    (password : Bytes) (len index number t : Nat) (hpw : password.length = len) (hlen : GoodLength len)
    (hnum : ∃ k, number = 2 ^ k) (hcount : number < 2 ^ 32) (hi : index < number) (hm : many.Valid X.dbg number) (hg : c.g.Valid)
    (ho : c.ot.Valid) (hs : s.Valid) (hr : r.Valid) (ht : t < 8 * len) (hcol : SomeColourAgrees c.g.rnd (8 * len))
    (label : WireBytes) :
    ∃ key, Completes (fakeServer C X many s r len number t label) (mfpakeSingle C X c password index number t)
      (key, bitsOf password) key := by
  obtain ⟨key, h⟩ := fakeServer_ends C X c many s r password len index number t hpw hlen hnum hcount hi hm hg ho hs hr ht hcol label
  exact ⟨key, h.completes⟩

example := C56_fails_server Witness.curve (Witness.crypto true) Witness.singleDraws Witness.many Witness.send
    Witness.recv Witness.password 2 1 4 1 (by meets) (by meets) (by meets) (by meets) (by meets) (by meets) (by meets)
    (by meets) (by meets) (by meets) (by meets) (by meets) (Witness.bytes 1)

/-- C56 is false of the third implementation, in the same way: a client without a password. -/
theorem C56_fails_single_v3 (C : Curve) (X : Crypto) (d : ServerDraws) (c : ClientDraws) (o : OTRecv) (s : OTSend)
    (passwords : List Bytes) (len index t : Nat) (hdb : Database passwords len) (hlen : GoodLength len)
    (hi : index < passwords.length) (hm : d.many.Valid X.dbg passwords.length) (hg : d.g.Valid) (hs2 : d.ot2.Valid)
    (hco : c.ot.Valid) (hco2 : c.ot2.Valid) (ho : o.Valid) (hs : s.Valid) (ht : t < 8 * len)
    (hcol : SomeColourEven d.g.rnd (8 * len)) (label : WireBytes) :
    ∃ key, Completes
      (do let r ← garblerServerV3 C X d passwords t
          let k ← evaluatorServerV3 C X o passwords r.2
          return combine r.1 k)
      (do let r ← readerV3 C X c len passwords.length index t
          let k ← forgerV3 C X s (8 * len) label
          return (combine r.1 k, r.2)) key (key, bitsOf passwords[index]) := by
  obtain ⟨k, mask, hmask, h1⟩ := readerV3_ends C X d c passwords len index t hdb hlen hi hm hg hs2 hco hco2 ht hcol
  have h2 := forgerV3_ends C X s o passwords mask len (by omega) hdb.lengths hlen hmask hs ho label
  exact ⟨_, Ends.completes (.bind h1 (.bind h2.swap (.ret _ _)))⟩

example := C56_fails_single_v3 Witness.curve (Witness.crypto true) Witness.serverDraws Witness.clientDraws Witness.recv
    Witness.send Witness.passwords 2 1 1 (by meets) (by meets) (by meets) (by meets) (by meets) (by meets) (by meets)
    (by meets) (by meets) (by meets) (by meets) (by meets) (Witness.bytes 1)

/-- And a server without passwords. -/
theorem C56_fails_server_v3 (C : Curve) (X : Crypto) (c : ClientDraws) (g : GarblerDraws) (s s2 : OTSend) (many : ManySend)
    (o : OTRecv) (password : Bytes) (len index number t : Nat) (hpw : password.length = len) (hlen : GoodLength len)
    (hnum : ∃ k, number = 2 ^ k) (hcount : number < 2 ^ 32) (hi : index < number) (hm : many.Valid X.dbg number) (hg : g.Valid)
    (hco : c.ot.Valid) (hco2 : c.ot2.Valid) (hs : s.Valid) (hs2 : s2.Valid) (ho : o.Valid) (ht : t < 8 * len)
    (hcol : SomeColourEven g.rnd (8 * len)) (label : WireBytes) :
    ∃ key, Completes
      (do let k ← forgerServerV3 C X s many s2 len number label
          let r ← readerServerV3 C X o (8 * len) t
          return (combine k r.1, r.2))
      (do let r ← evaluatorClientV3 C X c password number index
          let k ← garblerClientV3 C X g password r.2 index number t
          return combine r.1 k) (key, bitsOf password) key := by
  have h1 := forgerServerV3_ends C X s many s2 c password len index number hpw hlen hnum hcount hi hm hs hs2 hco hco2 label
  obtain ⟨k, h2⟩ := readerServerV3_ends C X g o password len index number t hlen hpw hg ho ht hcol
  exact ⟨_, Ends.completes (.bind h1 (.bind h2 (.ret _ _)))⟩

example := C56_fails_server_v3 Witness.curve (Witness.crypto true) Witness.clientDraws Witness.g Witness.send
    Witness.send Witness.many Witness.recv Witness.password 2 1 4 1 (by meets) (by meets) (by meets) (by meets)
    (by meets) (by meets) (by meets) (by meets) (by meets) (by meets) (by meets) (by meets) (by meets) (by meets)
    (Witness.bytes 1)

/-! ### The hypotheses can be met -/

/-- Labels that are all zero have equal colours, and even sums of colours. -/
example (len : Nat) (h : GoodLength len) :
    SomeColourEven ⟨fun _ => Vector.replicate 32 0, fun _ => Vector.replicate 32 0⟩ (8 * len) := by
  refine ⟨0, ?_, rfl⟩
  unfold GoodLength at h; omega

example : bitsOf [5] = [true, false, true, false, false, false, false, false] := by decide

/-- A database of four passwords, and a threshold below the number of bits. -/
example : Database [[1], [2], [3], [4]] 1 ∧ GoodLength 1 ∧ 2 < 8 * 1 :=
  ⟨⟨⟨2, rfl⟩, by decide, by decide⟩, by decide, by decide⟩

end FP.Props
