import Verif.Proof.AskedFirst
import Verif.Proof.Witness
/-
C99: exactly what the first one-of-many implementation says to the client.
-/
namespace FP.Props
open FP.Spec

/-- The recording client is the client of the protocol: forgetting what it has recorded leaves the same program. -/
theorem C99_same_messages (C : Curve) (X : Crypto) (c : ClientDraws1) (p : Bytes) (number index : Nat) :
    (do let r ← recorderClientV1 C X c p number index
        return r.key) = evaluatorClientV1 C X c p number index :=
  recorderClientV1_forget C X c p number index

/-- If two databases have the same entry at the client's index, the client ends with the same of everything it holds. -/
theorem C99_client_same (C : Curve) (X : Crypto) (d : ServerDraws1) (c : ClientDraws1) (P Q : List Bytes) (p : Bytes)
    (len i t : Nat) (hP : Database P len) (hQ : Database Q len) (hn : Q.length = P.length) (hlen : GoodLength len)
    (hp : p.length = len) (hi : i < P.length) (hm : d.many.Valid X.dbg P.length) (hdg : d.g.Valid)
    (hco : c.ot.Valid) (ht : t < 65535) (h : Q[i]'(by omega) = P[i]) :
    ∃ v k, Completes (garblerServerV1 C X d P t) (recorderClientV1 C X c p P.length i) k v ∧
      Completes (garblerServerV1 C X d Q t) (recorderClientV1 C X c p P.length i) k v := by
  have hi' : i < Q.length := by omega
  obtain ⟨v, k, -, hv⟩ := recorderClientV1_entry C X d c p len i t hlen hp hdg hco ht P[i] (hP.lengths _ (List.getElem_mem hi))
  have h2 := hv Q hQ hi' h (by rw [hn]; exact hm)
  rw [hn] at h2
  exact ⟨v, k, (hv P hP hi rfl hm).completes, h2.completes⟩

example := C99_client_same Witness.curve (Witness.crypto true) Witness.serverDraws1 Witness.clientDraws1 Witness.passwords
    [[9, 9], [3, 4], [0, 0], [1, 1]] Witness.password 2 1 1 (by meets) ⟨⟨2, rfl⟩, by decide, by decide⟩ rfl (by meets) (by meets)
    (by meets) (by meets) (by meets) (by meets) (by meets) rfl

/-- And whatever random choices two servers make, a client can end with the same things only if their databases have the same
entry at its index. -/
theorem C99_client_exact (C : Curve) (X : Crypto) (d : ServerDraws1) (c : ClientDraws1) (P Q : List Bytes) (p : Bytes)
    (len i t : Nat) (hP : Database P len) (hQ : Database Q len) (hn : Q.length = P.length) (hlen : GoodLength len)
    (hp : p.length = len) (hi : i < P.length) (hm : d.many.Valid X.dbg P.length) (hdg : d.g.Valid)
    (hco : c.ot.Valid) (ht : t < 65535) :
    (∃ d' : ServerDraws1, d'.many.Valid X.dbg P.length ∧ d'.g.Valid ∧ ∃ v k k',
      Completes (garblerServerV1 C X d P t) (recorderClientV1 C X c p P.length i) k v ∧
      Completes (garblerServerV1 C X d' Q t) (recorderClientV1 C X c p P.length i) k' v) ↔ Q[i]'(by omega) = P[i] := by
  have hi' : i < Q.length := by omega
  have hPi : P[i].length = len := hP.lengths _ (List.getElem_mem hi)
  have hQi : Q[i].length = len := hQ.lengths _ (List.getElem_mem hi')
  constructor
  · rintro ⟨d', hm', hdg', v, k, k', h1, h2⟩
    obtain ⟨w, k1, a1, a2⟩ := recorderClientV1_entry C X d c p len i t hlen hp hdg hco ht P[i] hPi
    obtain ⟨w', k2, b1, b2⟩ := recorderClientV1_entry C X d' c p len i t hlen hp hdg' hco ht Q[i] hQi
    have b3 := b2 Q hQ hi' rfl (by rw [hn]; exact hm')
    rw [hn] at b3
    have e1 := (h1.unique (a2 P hP hi rfl hm).completes).2
    have e2 := (h2.unique b3.completes).2
    obtain rfl : w = w' := e1.symm.trans e2
    rw [a1] at b1
    obtain ⟨-, m2⟩ := the_password (a := p) (x := xorB p P[i]) (by rw [xorB_length (by omega)]; omega)
    have h3 : xorBits (bitsOf p) (bitsOf P[i]) = bitsOf (xorB p P[i]) := (bitsOf_xorB (by omega)).symm
    exact ((m2 _ (by omega)).mp (b1.symm.trans h3)).trans ((m2 _ (by omega)).mp h3).symm
  · intro h
    obtain ⟨v, k, h1, h2⟩ := C99_client_same C X d c P Q p len i t hP hQ hn hlen hp hi hm hdg hco ht h
    exact ⟨d, hm, hdg, v, k, k, h1, h2⟩

example := C99_client_exact Witness.curve (Witness.crypto true) Witness.serverDraws1 Witness.clientDraws1 Witness.passwords
    [[9, 9], [3, 4], [0, 0], [1, 1]] Witness.password 2 1 1 (by meets) ⟨⟨2, rfl⟩, by decide, by decide⟩ rfl (by meets) (by meets)
    (by meets) (by meets) (by meets) (by meets) (by meets)

end FP.Props
