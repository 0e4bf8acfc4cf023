import Verif.Proof.AskedLegacy
import Verif.Props.Asked
/-
C98 for the second one-of-many implementation.
-/
namespace FP.Props
open FP.Spec

/-- The recording parties are the parties of the protocol: forgetting what they have recorded leaves the same programs.  The
client of the second implementation holds what the client of the third holds. -/
theorem C98_same_messages_v2 (C : Curve) (X : Crypto) (c : ClientDraws) (e : ServerEvaluator2) (passwords : List Bytes) (p : Bytes)
    (number index : Nat) :
    (do let r ← recorderClientV3 C X c p number index
        return r.2.key) = evaluatorClientV2 C X c p number index ∧
    (do let r ← recorderServerV2 C X e passwords
        return r.key) = evaluatorServerV2 C X e passwords :=
  ⟨recorderClientV3_forget_v2 C X c p number index, recorderServerV2_forget C X e passwords⟩

/-- A login with the second implementation says nothing to the server but in which bits the password differs from the entry
asked for: for two clients whose
passwords differ from their entries in the same bits there is a one-to-one correspondence between their random choices for
garbling under which the server ends with the same of everything and the clients with the same key of the second half. -/
theorem C98_server_same_v2 (C : Curve) (X : Crypto) (d : ServerDraws) (e : ServerEvaluator2) (c : ClientDraws)
    (g : ClientGarbler2) (passwords : List Bytes) (len ts tc : Nat) (hdb : Database passwords len) (hlen : GoodLength len)
    (hm : d.many.Valid X.dbg passwords.length) (hdg : d.g.Valid) (hd2 : d.ot2.Valid)
    (hem : e.many.Valid X.dbg passwords.length) (ho : e.ot.Valid) (hco : c.ot.Valid) (hco2 : c.ot2.Valid) (hg : g.g.Valid)
    (hts : ts < 65535) (htc : tc < 65535) :
    ∃ Φ : Bytes × Nat → Bytes × Nat → GarbleRand → GarbleRand, ∀ (p q : Bytes) (i j : Nat) (_ : p.length = len)
      (_ : q.length = len) (_ : i < passwords.length) (_ : j < passwords.length),
      xorBits (bitsOf passwords[i]) (bitsOf p) = xorBits (bitsOf passwords[j]) (bitsOf q) →
      ∀ r, DrawnBits3 len r → DrawnBits3 len (Φ (p, i) (q, j) r) ∧ Φ (q, j) (p, i) (Φ (p, i) (q, j) r) = r ∧
        (Φ (p, i) (q, j) r).delta = r.delta ∧
        ∃ v k, Completes (serverV2 C X d e passwords ts)
            (clientV2 C X c { g with g := { g.g with rnd := r } } p passwords.length i tc) v k ∧
          Completes (serverV2 C X d e passwords ts)
            (clientV2 C X c { g with g := { g.g with rnd := Φ (p, i) (q, j) r } } q passwords.length j tc) v k := by
  obtain ⟨h0, hn', hD⟩ := goodLength hlen
  rw [Nat.mul_comm 8 len] at hn' hD
  have hc := thr3_typedD (n := len * 8) (T := tc + 1) (by omega) good2 hD
  let bits : Bytes × Nat → List Nat := fun a => bitsNat (bitsOf (xorB (drawMask e.mask len) (passwords.getD a.2 [])) ++
    bitsOf (drawMask e.mask len) ++ bitsOf a.1)
  refine ⟨fun a b => otherDraws (thrCircuit3 (len * 8) (len * 8 + 1) (tc + 1)) (bits a) (bits b), ?_⟩
  intro p q i j hp hq hi hj hx r hr
  have hmask := drawMask_length e.mask len
  have hget : ∀ i, ∀ hi : i < passwords.length, passwords.getD i [] = passwords[i] := fun i hi => by
    rw [List.getD_eq_getElem?_getD, List.getElem?_eq_getElem hi, Option.getD_some]
  have hin : ∀ (a : Bytes) (i : Nat), a.length = len → i < passwords.length →
      InputOK (thrCircuit3 (len * 8) (len * 8 + 1) (tc + 1)) (bits (a, i)) := by
    intro a i ha hi
    have h1 : passwords[i].length = len := hdb.lengths _ (List.getElem_mem hi)
    refine inputOK_bits (k := len * 8 * 3) ?_ rfl
    simp only [List.length_append, bitsOf_length, hget i hi, xorB_length (show (drawMask e.mask len).length = passwords[i].length by omega)]
    omega
  have hr' := hr
  rw [← drawn_bits3 (n := len * 8) (D := len * 8 + 1) (T := tc + 1) rfl] at hr' ⊢
  refine ⟨otherDraws_drawn hc (hin q j hq hj) r, otherDraws_back hc (hin p i hp hi) (hin q j hq hj) hr', rfl, ?_⟩
  obtain ⟨k, h1⟩ := firstV2_ends C X d c passwords len ts hdb hlen hm hdg hd2 hco hco2 hts
  obtain ⟨k1, a1⟩ := h1 p i hp hi
  obtain ⟨k2, a2⟩ := h1 q j hq hj
  obtain ⟨v, k', b1, b2⟩ := recorderServerV2_other C X { g with g := { g.g with rnd := r } } e passwords p q len i j
    tc hdb hlen hp hq hi hj ⟨hg.ord, hg.ot⟩ hem ho htc hx
  simp only [bits, hget i hi, hget j hj]
  refine ⟨(k, v), k', Ends.completes ?_, Ends.completes ?_⟩
  · exact .bind a1 (b1.bindL (k := fun v => Proc.ret (k, v)) rfl)
  · exact .bind a2 (b2.bindL (k := fun v => Proc.ret (k, v)) rfl)

example := C98_server_same_v2 Witness.curve (Witness.crypto true) Witness.serverDraws Witness.serverEvaluator2
    Witness.clientDraws Witness.clientGarbler2 Witness.passwords 2 1 1 (by meets) (by meets) (by meets) (by meets) (by meets)
    (by meets) (by meets) (by meets) (by meets)
    (by meets) (by meets) (by meets)

/-- And that much it does say: two clients can leave the server with the same things exactly if their passwords differ from
their entries in the same bits. -/
theorem C98_server_exact_v2 (C : Curve) (X : Crypto) (d : ServerDraws) (e : ServerEvaluator2) (c : ClientDraws)
    (g : ClientGarbler2) (passwords : List Bytes) (p q : Bytes) (len i j ts tc : Nat) (hdb : Database passwords len)
    (hlen : GoodLength len)
    (hp : p.length = len) (hq : q.length = len) (hi : i < passwords.length) (hj : j < passwords.length)
    (hm : d.many.Valid X.dbg passwords.length) (hdg : d.g.Valid) (hd2 : d.ot2.Valid)
    (hem : e.many.Valid X.dbg passwords.length) (ho : e.ot.Valid) (hco : c.ot.Valid) (hco2 : c.ot2.Valid) (hg : g.g.Valid)
    (hr : DrawnBits3 len g.g.rnd) (hts : ts < 65535) (htc : tc < 65535) :
    (∃ r' v k k', DrawnBits3 len r' ∧
      Completes (serverV2 C X d e passwords ts) (clientV2 C X c g p passwords.length i tc) v k ∧
      Completes (serverV2 C X d e passwords ts)
        (clientV2 C X c { g with g := { g.g with rnd := r' } } q passwords.length j tc) v k') ↔
    xorBits (bitsOf passwords[i]) (bitsOf p) = xorBits (bitsOf passwords[j]) (bitsOf q) := by
  constructor
  · rintro ⟨r', v, k, k', -, h1, h2⟩
    obtain ⟨K, hK⟩ := firstV2_ends C X d c passwords len ts hdb hlen hm hdg hd2 hco hco2 hts
    have reads : ∀ (g : ClientGarbler2), g.g.Valid → ∀ (p : Bytes) (i : Nat) (_ : p.length = len) (hi : i < passwords.length)
        (v : WireBytes × HeldThree) (k : WireBytes),
        Completes (serverV2 C X d e passwords ts) (clientV2 C X c g p passwords.length i tc) v k →
        sumBits3 (len * 8) v.2.gc v.2.first v.2.second v.2.third = xorBits (bitsOf passwords[i]) (bitsOf p) := by
      intro g hg p i hp hi v k h
      obtain ⟨k1, a1⟩ := hK p i hp hi
      obtain ⟨w, k2, a2, a3⟩ := recorderServerV2_reads C X (g := g) hdb hlen hp hi hg hem ho htc
      have e := (h.unique (Ends.completes
        (.bind a1 (a2.bindL (k := fun v => Proc.ret (K, v)) rfl)))).1
      rw [e]
      exact a3
    rw [← reads g hg p i hp hi v k h1, ← reads { g with g := { g.g with rnd := r' } } ⟨hg.ord, hg.ot⟩ q j hq hj v k' h2]
  · intro h
    obtain ⟨Φ, hΦ⟩ := C98_server_same_v2 C X d e c g passwords len ts tc hdb hlen hm hdg hd2 hem ho hco hco2 hg hts htc
    obtain ⟨h1, -, -, v, k, h2, h3⟩ := hΦ p q i j hp hq hi hj h g.g.rnd hr
    exact ⟨_, v, k, k, h1, h2, h3⟩

example := C98_server_exact_v2 Witness.curve (Witness.crypto true) Witness.serverDraws Witness.serverEvaluator2
    Witness.clientDraws Witness.clientGarbler2 Witness.passwords Witness.password [1, 3] 2 1 0 1 1 (by meets) (by meets)
    (by meets) (by meets) (by meets) (by meets)
    (by meets) (by meets) (by meets) (by meets) (by meets) (by meets) (by meets) (by meets) (rand_drawn3 2) (by meets) (by meets)

/-- So whoever has logged in, for every entry of the database there is exactly one password with which a client that asked for
that entry could have looked the same. -/
theorem C98_server_every_entry_v2 (C : Curve) (X : Crypto) (d : ServerDraws) (e : ServerEvaluator2) (c : ClientDraws)
    (g : ClientGarbler2) (passwords : List Bytes) (p : Bytes) (len i j ts tc : Nat) (hdb : Database passwords len)
    (hlen : GoodLength len)
    (hp : p.length = len) (hi : i < passwords.length) (hj : j < passwords.length)
    (hm : d.many.Valid X.dbg passwords.length) (hdg : d.g.Valid) (hd2 : d.ot2.Valid)
    (hem : e.many.Valid X.dbg passwords.length) (ho : e.ot.Valid) (hco : c.ot.Valid) (hco2 : c.ot2.Valid) (hg : g.g.Valid)
    (hr : DrawnBits3 len g.g.rnd) (hts : ts < 65535) (htc : tc < 65535) :
    ∃! q : Bytes, q.length = len ∧ ∃ r' v k k', DrawnBits3 len r' ∧
      Completes (serverV2 C X d e passwords ts) (clientV2 C X c g p passwords.length i tc) v k ∧
      Completes (serverV2 C X d e passwords ts)
        (clientV2 C X c { g with g := { g.g with rnd := r' } } q passwords.length j tc) v k' := by
  have hpi : passwords[i].length = len := hdb.lengths _ (List.getElem_mem hi)
  have hpj : passwords[j].length = len := hdb.lengths _ (List.getElem_mem hj)
  have m0 : (xorB passwords[i] p).length = len := by rw [xorB_length (by omega)]; omega
  obtain ⟨m1, m2⟩ := the_password (a := passwords[j]) (x := xorB passwords[i] p) (by omega)
  have hx : xorBits (bitsOf passwords[i]) (bitsOf p) = bitsOf (xorB passwords[i] p) := (bitsOf_xorB (by omega)).symm
  refine ⟨xorB passwords[j] (xorB passwords[i] p), ⟨by omega, ?_⟩, ?_⟩
  · rw [C98_server_exact_v2 C X d e c g passwords p _ len i j ts tc hdb hlen hp (by omega) hi hj hm hdg hd2 hem ho hco hco2 hg hr hts htc, hx]
    exact ((m2 _ (by omega)).mpr rfl).symm
  · rintro q ⟨hq, h⟩
    rw [C98_server_exact_v2 C X d e c g passwords p q len i j ts tc hdb hlen hp hq hi hj hm hdg hd2 hem ho hco hco2 hg hr hts htc, hx] at h
    exact (m2 q (by omega)).mp h.symm

example := C98_server_every_entry_v2 Witness.curve (Witness.crypto true) Witness.serverDraws Witness.serverEvaluator2
    Witness.clientDraws Witness.clientGarbler2 Witness.passwords Witness.password 2 1 3 1 1 (by meets) (by meets) (by meets)
    (by meets) (by meets)
    (by meets) (by meets) (by meets) (by meets) (by meets) (by meets) (by meets) (by meets) (rand_drawn3 2) (by meets) (by meets)

/-- A client obtains nothing of the database but the entry at its index: two databases can leave a client of the second
implementation with the same things exactly if they have the same entry there. -/
theorem C98_client_exact_v2 (C : Curve) (X : Crypto) (d : ServerDraws) (c : ClientDraws) (P Q : List Bytes) (p : Bytes)
    (len i t : Nat) (hP : Database P len) (hQ : Database Q len) (hn : Q.length = P.length) (hlen : GoodLength len)
    (hp : p.length = len) (hi : i < P.length) (hm : d.many.Valid X.dbg P.length) (hdg : d.g.Valid) (hd2 : d.ot2.Valid)
    (hco : c.ot.Valid) (hco2 : c.ot2.Valid) (ht : t < 65535) :
    (∃ d' : ServerDraws, d'.many.Valid X.dbg P.length ∧ d'.g.Valid ∧ d'.ot2.Valid ∧ ∃ v s s',
      Completes (garblerServerV2 C X d P t) (recorderClientV3 C X c p P.length i) s v ∧
      Completes (garblerServerV2 C X d' Q t) (recorderClientV3 C X c p P.length i) s' v) ↔ Q[i]'(by omega) = P[i] := by
  have drop : ∀ (d : ServerDraws) (P : List Bytes) (n : Nat) (s : WireBytes × Bytes) v,
      Ends (garblerServerV3 C X d P t) (recorderClientV3 C X c p n i) s v →
      Ends (garblerServerV2 C X d P t) (recorderClientV3 C X c p n i) s.1 v := by
    intro d P n s v h
    rw [garblerServerV2_eq]
    exact h.bindL (k := fun k => Proc.ret k.1) rfl
  have hi' : i < Q.length := by omega
  rw [← (C98_client_exact C X d c P Q p len i t hP hQ hn hlen hp hi hm hdg hd2 hco hco2 ht).1]
  constructor
  · rintro ⟨d', hm', hdg', hd2', v, s, s', h1, h2⟩
    obtain ⟨k, a⟩ := recorderClientV3_reads C X d c P len t hP hlen hm hdg hd2 hco hco2 ht
    obtain ⟨k', b⟩ := recorderClientV3_reads C X d' c Q len t hQ hlen (by rw [hn]; exact hm') hdg' hd2' hco hco2 ht
    obtain ⟨w, a1, -⟩ := a p i hp hi
    obtain ⟨w', b1, -⟩ := b p i hp hi'
    rw [hn] at b1
    have e1 := (h1.unique (drop _ _ _ _ _ a1).completes).2
    have e2 := (h2.unique (drop _ _ _ _ _ b1).completes).2
    rw [← e1] at a1
    rw [← e2] at b1
    exact ⟨d', hm', hdg', hd2', v, _, _, a1.completes, b1.completes⟩
  · intro h
    rw [(C98_client_exact C X d c P Q p len i t hP hQ hn hlen hp hi hm hdg hd2 hco hco2 ht).1] at h
    have := recorderClientV3_entry C X d c p len i t hlen hp hdg hd2 hco hco2 ht P[i] (hP.lengths _ (List.getElem_mem hi))
    obtain ⟨v, s, hv⟩ := this
    have h1 := hv P hP hi rfl hm
    have h2 := hv Q hQ hi' h (by rw [hn]; exact hm)
    rw [hn] at h2
    exact ⟨d, hm, hdg, hd2, v, s.1, s.1, (drop _ _ _ _ _ h1).completes, (drop _ _ _ _ _ h2).completes⟩

example := C98_client_exact_v2 Witness.curve (Witness.crypto true) Witness.serverDraws Witness.clientDraws Witness.passwords
    [[9, 9], [3, 4], [0, 0], [1, 1]] Witness.password 2 1 1 (by meets) ⟨⟨2, rfl⟩, by decide, by decide⟩ rfl (by meets) (by meets)
    (by meets) (by meets) (by meets) (by meets) (by meets) (by meets) (by meets)

end FP.Props
