import Verif.Proof.Entries
import Verif.Proof.Witness
/-
C97: exactly what a one-of-many login says to the server and to the client.
-/
namespace FP.Props
open FP.Spec

/-- The recording parties are the parties of the protocol: forgetting what they have recorded leaves the same programs. -/
theorem C97_same_messages (C : Curve) (X : Crypto) (d : ManyDraws) (c : SingleDraws) (passwords : List Bytes) (password : Bytes)
    (index number t : Nat) :
    (do let r ← recorderMany C X d passwords t
        return r.1) = mfpakeMany C X d passwords t ∧
    (do let r ← recorderSingle C X c password index number t
        return r.1) = mfpakeSingle C X c password index number t := by
  have h : ∀ (E : Env) (ot : List Bool → Proc (List Bytes)) (q : Bytes),
      halfEvaluator E ot q = (do let v ← recorder E ot q
                                 return v.key) := by
    intro E ot q
    unfold recorder halfEvaluator
    simp [bindP_assoc, bindP_pure]
  refine ⟨?_, ?_⟩
  · unfold recorderMany mfpakeMany HalfKey.evaluator
    simp [h, bindP_assoc]
  · unfold recorderSingle mfpakeSingle HalfKey.evaluator
    simp [h, bindP_assoc]

/-- Two clients whose passwords differ from their entries in the same bits leave the server with the same of everything, key
included, for the same random choices, and end with the same key: neither the index nor the password is seen otherwise. -/
theorem C97_server_same (C : Curve) (X : Crypto) (d : ManyDraws) (c : SingleDraws) (passwords : List Bytes) (p q : Bytes)
    (len i j ts tc : Nat) (hdb : Database passwords len) (hlen : GoodLength len) (hp : p.length = len) (hq : q.length = len)
    (hi : i < passwords.length) (hj : j < passwords.length) (hm : d.many.Valid X.dbg passwords.length) (hg : d.g.Valid)
    (ho : d.ot.Valid) (hcg : c.g.Valid) (hco : c.ot.Valid) (hts : ts < 65535) (htc : tc < 65535)
    (h : xorBits (bitsOf passwords[i]) (bitsOf p) = xorBits (bitsOf passwords[j]) (bitsOf q)) :
    ∃ r key, Completes (recorderMany C X d passwords ts) (mfpakeSingle C X c p i passwords.length tc) r key ∧
      Completes (recorderMany C X d passwords ts) (mfpakeSingle C X c q j passwords.length tc) r key := by
  have hpi : passwords[i].length = len := hdb.lengths _ (List.getElem_mem hi)
  have hpj : passwords[j].length = len := hdb.lengths _ (List.getElem_mem hj)
  have hmask := drawMask_length d.mask len
  have hmix : xorB (xorB (drawMask d.mask len) passwords[i]) p = xorB (xorB (drawMask d.mask len) passwords[j]) q := by
    generalize drawMask d.mask len = mask at hmask
    have x1 : (xorB mask passwords[i]).length = len := by rw [xorB_length (by omega)]; omega
    have x2 : (xorB mask passwords[j]).length = len := by rw [xorB_length (by omega)]; omega
    apply bitsOf_injective
    rw [bitsOf_xorB (a := xorB mask passwords[i]) (by omega), bitsOf_xorB (a := xorB mask passwords[j]) (by omega),
      bitsOf_xorB (by omega), bitsOf_xorB (by omega)]
    have e : ∀ a b c : List Bool, List.zipWith xor (List.zipWith xor a b) c = List.zipWith xor a (xorBits b c) := by
      intro a b c
      apply List.ext_getElem
      · simp [xorBits, Nat.min_assoc]
      · intro k h1 h2
        simp [xorBits]
    rw [e, e, h]
  obtain ⟨k1, k1', k2, v, a1, a2, a3⟩ := recorderMany_ends C X d c passwords p len i ts tc hdb hlen hp hi hm hg ho hcg hco hts htc
  obtain ⟨l1, l1', l2, w, b1, b2, b3⟩ := recorderMany_ends C X d c passwords q len j ts tc hdb hlen hq hj hm hg ho hcg hco hts htc
  rw [← hmix] at b1 b2
  obtain ⟨rfl, rfl⟩ := a1.completes.unique b1.completes
  obtain ⟨rfl, rfl⟩ := a2.completes.unique b2.completes
  exact ⟨_, _, a3.completes, b3.completes⟩

example := C97_server_same Witness.curve (Witness.crypto true) Witness.manyDraws Witness.singleDraws Witness.passwords
    Witness.password [1, 3] 2 1 0 1 1 (by meets) (by meets) (by meets) (by meets) (by meets) (by meets) (by meets)
    (by meets) (by meets) (by meets) (by meets) (by meets) (by meets) (by decide)

/-- And that much it does see: two clients can leave the server with the same things exactly if their passwords differ from
their entries in the same bits. -/
theorem C97_server_exact (C : Curve) (X : Crypto) (d : ManyDraws) (c : SingleDraws) (passwords : List Bytes) (p q : Bytes)
    (len i j ts tc : Nat) (hdb : Database passwords len) (hlen : GoodLength len) (hp : p.length = len) (hq : q.length = len)
    (hi : i < passwords.length) (hj : j < passwords.length) (hm : d.many.Valid X.dbg passwords.length) (hg : d.g.Valid)
    (ho : d.ot.Valid) (hcg : c.g.Valid) (hco : c.ot.Valid) (hts : ts < 65535) (htc : tc < 65535) :
    (∃ c' : SingleDraws, c'.g.Valid ∧ c'.ot.Valid ∧ ∃ r key key',
      Completes (recorderMany C X d passwords ts) (mfpakeSingle C X c p i passwords.length tc) r key ∧
      Completes (recorderMany C X d passwords ts) (mfpakeSingle C X c' q j passwords.length tc) r key') ↔
    xorBits (bitsOf passwords[i]) (bitsOf p) = xorBits (bitsOf passwords[j]) (bitsOf q) := by
  constructor
  · rintro ⟨c', hg', ho', r, key, key', h1, h2⟩
    have hpi : passwords[i].length = len := hdb.lengths _ (List.getElem_mem hi)
    have hpj : passwords[j].length = len := hdb.lengths _ (List.getElem_mem hj)
    obtain ⟨k1, k1', k2, v, a1, a2, a3⟩ := recorderMany_ends C X d c passwords p len i ts tc hdb hlen hp hi hm hg ho hcg hco hts htc
    obtain ⟨l1, l1', l2, w, b1, b2, b3⟩ := recorderMany_ends C X d c' passwords q len j ts tc hdb hlen hq hj hm hg ho hg' ho' hts htc
    have e1 := (h1.unique a3.completes).1
    have e2 := (h2.unique b3.completes).1
    have hvw : v = w := congrArg (fun r => r.2.2) (e1.symm.trans e2)
    subst hvw
    have hmask := drawMask_length d.mask len
    generalize drawMask d.mask len = mask at hmask a2 b2
    have m1 : (xorB (xorB mask passwords[i]) p).length = len := by rw [xorB_length (by rw [xorB_length (by omega)]; omega)]; omega
    have m2 : (xorB (xorB mask passwords[j]) q).length = len := by rw [xorB_length (by rw [xorB_length (by omega)]; omega)]; omega
    have r1 := recorder_reads C X hcg ho (by rw [m1]; exact hlen) (by omega) htc a2.completes
    have r2 := recorder_reads C X hg' ho (by rw [m2]; exact hlen) (by omega) htc b2.completes
    rw [xorBits_mask (by omega) (by omega)] at r1 r2
    rw [r1, r2, m1, m2]
  · intro h
    obtain ⟨r, key, h1, h2⟩ := C97_server_same C X d c passwords p q len i j ts tc hdb hlen hp hq hi hj hm hg ho hcg hco hts htc h
    exact ⟨c, hcg, hco, r, key, key, h1, h2⟩

example := C97_server_exact Witness.curve (Witness.crypto true) Witness.manyDraws Witness.singleDraws Witness.passwords
    Witness.password [7, 7] 2 1 0 1 1 (by meets) (by meets) (by meets) (by meets) (by meets) (by meets) (by meets)
    (by meets) (by meets) (by meets) (by meets) (by meets) (by meets)

/-- So whoever has logged in, for every entry of the database there is exactly one password with which a client that asked for
that entry would have looked the same. -/
theorem C97_server_every_entry (C : Curve) (X : Crypto) (d : ManyDraws) (c : SingleDraws) (passwords : List Bytes) (p : Bytes)
    (len i j ts tc : Nat) (hdb : Database passwords len) (hlen : GoodLength len) (hp : p.length = len)
    (hi : i < passwords.length) (hj : j < passwords.length) (hm : d.many.Valid X.dbg passwords.length) (hg : d.g.Valid)
    (ho : d.ot.Valid) (hcg : c.g.Valid) (hco : c.ot.Valid) (hts : ts < 65535) (htc : tc < 65535) :
    ∃! q : Bytes, q.length = len ∧ ∃ c' : SingleDraws, c'.g.Valid ∧ c'.ot.Valid ∧ ∃ r key key',
      Completes (recorderMany C X d passwords ts) (mfpakeSingle C X c p i passwords.length tc) r key ∧
      Completes (recorderMany C X d passwords ts) (mfpakeSingle C X c' q j passwords.length tc) r key' := by
  have hpi : passwords[i].length = len := hdb.lengths _ (List.getElem_mem hi)
  have hpj : passwords[j].length = len := hdb.lengths _ (List.getElem_mem hj)
  have cancel : ∀ a b : List Bool, a.length = b.length → xorBits a (xorBits a b) = b := by
    intro a b hab
    apply List.ext_getElem
    · simp [xorBits]; omega
    · intro k h1 h2
      simp only [xorBits, List.getElem_zipWith]
      generalize a[k]'_ = x; generalize b[k] = y
      cases x <;> cases y <;> rfl
  have hlb : ∀ a b : Bytes, a.length = b.length → (bitsOf a).length = (bitsOf b).length := fun a b h => by simp [bitsOf, h]
  have hx : ∀ a b : Bytes, a.length = b.length → xorBits (bitsOf a) (bitsOf b) = bitsOf (xorB a b) := fun a b h =>
    (bitsOf_xorB (by omega)).symm
  have m0 : (xorB passwords[i] p).length = len := by rw [xorB_length (by omega)]; omega
  have m1 : (xorB passwords[j] (xorB passwords[i] p)).length = len := by rw [xorB_length (by omega)]; omega
  refine ⟨xorB passwords[j] (xorB passwords[i] p), ⟨m1, ?_⟩, ?_⟩
  · rw [C97_server_exact C X d c passwords p _ len i j ts tc hdb hlen hp m1 hi hj hm hg ho hcg hco hts htc]
    rw [← hx passwords[j] _ (by omega), cancel _ _ (hlb _ _ (by omega)), hx _ _ (by omega)]
  · rintro q ⟨hq, h⟩
    rw [C97_server_exact C X d c passwords p q len i j ts tc hdb hlen hp hq hi hj hm hg ho hcg hco hts htc] at h
    apply bitsOf_injective
    rw [← hx passwords[j] _ (by omega), ← hx passwords[i] _ (by omega), h, cancel _ _ (hlb _ _ (by omega))]

example := C97_server_every_entry Witness.curve (Witness.crypto true) Witness.manyDraws Witness.singleDraws Witness.passwords
    Witness.password 2 1 0 1 1 (by meets) (by meets) (by meets) (by meets) (by meets) (by meets) (by meets)
    (by meets) (by meets) (by meets) (by meets) (by meets)

/-- A client obtains nothing of the database but the entry at its index: two databases can leave a client with the same
things exactly if they have the same entry there.  Then it ends with the same things, and the server with the same key, for
the same random choices. -/
theorem C97_client_exact (C : Curve) (X : Crypto) (d : ManyDraws) (c : SingleDraws) (P Q : List Bytes) (p : Bytes)
    (len i ts tc : Nat) (hP : Database P len) (hQ : Database Q len) (hn : Q.length = P.length) (hlen : GoodLength len)
    (hp : p.length = len) (hi : i < P.length) (hm : d.many.Valid X.dbg P.length) (hg : d.g.Valid) (ho : d.ot.Valid)
    (hcg : c.g.Valid) (hco : c.ot.Valid) (hts : ts < 65535) (htc : tc < 65535) :
    ((∃ d' : ManyDraws, d'.many.Valid X.dbg P.length ∧ d'.g.Valid ∧ d'.ot.Valid ∧ ∃ r key key',
      Completes (mfpakeMany C X d P ts) (recorderSingle C X c p i P.length tc) key r ∧
      Completes (mfpakeMany C X d' Q ts) (recorderSingle C X c p i P.length tc) key' r) ↔ Q[i]'(by omega) = P[i]) ∧
    (Q[i]'(by omega) = P[i] → ∃ r key, Completes (mfpakeMany C X d P ts) (recorderSingle C X c p i P.length tc) key r ∧
      Completes (mfpakeMany C X d Q ts) (recorderSingle C X c p i P.length tc) key r) := by
  have hi' : i < Q.length := by omega
  have hPi : P[i].length = len := hP.lengths _ (List.getElem_mem hi)
  have hQi : Q[i].length = len := hQ.lengths _ (List.getElem_mem hi')
  have same : Q[i] = P[i] → ∃ r key, Completes (mfpakeMany C X d P ts) (recorderSingle C X c p i P.length tc) key r ∧
      Completes (mfpakeMany C X d Q ts) (recorderSingle C X c p i P.length tc) key r := by
    intro h
    obtain ⟨k1, v, k2, k2', a1, a2, a3⟩ := recorderSingle_ends C X d c P p len i ts tc hP hlen hp hi hm hg ho hcg hco hts htc
    obtain ⟨l1, w, l2, l2', b1, b2, b3⟩ := recorderSingle_ends C X d c Q p len i ts tc hQ hlen hp hi' (by rw [hn]; exact hm) hg ho
      hcg hco hts htc
    rw [h] at b1 b2 b3
    obtain ⟨rfl, rfl⟩ := a1.completes.unique b1.completes
    obtain ⟨rfl, rfl⟩ := a2.completes.unique b2.completes
    rw [hn] at b3
    exact ⟨_, _, a3.completes, b3.completes⟩
  refine ⟨⟨?_, ?_⟩, same⟩
  · rintro ⟨d', hm', hg', ho', r, key, key', h1, h2⟩
    obtain ⟨k1, v, k2, k2', a1, a2, a3⟩ := recorderSingle_ends C X d c P p len i ts tc hP hlen hp hi hm hg ho hcg hco hts htc
    obtain ⟨l1, w, l2, l2', b1, b2, b3⟩ := recorderSingle_ends C X d' c Q p len i ts tc hQ hlen hp hi' (by rw [hn]; exact hm') hg' ho'
      hcg hco hts htc
    rw [hn] at b3
    have e1 := (h1.unique a3.completes).2
    have e2 := (h2.unique b3.completes).2
    have e := e1.symm.trans e2
    have hvw : v = w := congrArg (fun r => r.2.2) e
    subst hvw
    have hx : ∀ mask : Bytes, ∀ a : Bytes, mask.length = len → a.length = len →
        xorBits (bitsOf mask) (bitsOf (xorB (xorB mask a) p)) = xorBits (bitsOf a) (bitsOf p) := by
      intro mask a h1 h2
      refine Eq.trans ?_ (xorBits_mask (mask := mask) (a := a) (b := p) (by omega) (by omega))
      unfold xorBits
      exact List.zipWith_comm_of_comm (fun x y => Bool.xor_comm x y)
    have n1 := drawMask_length d.mask len
    have n2 := drawMask_length d'.mask len
    generalize drawMask d.mask len = mask at n1 a1
    generalize drawMask d'.mask len = mask' at n2 b1
    have r1 := recorder_reads C X hg hco (by rw [n1]; exact hlen)
      (by rw [xorB_length (by rw [xorB_length (by omega)]; omega)]; omega) hts a1.completes
    have r2 := recorder_reads C X hg' hco (by rw [n2]; exact hlen)
      (by rw [xorB_length (by rw [xorB_length (by omega)]; omega)]; omega) hts b1.completes
    rw [hx _ _ n1 hPi, n1] at r1
    rw [hx _ _ n2 hQi, n2] at r2
    have hb := r2.trans r1.symm
    apply bitsOf_injective
    apply List.ext_getElem (by simp [bitsOf, hPi, hQi])
    intro k h1 h2
    have h3 : k < (bitsOf p).length := by simp [bitsOf] at h2 ⊢; omega
    have := congrArg (·[k]?) hb
    simp only [xorBits] at this
    rw [List.getElem?_eq_getElem (by simp; omega), List.getElem?_eq_getElem (by simp; omega)] at this
    simpa using this
  · intro h
    obtain ⟨r, key, h1, h2⟩ := same h
    exact ⟨d, hm, hg, ho, r, key, key, h1, h2⟩

example := C97_client_exact Witness.curve (Witness.crypto true) Witness.manyDraws Witness.singleDraws Witness.passwords
    [[9, 9], [3, 4], [0, 0], [1, 1]] Witness.password 2 1 1 1 (by meets) ⟨⟨2, rfl⟩, by decide, by decide⟩ rfl (by meets) (by meets)
    (by meets) (by meets) (by meets) (by meets) (by meets) (by meets) (by meets) (by meets)

end FP.Props
