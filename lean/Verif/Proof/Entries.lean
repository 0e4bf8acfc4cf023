import Verif.Spec.Entries
import Verif.Proof.ViewsHalf
/-
What the parties of a one-of-many login hold at the end.
-/
namespace FP
open Spec Props

theorem recorder_good (C : Curve) (X : Crypto) {g : GarblerDraws} {o : OTRecv} (hg : g.Valid) (ho : o.Valid) {p q : Bytes}
    {t : Nat} (hlen : GoodLength p.length) (hl : q.length = p.length) (ht : t < 65535) :
    ∃ k v, Ends (HalfKey.garbler C X g p t) (recorder X.toEnv (o.run C X) q) k v := by
  obtain ⟨h1, h2, h3⟩ := goodLength hlen
  obtain ⟨k, v, a1, -⟩ := recorder_other X.toEnv g.rnd g.ord hg.ord p q p q t (8 * p.length) _ _ rfl hl rfl hl h1 (by omega)
    (buildCircuit_ok X.dbg h2 ht) h3 (by omega)
    (ot_correct C X hg.ot ho (n := 8 * p.length) (by omega) (by omega) (by omega)) rfl
  exact ⟨k, v, a1⟩

theorem bitsOf_injective : Function.Injective bitsOf := by
  intro p q h
  rw [← bitsOf_unpack, ← bitsOf_unpack] at h
  have hl : p.length = q.length := by
    have := congrArg List.length h
    rw [unpack_length, unpack_length] at this
    omega
  apply List.ext_getElem hl
  intro j h1 h2
  apply BitVec.eq_of_getLsbD_eq
  intro i hi
  have e1 := unpack_get p j i hi
  have e2 := unpack_get q j i hi
  rw [h, e2, List.getElem?_eq_getElem h1, List.getElem?_eq_getElem h2] at e1
  exact (Option.some.inj e1).symm

theorem xorBits_mask {mask a b : Bytes} (ha : a.length = mask.length) (hb : b.length = mask.length) :
    xorBits (bitsOf (xorB (xorB mask a) b)) (bitsOf mask) = xorBits (bitsOf a) (bitsOf b) := by
  rw [bitsOf_xorB (by rw [xorB_length (by omega)]; omega), bitsOf_xorB (by omega)]
  unfold xorBits
  have h1 : (bitsOf a).length = (bitsOf mask).length := by simp [bitsOf, ha]
  have h2 : (bitsOf b).length = (bitsOf mask).length := by simp [bitsOf, hb]
  apply List.ext_getElem
  · simp [h1, h2]
  · intro i h3 h4
    simp only [List.getElem_zipWith]
    generalize (bitsOf mask)[i]'_ = x
    generalize (bitsOf a)[i]'_ = y
    generalize (bitsOf b)[i]'_ = z
    cases x <;> cases y <;> cases z <;> rfl

/-- A login with a server that records: the half in which the server evaluates is one with the mask and with the mixture of
the mask, the entry and the client's password. -/
theorem recorderMany_ends (C : Curve) (X : Crypto) (d : ManyDraws) (c : SingleDraws) (passwords : List Bytes) (password : Bytes)
    (len index ts tc : Nat) (hdb : Database passwords len) (hlen : GoodLength len) (hpw : password.length = len)
    (hi : index < passwords.length) (hm : d.many.Valid X.dbg passwords.length) (hg : d.g.Valid) (ho : d.ot.Valid)
    (hcg : c.g.Valid) (hco : c.ot.Valid) (hts : ts < 65535) (htc : tc < 65535) :
    ∃ k1 k1' k2 v,
      Ends (HalfKey.garbler C X d.g (drawMask d.mask len) ts) (HalfKey.evaluator C X c.ot
        (xorB (xorB (drawMask d.mask len) passwords[index]) password)) k1 k1' ∧
      Ends (HalfKey.garbler C X c.g (xorB (xorB (drawMask d.mask len) passwords[index]) password) tc)
        (recorder X.toEnv (d.ot.run C X) (drawMask d.mask len)) k2 v ∧
      Ends (recorderMany C X d passwords ts) (mfpakeSingle C X c password index passwords.length tc)
        (combine k1 v.key, drawMask d.mask len, v) (combine k1' k2) := by
  obtain ⟨h0, hl32⟩ := good_fits hlen
  have hmask := drawMask_length d.mask len
  generalize hmm : drawMask d.mask len = mask at hmask
  have hil : passwords[index].length = len := hdb.lengths _ (List.getElem_mem hi)
  have hxl : (xorB mask passwords[index]).length = len := by rw [xorB_length (by omega), hil]
  have hml : (xorB (xorB mask passwords[index]) password).length = len := by rw [xorB_length (by omega), hpw]
  obtain ⟨k1, k1', a1, -⟩ := curious_good C X hg hco (p := mask) (q := xorB (xorB mask passwords[index]) password) (t := ts)
    (by rw [hmask]; exact hlen) (by omega) hts
  obtain ⟨k2, v, b1⟩ := recorder_good C X hcg ho (q := mask) (p := xorB (xorB mask passwords[index]) password) (t := tc)
    (by rw [hml]; exact hlen) (by omega) htc
  obtain ⟨domain, d1, d2, hmany⟩ := manyRun_ends C X (base := c.many) (Database.map hdb hmask) (by simpa using hm)
    (index := index) (by simpa using hi) h0 hl32
  rw [List.length_map] at d1 d2
  rw [List.getElem_map] at hmany
  have h00 : passwords[0].length = len := hdb.lengths _ (List.getElem_mem (by omega))
  have hx : xorBytesInplace X.dbg (xorB mask passwords[index]) password = .ok (xorB (xorB mask passwords[index]) password) :=
    xorBytesInplace_ok X.dbg (by omega)
  refine ⟨k1, k1', k2, v, a1, b1, ?_⟩
  unfold recorderMany mfpakeSingle
  rw [idxR_ok (a := passwords[0]) (List.getElem?_eq_getElem (by omega)), liftM_ok, ret_bind]
  dsimp only
  rw [h00, hmm, maskPasswords_ok X.dbg hmask hdb.lengths, liftM_ok, ret_bind, d1, liftM_ok, ret_bind, d2, liftM_ok, ret_bind]
  refine .bind hmany ?_
  rw [hx, liftM_ok, ret_bind]
  exact .bind a1 (.bind b1.swap (.ret _ _))

/-- A login with a client that records. -/
theorem recorderSingle_ends (C : Curve) (X : Crypto) (d : ManyDraws) (c : SingleDraws) (passwords : List Bytes) (password : Bytes)
    (len index ts tc : Nat) (hdb : Database passwords len) (hlen : GoodLength len) (hpw : password.length = len)
    (hi : index < passwords.length) (hm : d.many.Valid X.dbg passwords.length) (hg : d.g.Valid) (ho : d.ot.Valid)
    (hcg : c.g.Valid) (hco : c.ot.Valid) (hts : ts < 65535) (htc : tc < 65535) :
    ∃ k1 v k2 k2',
      Ends (HalfKey.garbler C X d.g (drawMask d.mask len) ts) (recorder X.toEnv (c.ot.run C X)
        (xorB (xorB (drawMask d.mask len) passwords[index]) password)) k1 v ∧
      Ends (HalfKey.garbler C X c.g (xorB (xorB (drawMask d.mask len) passwords[index]) password) tc)
        (HalfKey.evaluator C X d.ot (drawMask d.mask len)) k2 k2' ∧
      Ends (mfpakeMany C X d passwords ts) (recorderSingle C X c password index passwords.length tc)
        (combine k1 k2') (combine v.key k2, xorB (drawMask d.mask len) passwords[index], v) := by
  obtain ⟨h0, hl32⟩ := good_fits hlen
  have hmask := drawMask_length d.mask len
  generalize hmm : drawMask d.mask len = mask at hmask
  have hil : passwords[index].length = len := hdb.lengths _ (List.getElem_mem hi)
  have hxl : (xorB mask passwords[index]).length = len := by rw [xorB_length (by omega), hil]
  have hml : (xorB (xorB mask passwords[index]) password).length = len := by rw [xorB_length (by omega), hpw]
  obtain ⟨k1, v, a1⟩ := recorder_good C X hg hco (p := mask) (q := xorB (xorB mask passwords[index]) password) (t := ts)
    (by rw [hmask]; exact hlen) (by omega) hts
  obtain ⟨k2, k2', b1, -⟩ := curious_good C X hcg ho (q := mask) (p := xorB (xorB mask passwords[index]) password) (t := tc)
    (by rw [hml]; exact hlen) (by omega) htc
  obtain ⟨domain, d1, d2, hmany⟩ := manyRun_ends C X (base := c.many) (Database.map hdb hmask) (by simpa using hm)
    (index := index) (by simpa using hi) h0 hl32
  rw [List.length_map] at d1 d2
  rw [List.getElem_map] at hmany
  have h00 : passwords[0].length = len := hdb.lengths _ (List.getElem_mem (by omega))
  have hx : xorBytesInplace X.dbg (xorB mask passwords[index]) password = .ok (xorB (xorB mask passwords[index]) password) :=
    xorBytesInplace_ok X.dbg (by omega)
  refine ⟨k1, v, k2, k2', a1, b1, ?_⟩
  unfold mfpakeMany recorderSingle
  rw [idxR_ok (a := passwords[0]) (List.getElem?_eq_getElem (by omega)), liftM_ok, ret_bind]
  dsimp only
  rw [h00, hmm, maskPasswords_ok X.dbg hmask hdb.lengths, liftM_ok, ret_bind, d1, liftM_ok, ret_bind, d2, liftM_ok, ret_bind]
  refine .bind hmany ?_
  rw [hx, liftM_ok, ret_bind]
  exact .bind a1 (.bind b1.swap (.ret _ _))

end FP
