import Verif.Spec.AskedServer
import Verif.Proof.Asked
import Verif.Proof.CuriousLegacy
/-
What the evaluating server of the first one-of-many implementation holds.
-/
namespace FP
open Spec Props

/-- The messages when the client garbles, given what garbling and evaluating give. -/
theorem recorderServerV1_conn (C : Curve) (X : Crypto) (g : ClientGarbler1) (o : OTRecv) (passwords : List Bytes)
    (password : Bytes) (len index t : Nat) (hdb : ∀ p ∈ passwords, p.length = len) (h0 : 0 < len) (hl24 : len < 2 ^ 24)
    (hcount : 2 ≤ passwords.length) (hcount' : passwords.length < 2 ^ 32)
    (hpw : password.length = len) (hi : index < passwords.length) (hg : g.g.Valid) (ho : o.Valid)
    {circ : Circuit} {z : List (Wire × Wire)} {K K' : WireBytes}
    {gc gc' : GarbledCircuit} {d : DecodingKey} (H : Held2 X.toEnv g.g.rnd g.g.ord (len * 8) t circ z K gc gc' d)
    (hK' : evaluatedKey X.toEnv gc' (pick ((z.drop 0).take (len * 8)) (u8VecToBoolVec password) ++
      pick ((z.drop (len * 8)).take (len * 8)) (u8VecToBoolVec passwords[index])) = .ok K') :
    ∃ view, Ends (recorderServerV1 C X o passwords) (garblerClientV1 C X g password index passwords.length t)
        (view, ⟨gc', pick ((z.drop 0).take (len * 8)) (u8VecToBoolVec password),
          pick ((z.drop (len * 8)).take (len * 8)) (u8VecToBoolVec passwords[index]), K'⟩) K ∧
      OthersCancel view passwords.length (len * 8) index ∧
      (∀ i < passwords.length, OthersCancel view passwords.length (len * 8) i ↔
        ∀ j < len * 8, view[i * (len * 8) + j]? = view[index * (len * 8) + j]?) ∧
      ∃ rows, blindingKeys X.dbg g.keys passwords.length (len * 8) = .ok rows ∧ rows.length = passwords.length - 1 ∧
        (∀ r ∈ rows, r.length = len * 8) ∧
        view = (rows.take index ++ (pick ((z.drop (len * 8)).take (len * 8)) (u8VecToBoolVec passwords[index])).map Wire.bytes ::
          rows.drop index).flatten := by
  have hil : passwords[index].length = len := hdb _ (List.getElem_mem hi)
  have ul : ∀ p : Bytes, p.length = len → (u8VecToBoolVec p).length = len * 8 := fun p h => by rw [unpack_length, h, Nat.mul_comm]
  have hz := H.length
  obtain ⟨rows, hb1, hb2, hb3, hb4⟩ := blindingKeys_ok X.dbg g.keys (bits := len * 8) hcount hcount'
  have hreal : (bytePairs ((z.drop (len * 8)).take (len * 8))).length = len * 8 := by simp [bytePairs]; omega
  have hreal' : ∀ m ∈ bytePairs ((z.drop (len * 8)).take (len * 8)), m.1.length = 32 ∧ m.2.length = 32 := by
    intro m hm
    obtain ⟨w, -, rfl⟩ := List.mem_map.mp hm
    simp [Wire.bytes]
  have hrow := chosen_isRow hreal hreal' (choices := u8VecToBoolVec passwords[index])
    (by rw [unpack_length, hdb _ (List.getElem_mem hi), Nat.mul_comm])
  have hiff := fun i (hin : i < passwords.length) => othersCancel_iff hb2 hb3 hb4 hrow hi (i := i) hin
  refine ⟨chosen ((rows.map dupRow).take index ++ bytePairs ((z.drop (len * 8)).take (len * 8)) ::
    (rows.map dupRow).drop index).flatten (passwords.flatMap u8VecToBoolVec), Ends.swap ?_, ?_⟩
  swap
  · rw [blinded_view hreal hb2 hb3 hdb hi]
    exact ⟨(hiff index hi).mpr fun _ _ => rfl, hiff, rows, hb1, hb2, fun r hr => (hb3 r hr).length, by rw [chosen_bytePairs]⟩
  have pl : ∀ (off : Nat) (p : Bytes), off + len * 8 ≤ z.length → p.length = len →
      (pick ((z.drop off).take (len * 8)) (u8VecToBoolVec p)).length = len * 8 := by
    intro off p ho hp
    rw [pick_length (by rw [ul p hp]; simp; omega)]; simp; omega
  unfold garblerClientV1 recorderServerV1
  have h00 : passwords[0].length = len := hdb _ (List.getElem_mem (by omega))
  rw [idxR_ok (a := passwords[0]) (List.getElem?_eq_getElem (by omega)), liftM_ok, ret_bind]
  dsimp only
  rw [h00, hpw, H.built, liftM_ok, ret_bind, H.garbled, liftM_ok, ret_bind]
  dsimp only
  rw [labelPairs_ok (by omega), liftM_ok, ret_bind, bitsUpTo_ok hpw, liftM_ok, ret_bind,
    labelsAt_ok (by rw [ul _ hpw]; omega), liftM_ok, ret_bind, ul _ hpw, sendP_bind, recvP_bind]
  refine .sendRecv ?_
  rw [H.sent, liftM_ok, ret_bind, sendP_bind, recvP_bind]
  refine .sendRecv ?_
  rw [deserialize_ok wires_rt ⟨by rw [pl _ _ (by omega) hpw]; omega, fun w hw => binary_fits (pick_mem H.binary _ w hw)⟩, liftM_ok,
    ret_bind]
  rw [hb1, liftM_ok, ret_bind, selectKeys_ok hreal hb2 hb3 hi, liftM_ok, ret_bind, allBits_ok hdb, liftM_ok, ret_bind]
  obtain ⟨e1, e2, e3⟩ := blinded_pairs hreal hreal' hb2 hb3 hdb hi
  refine .bind ((ot_correct C X hg.ot ho (n := passwords.length * (len * 8)) (Nat.mul_pos (by omega) (by omega))
    (by rw [← Nat.mul_assoc]; exact Nat.mul_mod_left _ _) ?_) _ _ e1 e2 e3).ends ?_
  · have h1 : passwords.length * (len * 8) ≤ 2 ^ 32 * (len * 8) := Nat.mul_le_mul_right _ (by omega)
    have h2 : 2 ^ 32 * (len * 8) < 2 ^ 32 * 2 ^ 32 := Nat.mul_lt_mul_of_pos_left (by omega) (by decide)
    omega
  have hun := unblind_ok X.dbg (real := bytePairs ((z.drop (len * 8)).take (len * 8))) (index := index) hreal hreal' hb2 hb3 hb4
    hdb hi
  rw [hun, liftM_ok, ret_bind, chosen_bytePairs, payloadToEncoding_ok X.dbg (pick_mem H.binary _) (pl _ _ (by omega) hil),
    liftM_ok, ret_bind, H.swap _ _ (pl _ _ (by omega) hil) (pl _ _ (by omega) hpw) (pick_mem H.binary _) (pick_mem H.binary _),
    hK', H.key, liftM_ok, liftM_ok, ret_bind]
  exact .ret _ _

/-- The block that is not among the others is found. -/
theorem found_block {rows : List (List Bytes)} {r : List Bytes} {number index n : Nat} (hl : rows.length = number - 1)
    (hrows : ∀ r ∈ rows, r.length = n) (hr : r.length = n) (hi : index < number) (hnew : r ∉ rows) {i : Nat} (hin : i < number)
    (h : ∀ j < n, (rows.take index ++ r :: rows.drop index).flatten[i * n + j]? =
      (rows.take index ++ r :: rows.drop index).flatten[index * n + j]?) : i = index := by
  have hat : (rows.take index ++ r :: rows.drop index)[index]? = some r := by
    rw [List.getElem?_append_right (by simp)]
    have h0 : index - (rows.take index).length = 0 := by simp; omega
    rw [h0]; rfl
  have hel : ∀ i ≠ index, ∀ x, (rows.take index ++ r :: rows.drop index)[i]? = some x → x ∈ rows := by
    intro i hne x hx
    have htl : (rows.take index).length = index := by simp; omega
    rcases Nat.lt_or_gt_of_ne hne with hlt | hgt
    · rw [List.getElem?_append_left (by omega)] at hx
      exact List.mem_of_mem_take (List.mem_of_getElem? hx)
    · rw [List.getElem?_append_right (by omega), htl, show i - index = (i - index - 1) + 1 by omega, List.getElem?_cons_succ] at hx
      exact List.mem_of_mem_drop (List.mem_of_getElem? hx)
  generalize hL : rows.take index ++ r :: rows.drop index = L at h hat hel
  have hLl : L.length = number := by rw [← hL]; simp; omega
  have hLr : ∀ r ∈ L, r.length = n := by
    intro x hx
    rw [← hL] at hx
    rcases List.mem_append.mp hx with hx | hx
    · exact hrows x (List.mem_of_mem_take hx)
    · rcases List.mem_cons.mp hx with rfl | hx
      · exact hr
      · exact hrows x (List.mem_of_mem_drop hx)
  by_contra hne
  rw [List.getElem?_eq_getElem (by omega)] at hat
  have hidx := Option.some.inj hat
  refine hnew (hel i hne r ?_)
  rw [List.getElem?_eq_getElem (by omega), ← hidx]
  refine congrArg some (List.ext_getElem? fun j => ?_)
  rcases Nat.lt_or_ge j n with hj | hj
  · have := h j hj
    rwa [flatten_get hLr (by omega) hj, flatten_get hLr (by omega) hj] at this
  · rw [List.getElem?_eq_none (by rw [hLr _ (List.getElem_mem _)]; exact hj),
      List.getElem?_eq_none (by rw [hLr _ (List.getElem_mem _)]; exact hj)]

/-- A block that is among the others is found twice. -/
theorem found_again {rows : List (List Bytes)} {r : List Bytes} {number index n : Nat} (hl : rows.length = number - 1)
    (hrows : ∀ r ∈ rows, r.length = n) (hi : index < number) (hold : r ∈ rows) :
    ∃ i < number, i ≠ index ∧ ∀ j < n, (rows.take index ++ r :: rows.drop index).flatten[i * n + j]? =
      (rows.take index ++ r :: rows.drop index).flatten[index * n + j]? := by
  have htl : (rows.take index).length = index := by simp; omega
  have hat : (rows.take index ++ r :: rows.drop index)[index]? = some r := by
    rw [List.getElem?_append_right (by omega), htl, Nat.sub_self]; rfl
  obtain ⟨k, hk, hkr⟩ := List.getElem_of_mem hold
  have hex : ∃ i < number, i ≠ index ∧ (rows.take index ++ r :: rows.drop index)[i]? = some r := by
    rcases Nat.lt_or_ge k index with h | h
    · refine ⟨k, by omega, by omega, ?_⟩
      rw [List.getElem?_append_left (by omega), List.getElem?_take_of_lt h, List.getElem?_eq_getElem hk, hkr]
    · refine ⟨k + 1, by omega, by omega, ?_⟩
      rw [List.getElem?_append_right (by omega), htl, show k + 1 - index = (k - index) + 1 by omega, List.getElem?_cons_succ,
        List.getElem?_drop, show index + (k - index) = k by omega, List.getElem?_eq_getElem hk, hkr]
  obtain ⟨i, hin, hne, he⟩ := hex
  refine ⟨i, hin, hne, fun j hj => ?_⟩
  have hr := hrows r hold
  generalize hL : rows.take index ++ r :: rows.drop index = L at hat he ⊢
  have hLl : L.length = number := by rw [← hL]; simp; omega
  have hLr : ∀ r ∈ L, r.length = n := by
    intro x hx
    rw [← hL] at hx
    rcases List.mem_append.mp hx with hx | hx
    · exact hrows x (List.mem_of_mem_take hx)
    · rcases List.mem_cons.mp hx with rfl | hx
      · exact hr
      · exact hrows x (List.mem_of_mem_drop hx)
  rw [flatten_get hLr (by omega) hj, flatten_get hLr (by omega) hj]
  rw [List.getElem?_eq_getElem (by omega)] at hat he
  rw [Option.some.inj hat, Option.some.inj he]

/-- Three entries and blinding keys that are all the same. -/
theorem blindingKeys_three (dbg : Bool) (w : WireBytes) (bits : Nat) {rows : List (List Bytes)}
    (h : blindingKeys dbg (fun _ _ => w) 3 bits = .ok rows) : ∀ r ∈ rows, r = List.replicate bits w.toList := by
  have hr : IsRow bits (List.replicate bits w.toList) :=
    ⟨by simp, by intro x hx; rw [(List.mem_replicate.mp hx).2]; simp⟩
  have hf := addRow_fold dbg (zeroRow_isRow bits) hr (fun _ => .ok w.toList) (by intro j hj; simp)
  rw [zero_addRow hr] at hf
  have hm : (List.range bits).map (fun _ => w.toList) = List.replicate bits w.toList := by simp
  unfold blindingKeys at h
  rw [subR_ok dbg (by omega), okb, show assertR (decide (3 - 1 < 2 ^ 32)) = .ok () from rfl, okb, subR_ok dbg (by omega), okb] at h
  simp only [okb] at hf
  unfold zeroRow at hf
  rw [show List.range (3 - 2) = [0] from rfl, List.foldlM_cons, hf, okb, List.foldlM_nil, purek, okb] at h
  obtain rfl := Except.ok.inj h
  intro r hr
  simpa using hr

theorem recorderServerV1_forget (C : Curve) (X : Crypto) (o : OTRecv) (passwords : List Bytes) :
    (do let r ← recorderServerV1 C X o passwords
        return r.2.key) = evaluatorServerV1 C X o passwords := by
  unfold recorderServerV1 evaluatorServerV1
  simp [bindP_assoc, bindP_pure]

end FP
