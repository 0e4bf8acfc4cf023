import Verif.Spec.Curious
import Verif.Proof.Burglar
import Verif.Props.Impostor
/-
The colours of zero labels can be read off the tables.
-/
namespace FP
open Spec Props

theorem natCast_sum_zmod (m : Nat) (l : List Nat) : ((l.sum : ℕ) : ZMod m) = (l.map fun x : Nat => (x : ZMod m)).sum := by
  induction l with
  | nil => simp
  | cons a l ih => simp [ih]

/-- The first row of a projection gate on the sum of some bits tells the parity of the colours of their zero labels. -/
theorem first_row_parity {E : Env} {rnd : GarbleRand} {c : Circuit} (hc : WellTyped c) {run : GarbleRun}
    (hrun : garbleRun E rnd c = .ok run) (hδ2 : DeltaOK run.delta 2) {o o' D : Nat} {ks : List Nat}
    (hs : (⟨o, 2, ks, .add⟩ : Gate) ∈ c.gates) (hp : (⟨o', 2, [o], .proj (.map D)⟩ : Gate) ∈ c.gates) (hD : 3 ≤ D)
    {col val : Nat → Nat} (hcol : ∀ k ∈ ks, ∃ z w, run.state.wires[k]? = some z ∧ Carries run.delta 2 z (val k) w ∧
      col k = w.color) :
    ∃ rows r, List.lookup o' run.state.f = some rows ∧ rows[0]? = some r ∧
      (r.color = 0 ↔ (ks.map fun k => col k + val k).sum % 2 = 1) := by
  obtain ⟨a, z, δ, rows, r, ha, hz, hδ, hl, hr, hlr, y0, ym, hy0, hym, hzr⟩ := C50_first_row E rnd c hc run hrun _ hp _ rfl
    (show (ProjKind.map D).dom ≠ 2 by show D ≠ 2; omega)
  simp only [List.cons.injEq, and_true] at ha
  subst ha
  refine ⟨rows, r, hl, hr, ?_⟩
  have hdom : (ProjKind.map D).dom = D := rfl
  rw [hdom] at hδ hlr hzr
  have hδi : IsDelta D δ := by
    obtain ⟨run', hrun', hok⟩ := garbleRun_ok E rnd hc
    rw [hrun] at hrun'; cases hrun'
    obtain ⟨δ', h1, h2⟩ := hok.deltas D ⟨_, hp, .inr ⟨_, rfl, rfl⟩⟩
    rw [hδ] at h1
    obtain rfl := Option.some.inj h1
    exact h2
  -- the colour of the row
  have hrow : r.color = 0 ↔ z.color ≠ 0 := by
    have e := hzr (colorPos r.domain)
    have h1 := hδi.one
    rw [domain_unique hδi.dom hlr.dom] at h1
    rw [h1, ← color_eq] at e
    have hlt : r.color < D := by rw [color_eq]; exact hlr.lt _
    by_cases hz0 : z.color = 0
    · rw [if_pos hz0] at e
      have hy0' : y0 = 0 := by
        have : (ProjKind.map D).project 0 = .ok 0 := by simp [ProjKind.project, remR, show D ≠ 0 by omega]
        rw [this] at hy0; exact (Except.ok.inj hy0).symm
      have hym' : ym = 2 := by
        have : (ProjKind.map D).project 2 = .ok 2 := by
          simp [ProjKind.project, remR, show D ≠ 0 by omega, Nat.mod_eq_of_lt (show 2 < D by omega)]
        rw [this] at hym; exact (Except.ok.inj hym).symm
      subst hy0' hym'
      simp only [hz0, ne_eq, not_true, iff_false]
      intro h0
      rw [h0] at e
      have e2 : ((2 : ℕ) : ZMod D) = 0 := by
        have : ((2 : ℕ) : ZMod D) = -((((0 : ℕ) : ZMod D) - ((2 : ℕ) : ZMod D)) * ((1 : ℕ) : ZMod D)) := by push_cast; ring
        rw [this, ← e]; simp
      rw [ZMod.natCast_eq_zero_iff] at e2
      have := Nat.le_of_dvd (by decide) e2
      omega
    · rw [if_neg hz0] at e
      simp only [ne_eq, hz0, not_false_iff, iff_true]
      rw [ZMod.natCast_eq_zero_iff] at e
      exact Nat.eq_zero_of_dvd_of_lt e hlt
  rw [hrow]
  -- the colour of the sum
  obtain ⟨w, hw, hlw, -, hsum⟩ := run_sums hc hrun hs rfl
  simp only at hw hlw hsum
  rw [hz] at hw
  obtain rfl := Option.some.inj hw
  have hzl2 : z.color < 2 := color_lt_two hlw
  have hdz : z.domain = .binary := by
    have := hlw.dom
    have h2 : Domain.new 2 = .ok .binary := rfl
    rw [h2] at this
    exact (Except.ok.inj this).symm
  have e := hsum (colorPos z.domain)
  have hkc : ∀ k ∈ ks, zd 2 (run.state.wires.getD k Wire.empty) (colorPos z.domain) = ((col k + val k : ℕ) : ZMod 2) := by
    intro k hk
    obtain ⟨zk, wk, h1, h2, h3⟩ := hcol k hk
    obtain ⟨δ2, hd2, hi2⟩ := hδ2
    have hdwk : wk.domain = z.domain := domain_unique h2.lab.dom hlw.dom
    rw [List.getD, h1, Option.getD_some]
    have e3 := h2.eq δ2 hd2 (colorPos z.domain)
    have h1' := hi2.one
    rw [domain_unique hi2.dom hlw.dom] at h1'
    have e4 : zd 2 δ2 (colorPos z.domain) = 1 := by unfold zd; rw [h1']; rfl
    have e5 : zd 2 wk (colorPos z.domain) = (wk.color : ZMod 2) := by
      unfold zd; rw [← hdwk, ← color_eq]
    rw [e4, mul_one, e5] at e3
    push_cast
    rw [h3, e3, add_assoc, CharTwo.add_self_eq_zero, add_zero]
  rw [List.map_congr_left hkc] at e
  have e1 : zd 2 z (colorPos z.domain) = (z.color : ZMod 2) := by rw [color_eq]; rfl
  have e2 : (List.map (fun k => ((col k + val k : ℕ) : ZMod 2)) ks).sum = (((ks.map fun k => col k + val k).sum : ℕ) : ZMod 2) := by
    rw [natCast_sum_zmod, List.map_map]; rfl
  rw [e1, e2, ZMod.natCast_eq_natCast_iff'] at e
  omega

theorem bits_parity {ca cb : Nat} {a b : Bool} (ha : ca < 2) (hb : cb < 2) {r : Nat}
    (h : r = 0 ↔ (ca + a.toNat + (cb + b.toNat)) % 2 = 1) : ((ca != 0) ^^ (cb != 0) ^^ b ^^ (r == 0)) = a := by
  have hr : (r == 0) = decide ((ca + a.toNat + (cb + b.toNat)) % 2 = 1) := by
    rw [Bool.eq_iff_iff]; simp [h]
  rw [hr]
  rcases (by omega : ca = 0 ∨ ca = 1) with rfl | rfl <;> rcases (by omega : cb = 0 ∨ cb = 1) with rfl | rfl <;>
    cases a <;> cases b <;> rfl

theorem others_ok {E : Env} {rnd : GarbleRand} {n D T : Nat} (hn : 0 < n) (hDg : GoodDomain D) (hD : 3 ≤ D)
    {run : GarbleRun} (hrun : garbleRun E rnd (thrCircuit n D T) = .ok run) {X : List Wire} {p q : List Bool}
    (hpl : p.length = n) (hql : q.length = n)
    (hX : ∀ (i m : Nat), (thrCircuit n D T).inputDomains[i]? = some m → ∃ zi w v, run.encWires[i]? = some zi ∧
          X[i]? = some w ∧ (bitsNat (p ++ q))[i]? = some v ∧ Carries run.delta m zi v w)
    {gc : GarbledCircuit} (hgc : ∀ k, List.lookup k gc.f = List.lookup k run.state.f) {theirs ours : List Wire}
    (hXe : theirs ++ ours = X) (htl : theirs.length = n) :
    othersBits n gc theirs ours q = p := by
  have hc := thr_typedD (T := T) hn good2 hDg
  obtain ⟨run', hrun', hok⟩ := garbleRun_ok E rnd hc
  rw [hrun] at hrun'; cases hrun'
  have hδ2 : DeltaOK run.delta 2 := hok.deltas 2 ⟨⟨0 + 2 * n, 2, [0, 0 + n], .add⟩, by
    show _ ∈ xorGates n ++ _
    exact List.mem_append_left _ (List.mem_map.mpr ⟨0, List.mem_range.mpr hn, rfl⟩), .inl rfl⟩
  have hget : ∀ k, k < n * 2 → ∃ z w, run.state.wires[k]? = some z ∧ Carries run.delta 2 z ((p ++ q).getD k false).toNat w ∧
      (X.getD k Wire.empty) = w ∧ w.color < 2 := by
    intro k hk
    obtain ⟨z, w, v, h1, h2, h3, h4⟩ := hX k 2 (by
      show (List.replicate (n * 2) 2)[k]? = some 2
      rw [List.getElem?_replicate, if_pos hk])
    rw [hok.pre k hk] at h1
    refine ⟨z, w, h1, ?_, by rw [List.getD, h2, Option.getD_some], color_lt_two h4.lab⟩
    have : v = ((p ++ q).getD k false).toNat := by
      simp only [bitsNat, List.getElem?_map] at h3
      rw [List.getD]
      cases hh : (p ++ q)[k]? with
      | none => rw [hh] at h3; simp at h3
      | some b => rw [hh] at h3; simp at h3; simp [h3]
    rw [← this]; exact h4
  unfold othersBits
  apply List.ext_getElem
  · simp [hpl]
  intro i h1 h2
  have hi : i < n := by rw [← hpl]; exact h2
  simp only [List.getElem_map, List.getElem_range]
  obtain ⟨z1, w1, a1, a2, a3, a4⟩ := hget i (by omega)
  obtain ⟨z2, w2, b1, b2, b3, b4⟩ := hget (i + n) (by omega)
  obtain ⟨rows, r, c1, c2, c3⟩ := first_row_parity hc hrun hδ2 (o := i + 2 * n) (o' := 2 * n + n + i) (D := D) (ks := [i, i + n])
    (by
      show _ ∈ xorGates n ++ _
      exact List.mem_append_left _ (List.mem_map.mpr ⟨i, List.mem_range.mpr hi, rfl⟩))
    (by
      show _ ∈ xorGates n ++ tailGates (2 * n) n D T
      apply List.mem_append_right
      unfold tailGates
      simp only [List.mem_append, List.mem_map, List.mem_range]
      left
      exact ⟨i, hi, by simp; omega⟩) hD
    (col := fun k => (X.getD k Wire.empty).color) (val := fun k => ((p ++ q).getD k false).toNat) (by
      intro k hk
      simp only [List.mem_cons, List.not_mem_nil, or_false] at hk
      rcases hk with rfl | rfl
      · exact ⟨z1, w1, a1, a2, by rw [a3]⟩
      · exact ⟨z2, w2, b1, b2, by rw [b3]⟩)
  have hrow : firstRow gc (3 * n + i) = r := by
    unfold firstRow
    rw [hgc, show 3 * n + i = 2 * n + n + i by omega, c1]
    simp only [Option.getD_some]
    rw [List.getD, c2, Option.getD_some]
  have e1 : X.getD i Wire.empty = theirs.getD i Wire.empty := by
    rw [← hXe, List.getD, List.getElem?_append_left (by omega), List.getD]
  have e2 : X.getD (i + n) Wire.empty = ours.getD i Wire.empty := by
    rw [← hXe, List.getD, List.getElem?_append_right (by omega), htl, Nat.add_sub_cancel, List.getD]
  have f1 : (p ++ q).getD i false = p[i] := by
    rw [List.getD, List.getElem?_append_left (by omega), List.getElem?_eq_getElem h2, Option.getD_some]
  have f2 : (p ++ q).getD (i + n) false = q.getD i false := by
    rw [List.getD, List.getElem?_append_right (by omega), hpl, Nat.add_sub_cancel, List.getD]
  simp only [List.map_cons, List.map_nil, List.sum_cons, List.sum_nil, Nat.add_zero, e1, e2, f1, f2] at c3
  rw [hrow]
  unfold colourAt
  exact bits_parity (by rw [← e1, a3]; exact a4) (by rw [← e2, b3]; exact b4) c3

theorem curious_ends (E : Env) (rnd : GarbleRand) (ord : MapOrder) (hord : ord.Valid)
    {S : List (Bytes × Bytes) → Proc Unit} {V : List Bool → Proc (List Bytes)} (p q : Bytes) (t n D T : Nat)
    (hn : n = 8 * p.length) (hl : q.length = p.length) (hp : 0 < p.length) (hfit : 4 * n + 2 < 2 ^ 64)
    (hbuild : buildCircuit E.dbg n t = .ok (thrCircuit n D T)) (hD : GoodDomain D) (hD3 : 3 ≤ D) (hT : T < 65536)
    (hot : CorrectOT 32 n S V) :
    ∃ k k', Ends (halfGarbler E rnd ord S p t) (halfEvaluator E V q) k k' ∧
      Ends (halfGarbler E rnd ord S p t) (curious E V q) k (k', bitsOf p) := by
  have hpl : (u8VecToBoolVec p).length = n := by rw [unpack_length, hn]
  have hql : (u8VecToBoolVec q).length = n := by rw [unpack_length, hn, hl]
  have hDl : D < 65536 := by unfold GoodDomain at hD; omega
  have hc := thr_typedD (T := T) (show 0 < n by omega) good2 hD
  have hbin : ∀ d ∈ (thrCircuit n D T).inputDomains, d = 2 := by intro d hd; exact (List.mem_replicate.mp hd).2
  obtain ⟨run, z, d, zl, w1, hrun, hok, hgb, hzl, hzb, hK, hzw, hlab, hcar, henc⟩ := half_detail E rnd hc
    hbin (by show 0 < n * 2; omega) rfl (thr_last n D T)
  change z.length = n * 2 at hzl
  obtain ⟨run', z', d', K, hrun', hgb', -, -, hK2, hev⟩ := half_key E rnd hc hbin (by show 0 < n * 2; omega) rfl (thr_last n D T)
  rw [hrun] at hrun'
  obtain rfl := Except.ok.inj hrun'
  rw [hgb] at hgb'
  have hzz := Except.ok.inj hgb'
  obtain rfl : z = z' := congrArg (fun t => t.2.1) hzz
  obtain rfl : d = d' := congrArg (fun t => t.2.2) hzz
  have hbl : (u8VecToBoolVec p ++ u8VecToBoolVec q).length = n * 2 := by rw [List.length_append, hpl, hql]; omega
  obtain ⟨K', hK', -, -⟩ := hev _ hbl
  obtain ⟨hin, hXl, hXi⟩ := henc _ hbl
  refine ⟨K, K', half_conn E rnd ord hord p q t n D T hn hl hfit hbuild hDl hT hot hrun hgb hzl hzb hK2 hK', ?_⟩
  have hfits := thr_fits (n := n) hDl hT hfit
  have hgf : GarbledFits (thrCircuit n D T) (ord.f run.state.f) (ord.h run.state.fHalf) :=
    garble_fits hrun hfits.1 hfits.2 (hord.f _) (hord.h _)
  obtain ⟨gc', hgc, hgc1, hgc2, hgc3⟩ : ∃ gc', deserializeGarbled (sendGarbled ord ⟨thrCircuit n D T, run.state.f, run.state.fHalf⟩) = .ok gc' ∧
      gc'.circuit = thrCircuit n D T ∧
      (∀ x, evaluate E gc' x = evaluate E ⟨thrCircuit n D T, run.state.f, run.state.fHalf⟩ x) ∧
      ∀ k, List.lookup k gc'.f = List.lookup k run.state.f :=
    ⟨_, deserializeGarbled_ok hgf, rfl, evaluate_congr E rfl (iteration_lookup (hord.f _)) (iteration_lookup (hord.h _)),
      iteration_lookup (hord.f _)⟩
  unfold halfGarbler curious
  dsimp only
  rw [hpl, hbuild, liftM_ok, ret_bind, hgb, liftM_ok, ret_bind]
  dsimp only
  rw [sliceR_ok (by omega) (by omega), liftM_ok, ret_bind, sliceR_ok (by omega) (by omega), liftM_ok, ret_bind]
  have htake : (z.drop 0).take (n - 0) = z.take n := by simp
  have hdrop : (z.drop n).take (z.length - n) = z.drop n := List.take_of_length_le (by simp)
  rw [htake, hdrop]
  have hown : (z.take n).length = n := by rw [List.length_take]; omega
  have hth : (z.drop n).length = n := by rw [List.length_drop]; omega
  refine .bind (hot (bytePairs (z.drop n)) (u8VecToBoolVec q) (by simp [bytePairs]; omega) hql ?_).ends ?_
  · intro m hm
    obtain ⟨w, -, rfl⟩ := List.mem_map.mp hm
    simp [Wire.bytes]
  rw [chosen_bytePairs, labelsOf_ok E.dbg (pick_binary (fun p hp => hzb p (List.mem_of_mem_drop hp)) _), liftM_ok, ret_bind,
    sendP_bind, recvP_bind]
  refine .sendRecv ?_
  have hpb := pick_binary (fun p hp => hzb p (List.mem_of_mem_take hp)) (z := z.take n) (u8VecToBoolVec p)
  rw [hgc, liftM_ok, ret_bind, unzipped_encode (by omega), liftM_ok, ret_bind, sendP_bind, recvP_bind]
  refine .sendRecv ?_
  rw [deserialize_ok wires_rt ⟨by rw [pick_length (by omega)]; omega, fun w hw => binary_fits (hpb w hw)⟩, liftM_ok, ret_bind]
  have hpa := pick_append (z := z) (a := u8VecToBoolVec p) (b := u8VecToBoolVec q) (by omega)
  rw [hpl] at hpa
  rw [hpa, hK2, evaluatedKey_congr E hgc1 hgc2, hK', liftM_ok, liftM_ok, ret_bind, hql,
    others_ok (by omega) hD hD3 hrun hpl hql hXi hgc3 hpa (by rw [pick_length (by omega)]; exact hown), bitsOf_unpack]
  exact .ret _ _

/-- The evaluating party with the transfer of src/fpake.rs. -/
theorem curious_good (C : Curve) (X : Crypto) {g : GarblerDraws} {o : OTRecv} (hg : g.Valid) (ho : o.Valid) {p q : Bytes}
    {t : Nat} (hlen : GoodLength p.length) (hl : q.length = p.length) (ht : t < 65535) :
    ∃ k k', Ends (HalfKey.garbler C X g p t) (HalfKey.evaluator C X o q) k k' ∧
      Ends (HalfKey.garbler C X g p t) (curious X.toEnv (o.run C X) q) k (k', bitsOf p) := by
  obtain ⟨h1, h2, h3⟩ := goodLength hlen
  exact curious_ends X.toEnv g.rnd g.ord hg.ord p q t (8 * p.length) _ _ rfl hl h1 (by omega)
    (buildCircuit_ok X.dbg h2 ht) h3 (by omega) (by omega)
    (ot_correct C X hg.ot ho (n := 8 * p.length) (by omega) (by omega) (by omega))

theorem xor_mask' {a b : Bytes} (h : a.length = b.length) : List.zipWith xor (bitsOf a) (bitsOf (xorB a b)) = bitsOf b := by
  rw [← xor_mask h, List.zipWith_comm_of_comm]
  exact Bool.xor_comm

theorem bitsOf_xorB {a b : Bytes} (h : a.length = b.length) : bitsOf (xorB a b) = List.zipWith xor (bitsOf a) (bitsOf b) := by
  apply List.ext_getElem
  · simp [bitsOf, xorB, h]
  · intro i h1 h2
    simp only [bitsOf, List.getElem_zipWith, List.getElem_map, List.getElem_range]
    rw [xorB_get h]

theorem curiousSingle_ends (C : Curve) (X : Crypto) (d : ManyDraws) (c : SingleDraws) (passwords : List Bytes) (password : Bytes)
    (len index t : Nat) (hdb : Database passwords len) (hlen : GoodLength len) (hpw : password.length = len)
    (hi : index < passwords.length) (hm : d.many.Valid X.dbg passwords.length) (hg : d.g.Valid) (ho : d.ot.Valid)
    (hcg : c.g.Valid) (hco : c.ot.Valid) (ht : t < 65535) :
    ∃ key key', Ends (mfpakeMany C X d passwords t) (mfpakeSingle C X c password index passwords.length t) key key' ∧
      Ends (mfpakeMany C X d passwords t) (curiousSingle C X c password index passwords.length t) key
        (key', bitsOf passwords[index]) ∧
      Ends (curiousMany C X d passwords t) (mfpakeSingle C X c password index passwords.length t)
        (key, List.zipWith xor (bitsOf passwords[index]) (bitsOf password)) key' := by
  obtain ⟨h0, hl32⟩ := good_fits hlen
  have hmask := drawMask_length d.mask len
  generalize hmm : drawMask d.mask len = mask at hmask
  have hil : passwords[index].length = len := hdb.lengths _ (List.getElem_mem hi)
  have hxl : (xorB mask passwords[index]).length = len := by rw [xorB_length (by omega), hil]
  have hml : (xorB (xorB mask passwords[index]) password).length = len := by rw [xorB_length (by omega), hpw]
  obtain ⟨k1, k1', a1, a2⟩ := curious_good C X hg hco (p := mask) (q := xorB (xorB mask passwords[index]) password) (t := t)
    (by rw [hmask]; exact hlen) (by omega) ht
  obtain ⟨k2, k2', b1, b2⟩ := curious_good C X hcg ho (q := mask) (p := xorB (xorB mask passwords[index]) password) (t := t)
    (by rw [hml]; exact hlen) (by omega) ht
  obtain ⟨domain, d1, d2, hmany⟩ := manyRun_ends C X (base := c.many) (Database.map hdb hmask) (by simpa using hm)
    (index := index) (by simpa using hi) h0 hl32
  rw [List.length_map] at d1 d2
  rw [List.getElem_map] at hmany
  have h00 : passwords[0].length = len := hdb.lengths _ (List.getElem_mem (by omega))
  have hx : xorBytesInplace X.dbg (xorB mask passwords[index]) password = .ok (xorB (xorB mask passwords[index]) password) :=
    xorBytesInplace_ok X.dbg (by omega)
  refine ⟨combine k1 k2', combine k1' k2, ?_, ?_, ?_⟩
  · unfold mfpakeMany mfpakeSingle
    rw [idxR_ok (a := passwords[0]) (List.getElem?_eq_getElem (by omega)), liftM_ok, ret_bind]
    dsimp only
    rw [h00, hmm, maskPasswords_ok X.dbg hmask hdb.lengths, liftM_ok, ret_bind, d1, liftM_ok, ret_bind, d2, liftM_ok, ret_bind]
    refine .bind hmany ?_
    rw [hx, liftM_ok, ret_bind]
    exact .bind a1 (.bind b1.swap (.ret _ _))
  · unfold mfpakeMany curiousSingle
    rw [idxR_ok (a := passwords[0]) (List.getElem?_eq_getElem (by omega)), liftM_ok, ret_bind]
    dsimp only
    rw [h00, hmm, maskPasswords_ok X.dbg hmask hdb.lengths, liftM_ok, ret_bind, d1, liftM_ok, ret_bind, d2, liftM_ok, ret_bind]
    refine .bind hmany ?_
    rw [hx, liftM_ok, ret_bind]
    refine .bind a2 (.bind b1.swap ?_)
    dsimp only
    rw [xor_mask (by omega)]
    exact .ret _ _
  · unfold curiousMany mfpakeSingle
    rw [idxR_ok (a := passwords[0]) (List.getElem?_eq_getElem (by omega)), liftM_ok, ret_bind]
    dsimp only
    rw [h00, hmm, maskPasswords_ok X.dbg hmask hdb.lengths, liftM_ok, ret_bind, d1, liftM_ok, ret_bind, d2, liftM_ok, ret_bind]
    refine .bind hmany ?_
    rw [hx, liftM_ok, ret_bind]
    refine .bind a1 (.bind b2.swap ?_)
    dsimp only
    have ha : xorB (xorB mask passwords[index]) password = xorB mask (xorB passwords[index] password) := by
      apply List.ext_getElem
      · rw [hml, xorB_length (by rw [xorB_length (by omega)]; omega), xorB_length (by omega), hpw]
      · intro i h1 h2
        simp [xorB, BitVec.xor_assoc]
    rw [ha, xor_mask' (by rw [xorB_length (by omega)]; omega), bitsOf_xorB (by omega)]
    exact .ret _ _

theorem bindP_pure {α : Type} (p : Proc α) : (p >>= fun a => pure a) = p := bindP_ret p

end FP
