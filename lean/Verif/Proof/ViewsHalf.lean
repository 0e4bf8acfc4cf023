import Verif.Spec.Views
import Verif.Props.Difference
/-
What an evaluating party holds at the end, for passwords that differ in the same places.
-/
namespace FP
open Spec Props

/-- The messages of one direction, given what garbling and evaluating give. -/
theorem recorder_conn (E : Env) (rnd : GarbleRand) (ord : MapOrder) (hord : ord.Valid)
    {S : List (Bytes × Bytes) → Proc Unit} {V : List Bool → Proc (List Bytes)} (p q : Bytes) (t n D T : Nat)
    (hn : n = 8 * p.length) (hl : q.length = p.length) (hfit : 4 * n + 2 < 2 ^ 64)
    (hbuild : buildCircuit E.dbg n t = .ok (thrCircuit n D T)) (hDl : D < 65536) (hT : T < 65536)
    (hot : CorrectOT 32 n S V) {run : GarbleRun} {z : List (Wire × Wire)} {d : DecodingKey} {K K' : WireBytes}
    (hrun : garbleRun E rnd (thrCircuit n D T) = .ok run)
    (hgb : garbleBinary E rnd (thrCircuit n D T) = .ok (⟨thrCircuit n D T, run.state.f, run.state.fHalf⟩, z, d))
    (hzl : z.length = n * 2) (hzb : ∀ p ∈ z, p.1.domain = .binary ∧ p.2.domain = .binary) (hK : outputKey d = .ok K)
    (hK' : evaluatedKey E ⟨thrCircuit n D T, run.state.f, run.state.fHalf⟩ (pick z (u8VecToBoolVec p ++ u8VecToBoolVec q)) = .ok K') :
    Ends (halfGarbler E rnd ord S p t) (recorder E V q) K
      ⟨⟨thrCircuit n D T, hmapOfEntries (ord.f run.state.f), hmapOfEntries (ord.h run.state.fHalf)⟩,
        (pick z (u8VecToBoolVec p ++ u8VecToBoolVec q)).take n, (pick z (u8VecToBoolVec p ++ u8VecToBoolVec q)).drop n, K'⟩ := by
  have hpl : (u8VecToBoolVec p).length = n := by rw [unpack_length, hn]
  have hql : (u8VecToBoolVec q).length = n := by rw [unpack_length, hn, hl]
  have hfits := thr_fits (n := n) hDl hT hfit
  have hgf : GarbledFits (thrCircuit n D T) (ord.f run.state.f) (ord.h run.state.fHalf) :=
    garble_fits hrun hfits.1 hfits.2 (hord.f _) (hord.h _)
  have hgc : deserializeGarbled (sendGarbled ord ⟨thrCircuit n D T, run.state.f, run.state.fHalf⟩) =
      .ok ⟨thrCircuit n D T, hmapOfEntries (ord.f run.state.f), hmapOfEntries (ord.h run.state.fHalf)⟩ :=
    deserializeGarbled_ok hgf
  have hgc2 : ∀ x, evaluate E ⟨thrCircuit n D T, hmapOfEntries (ord.f run.state.f), hmapOfEntries (ord.h run.state.fHalf)⟩ x =
      evaluate E ⟨thrCircuit n D T, run.state.f, run.state.fHalf⟩ x :=
    evaluate_congr E rfl (iteration_lookup (hord.f _)) (iteration_lookup (hord.h _))
  unfold halfGarbler recorder
  dsimp only
  rw [hpl, hbuild, liftM_ok, ret_bind, hgb, liftM_ok, ret_bind]
  dsimp only
  rw [sliceR_ok (by omega) (by omega), liftM_ok, ret_bind, sliceR_ok (by omega) (by omega), liftM_ok, ret_bind]
  have htake : (z.drop 0).take (n - 0) = z.take n := by simp
  have hdrop : (z.drop n).take (z.length - n) = z.drop n := List.take_of_length_le (by simp)
  rw [htake, hdrop]
  have hown : (z.take n).length = n := by rw [List.length_take]; omega
  have hth : (z.drop n).length = n := by rw [List.length_drop]; omega
  refine .bind (hot (bytePairs (z.drop n)) (u8VecToBoolVec q) (by simp [bytePairs]; omega) hql ?_).ends ?_
  · intro m hm
    obtain ⟨w, -, rfl⟩ := List.mem_map.mp hm
    simp [Wire.bytes]
  rw [chosen_bytePairs, labelsOf_ok E.dbg (pick_binary (fun p hp => hzb p (List.mem_of_mem_drop hp)) _), liftM_ok, ret_bind,
    sendP_bind, recvP_bind]
  refine .sendRecv ?_
  have hpb := pick_binary (fun p hp => hzb p (List.mem_of_mem_take hp)) (z := z.take n) (u8VecToBoolVec p)
  rw [hgc, liftM_ok, ret_bind, unzipped_encode (by omega), liftM_ok, ret_bind, sendP_bind, recvP_bind]
  refine .sendRecv ?_
  rw [deserialize_ok wires_rt ⟨by rw [pick_length (by omega)]; omega, fun w hw => binary_fits (hpb w hw)⟩, liftM_ok, ret_bind]
  have hpa := pick_append (z := z) (a := u8VecToBoolVec p) (b := u8VecToBoolVec q) (by rw [List.length_append]; omega)
  rw [hpl] at hpa
  have hp1 : (pick (z.take n) (u8VecToBoolVec p)).length = n := by rw [pick_length (by omega)]; exact hown
  rw [hpa, hK, evaluatedKey_congr E (gc := ⟨thrCircuit n D T, run.state.f, run.state.fHalf⟩)
    (gc' := ⟨thrCircuit n D T, hmapOfEntries (ord.f run.state.f), hmapOfEntries (ord.h run.state.fHalf)⟩) rfl hgc2, hK', ← hpa, List.take_left' hp1, List.drop_left' hp1, liftM_ok, liftM_ok, ret_bind]
  exact .ret _ _

theorem drawn_bits {n D T len : Nat} (hn : n = 8 * len) {r : GarbleRand} : Drawn (thrCircuit n D T) r ↔ DrawnBits len r := by
  constructor
  · intro h i hi
    exact h i 2 (by
      show (List.replicate (n * 2) 2)[i]? = some 2
      rw [List.getElem?_replicate, if_pos (by omega)])
  · intro h i m hm
    change (List.replicate (n * 2) 2)[i]? = some m at hm
    obtain ⟨h1, h2⟩ := List.getElem?_eq_some_iff.mp hm
    rw [List.getElem_replicate] at h2
    subst h2
    rw [List.length_replicate] at h1
    exact h i (by omega)

/-- Garbling for passwords that differ in the same places. -/
theorem half_other (E : Env) (rnd : GarbleRand) {a b a' b' : List Bool} {n D T : Nat} (hpl : a.length = n)
    (hql : b.length = n) (hpl' : a'.length = n) (hql' : b'.length = n) (hp : 0 < n) (hD : GoodDomain D)
    (hx : xorBits a b = xorBits a' b') :
    ∃ run run' z z' d K K', garbleRun E rnd (thrCircuit n D T) = .ok run ∧
      garbleRun E (otherDraws (thrCircuit n D T) (bitsNat (a ++ b)) (bitsNat (a' ++ b')) rnd)
        (thrCircuit n D T) = .ok run' ∧
      garbleBinary E rnd (thrCircuit n D T) = .ok (⟨thrCircuit n D T, run.state.f, run.state.fHalf⟩, z, d) ∧
      garbleBinary E (otherDraws (thrCircuit n D T) (bitsNat (a ++ b)) (bitsNat (a' ++ b')) rnd)
        (thrCircuit n D T) = .ok (⟨thrCircuit n D T, run'.state.f, run'.state.fHalf⟩, z', d) ∧
      run'.state.f = run.state.f ∧ run'.state.fHalf = run.state.fHalf ∧
      z.length = n * 2 ∧ z'.length = n * 2 ∧ (∀ p ∈ z, p.1.domain = .binary ∧ p.2.domain = .binary) ∧
      (∀ p ∈ z', p.1.domain = .binary ∧ p.2.domain = .binary) ∧ outputKey d = .ok K ∧
      pick z' (a' ++ b') = pick z (a ++ b) ∧
      evaluatedKey E ⟨thrCircuit n D T, run.state.f, run.state.fHalf⟩ (pick z (a ++ b)) = .ok K' := by
  have hc := thr_typedD (T := T) (show 0 < n by omega) good2 hD
  have hbin : ∀ d ∈ (thrCircuit n D T).inputDomains, d = 2 := by intro d hd; exact (List.mem_replicate.mp hd).2
  have hbl : (a ++ b).length = n * 2 := by rw [List.length_append, hpl, hql]; omega
  have hbl' : (a' ++ b').length = n * 2 := by rw [List.length_append, hpl', hql']; omega
  obtain ⟨hsame, hmean⟩ := thr_same (D := D) (T := T) hpl hql hpl' hql' hx.symm
  generalize hrnd : otherDraws (thrCircuit n D T) (bitsNat (a ++ b))
    (bitsNat (a' ++ b')) rnd = rnd'
  have detail : ∀ (rnd : GarbleRand) (bits : List Bool), bits.length = n * 2 → ∃ run z d K K', garbleRun E rnd (thrCircuit n D T) = .ok run ∧
      RunOK E (thrCircuit n D T) run ∧
      garbleBinary E rnd (thrCircuit n D T) = .ok (⟨thrCircuit n D T, run.state.f, run.state.fHalf⟩, z, d) ∧
      d = ⟨run.state.d, run.outputsStartAt⟩ ∧ z.length = n * 2 ∧
      (∀ p ∈ z, p.1.domain = .binary ∧ p.2.domain = .binary) ∧ outputKey d = .ok K ∧
      evaluatedKey E ⟨thrCircuit n D T, run.state.f, run.state.fHalf⟩ (pick z bits) = .ok K' ∧
      InputOK (thrCircuit n D T) (bitsNat bits) ∧ (pick z bits).length = n * 2 ∧
        ∀ (i m : Nat), (thrCircuit n D T).inputDomains[i]? = some m → ∃ zi w v, run.encWires[i]? = some zi ∧
          (pick z bits)[i]? = some w ∧ (bitsNat bits)[i]? = some v ∧ Carries run.delta m zi v w := by
    intro rnd bits hb
    obtain ⟨run, z, d, zl, w1, hrun, hok, hgb, hzl, hzb, hK, hzw, hlab, hcar, henc⟩ := half_detail E rnd hc
      hbin (by show 0 < n * 2; omega) rfl (thr_last n D T)
    obtain ⟨run', z', d', K, hrun', hgb', -, -, hK2, hev⟩ := half_key E rnd hc hbin (by show 0 < n * 2; omega) rfl (thr_last n D T)
    rw [hrun] at hrun'
    obtain rfl := Except.ok.inj hrun'
    have hgb2 := hgb
    rw [hgb] at hgb'
    have hzz := Except.ok.inj hgb'
    obtain rfl : z = z' := congrArg (fun t => t.2.1) hzz
    obtain rfl : d = d' := congrArg (fun t => t.2.2) hzz
    obtain ⟨K', hK', -, -⟩ := hev _ hb
    obtain ⟨hin, hXl, hXi⟩ := henc _ hb
    refine ⟨run, z, d, K, K', hrun, hok, hgb, ?_, hzl, hzb, hK2, hK', hin, hXl, hXi⟩
    unfold garbleBinary at hgb2
    rw [garble_of_run hrun, okb] at hgb2
    simp only at hgb2
    cases hk : (BinaryEncodingKey.ofKey E.dbg ⟨run.encWires, run.delta⟩) with
    | error e => rw [hk] at hgb2; cases hgb2
    | ok bk =>
      rw [hk, okb] at hgb2
      cases hz : bk.zipped with
      | error e => rw [hz] at hgb2; cases hgb2
      | ok z => rw [hz, okb] at hgb2; cases hgb2; rfl
  obtain ⟨run, z, d, K, K', a1, a2, a3, a4, a5, a6, a7, a8, a9, a10, a11⟩ := detail rnd _ hbl
  obtain ⟨run', z', d', L, L', b1, b2, b3, b4, b5, b6, b7, b8, b9, b10, b11⟩ := detail rnd' _ hbl'
  have b1' := b1
  rw [← hrnd] at b1'
  obtain ⟨e1, e2, e3⟩ : run'.state.f = run.state.f ∧ run'.state.fHalf = run.state.fHalf ∧ run'.state.d = run.state.d := by
    have := (twin_run (E := E) hc a9 b9 hsame rnd).2 hmean
    obtain ⟨-, X, h1, h2, -⟩ := other_encode hc a9 b9 a1 b1' a2 b2
    unfold decoderView at this
    simp only at this
    rw [garble_of_run a1, garble_of_run b1', okb, okb] at this
    simp only at this
    rw [h1, h2] at this
    have := Except.ok.inj this
    simp only [Prod.mk.injEq, GarbledCircuit.mk.injEq, DecodingKey.mk.injEq] at this
    exact ⟨this.1.2.1, this.1.2.2, this.2.2.1⟩
  obtain ⟨f1, X, -, -, hXl, hX⟩ := other_encode hc a9 b9 a1 b1' a2 b2
  have hst : run'.outputsStartAt = run.outputsStartAt := by rw [a2.start, b2.start]
  obtain rfl : d' = d := by rw [a4, b4, e3, hst]
  rw [a7] at b7
  obtain rfl := Except.ok.inj b7
  have hpk : pick z' (a' ++ b') = pick z (a ++ b) := by
    apply List.ext_getElem?
    intro i
    by_cases hi : i < n * 2
    · have hdom : (thrCircuit n D T).inputDomains[i]? = some 2 := by
        show (List.replicate (n * 2) 2)[i]? = some 2
        rw [List.getElem?_replicate, if_pos hi]
      obtain ⟨y1, w1, v1, c1, c2, c3, c4⟩ := a11 i 2 hdom
      obtain ⟨y2, w2, v2, d1, d2, d3, d4⟩ := b11 i 2 hdom
      obtain ⟨y, y', w, v, v', g1, g2, g3, g4, g5, g6, g7⟩ := hX i 2 hdom
      obtain ⟨δ, hδ, -⟩ := a2.deltas 2 (hc.inputGood 2 (List.mem_of_getElem? hdom)).2
      rw [c1] at g1; obtain rfl := Option.some.inj g1
      rw [d1] at g2; obtain rfl := Option.some.inj g2
      rw [c3] at g4; obtain rfl := Option.some.inj g4
      rw [d3] at g5; obtain rfl := Option.some.inj g5
      rw [f1] at d4 g7
      have h1 : w1 = w := label_ext c4.lab g6.lab fun i => by rw [c4.eq δ hδ, g6.eq δ hδ]
      have h2 : w2 = w := label_ext d4.lab g7.lab fun i => by rw [d4.eq δ hδ, g7.eq δ hδ]
      rw [c2, d2, h1, h2]
    · rw [List.getElem?_eq_none (by omega), List.getElem?_eq_none (by omega)]
  exact ⟨run, run', z, z', d', K, K', a1, b1, a3, b3, e1, e2, a5, b5, a6, b6, a7, hpk, a8⟩

/-- The same result of both parties. -/
theorem recorder_other (E : Env) (rnd : GarbleRand) (ord : MapOrder) (hord : ord.Valid)
    {S : List (Bytes × Bytes) → Proc Unit} {V : List Bool → Proc (List Bytes)} (p q p' q' : Bytes) (t n D T : Nat)
    (hn : n = 8 * p.length) (hl : q.length = p.length) (hl' : p'.length = p.length) (hl'' : q'.length = p.length)
    (hp : 0 < p.length) (hfit : 4 * n + 2 < 2 ^ 64)
    (hbuild : buildCircuit E.dbg n t = .ok (thrCircuit n D T)) (hD : GoodDomain D) (hT : T < 65536)
    (hot : CorrectOT 32 n S V) (hx : xorBits (bitsOf p) (bitsOf q) = xorBits (bitsOf p') (bitsOf q')) :
    ∃ k v, Ends (halfGarbler E rnd ord S p t) (recorder E V q) k v ∧
      Ends (halfGarbler E (otherDraws (thrCircuit n D T) (bitsNat (bitsOf p ++ bitsOf q)) (bitsNat (bitsOf p' ++ bitsOf q')) rnd)
        ord S p' t) (recorder E V q') k v := by
  obtain ⟨run, run', z, z', d, K, K', a1, b1, a3, b3, e1, e2, a5, b5, a6, b6, a7, hpk, a8⟩ :=
    half_other (n := n) (T := T) E rnd (a := u8VecToBoolVec p) (b := u8VecToBoolVec q) (a' := u8VecToBoolVec p') (b' := u8VecToBoolVec q')
      (by rw [unpack_length, hn]) (by rw [unpack_length, hn, hl]) (by rw [unpack_length, hn, hl']) (by rw [unpack_length, hn, hl''])
      (by omega) hD (by rw [bitsOf_unpack, bitsOf_unpack, bitsOf_unpack, bitsOf_unpack]; exact hx)
  rw [← bitsOf_unpack, ← bitsOf_unpack, ← bitsOf_unpack, ← bitsOf_unpack]
  have hDl : D < 65536 := by unfold GoodDomain at hD; omega
  refine ⟨K, _, recorder_conn E rnd ord hord p q t n D T hn hl hfit hbuild hDl hT hot a1 a3 a5 a6 a7 a8, ?_⟩
  have := recorder_conn E _ ord hord p' q' t n D T (by omega) (by omega) hfit hbuild hDl hT hot b1 b3 b5 b6 a7
    (by rw [e1, e2, hpk]; exact a8)
  rw [e1, e2, hpk] at this
  exact this

/-- The draws depend only on the differences. -/
theorem otherDraws_bits {n D T : Nat} {a b a' b' : List Bool} (ha : a.length = n * 2) (hb : b.length = n * 2)
    (ha' : a'.length = n * 2) (hb' : b'.length = n * 2) (h : xorBits a a' = xorBits b b') (r : GarbleRand) :
    otherDraws (thrCircuit n D T) (bitsNat a) (bitsNat a') r = otherDraws (thrCircuit n D T) (bitsNat b) (bitsNat b') r := by
  unfold otherDraws
  refine congrArg (GarbleRand.mk r.delta) (funext fun i => ?_)
  by_cases hi : i < n * 2
  · have hdom : (thrCircuit n D T).inputDomains[i]? = some 2 := by
      show (List.replicate (n * 2) 2)[i]? = some 2
      rw [List.getElem?_replicate, if_pos hi]
    have hx : (a[i] ^^ a'[i]) = (b[i] ^^ b'[i]) := by
      have := congrArg (·[i]?) h
      simp only [xorBits] at this
      rw [List.getElem?_eq_getElem (by simp; omega), List.getElem?_eq_getElem (by simp; omega)] at this
      simpa using this
    have e : ((bitsNat a).getD i 0 + (2 - (bitsNat a').getD i 0)) % 2 = ((bitsNat b).getD i 0 + (2 - (bitsNat b').getD i 0)) % 2 := by
      simp only [bitsNat, List.getD, List.getElem?_map]
      rw [List.getElem?_eq_getElem (by omega), List.getElem?_eq_getElem (by omega), List.getElem?_eq_getElem (by omega),
        List.getElem?_eq_getElem (by omega)]
      simp only [Option.map_some, Option.getD_some]
      revert hx
      generalize a[i] = x; generalize a'[i] = x'; generalize b[i] = y; generalize b'[i] = y'
      cases x <;> cases x' <;> cases y <;> cases y' <;> simp
    rw [hdom]
    cases garbleDeltas r (thrCircuit n D T) with
    | error _ => rfl
    | ok dl =>
      dsimp only
      rw [e]
  · have hdom : (thrCircuit n D T).inputDomains[i]? = none := by
      show (List.replicate (n * 2) 2)[i]? = none
      rw [List.getElem?_replicate, if_neg hi]
    rw [hdom]

theorem pick_get {z : List (Wire × Wire)} {bits : List Bool} {i : Nat} {w : Wire × Wire} {b : Bool} (h : z[i]? = some w)
    (h' : bits[i]? = some b) : (pick z bits)[i]? = some (if b then w.2 else w.1) := by
  unfold pick
  rw [List.getElem?_zipWith, h, h']

/-- The labels of both values of a wire, in the other order where the bits differ. -/
theorem labels_other (E : Env) (rnd : GarbleRand) {a a' : List Bool} {n D T : Nat} (ha : a.length = n) (ha' : a'.length = n)
    (hp : 0 < n) (hD : GoodDomain D) :
    ∃ (run run' : GarbleRun) (z z' : List (Wire × Wire)) (d : DecodingKey),
      garbleBinary E rnd (thrCircuit n D T) = .ok (⟨thrCircuit n D T, run.state.f, run.state.fHalf⟩, z, d) ∧
      garbleBinary E (otherDraws (thrCircuit n D T) (bitsNat (a ++ a)) (bitsNat (a' ++ a')) rnd)
        (thrCircuit n D T) = .ok (⟨thrCircuit n D T, run'.state.f, run'.state.fHalf⟩, z', d) ∧
      run'.state.f = run.state.f ∧ run'.state.fHalf = run.state.fHalf ∧
      z.length = n * 2 ∧ z'.length = n * 2 ∧ pick (z'.take n) a' = pick (z.take n) a ∧
      bytePairs (z'.drop n) = swapWhere (xorBits a a') (bytePairs (z.drop n)) := by
  have hxl : (xorBits a a').length = n := by simp [xorBits, ha, ha']
  have part : ∀ b : List Bool, b.length = n → ∃ (run run' : GarbleRun) (z z' : List (Wire × Wire)) (d : DecodingKey),
      garbleBinary E rnd (thrCircuit n D T) = .ok (⟨thrCircuit n D T, run.state.f, run.state.fHalf⟩, z, d) ∧
      garbleBinary E (otherDraws (thrCircuit n D T) (bitsNat (a ++ a)) (bitsNat (a' ++ a')) rnd)
        (thrCircuit n D T) = .ok (⟨thrCircuit n D T, run'.state.f, run'.state.fHalf⟩, z', d) ∧
      run'.state.f = run.state.f ∧ run'.state.fHalf = run.state.fHalf ∧
      z.length = n * 2 ∧ z'.length = n * 2 ∧ pick (z'.take n) a' = pick (z.take n) a ∧
      pick (z'.drop n) (xorBits (xorBits a a') b) = pick (z.drop n) b := by
    intro b hb
    have hbl : (xorBits (xorBits a a') b).length = n := by simp [xorBits, ha, ha', hb]
    have hx1 : xorBits a b = xorBits a' (xorBits (xorBits a a') b) := by
      apply List.ext_getElem
      · simp [xorBits]; omega
      · intro i h1 h2
        have hi : i < n := by simp [xorBits] at h1; omega
        simp only [xorBits, List.getElem_zipWith]
        generalize a[i]'(by omega) = x; generalize a'[i]'(by omega) = y; generalize b[i]'(by omega) = u
        cases x <;> cases y <;> cases u <;> rfl
    have hx2 : xorBits (a ++ b) (a' ++ xorBits (xorBits a a') b) = xorBits (a ++ a) (a' ++ a') := by
      unfold xorBits
      rw [List.zipWith_append (by omega), List.zipWith_append (by omega)]
      refine congrArg _ ?_
      apply List.ext_getElem
      · simp; omega
      · intro i h1 h2
        have hi : i < n := by simp at h1; omega
        simp only [List.getElem_zipWith]
        generalize a[i]'(by omega) = x; generalize a'[i]'(by omega) = y; generalize b[i]'(by omega) = u
        cases x <;> cases y <;> cases u <;> rfl
    obtain ⟨run, run', z, z', d, K, K', a1, b1, a3, b3, e1, e2, a5, b5, a6, b6, a7, hpk, a8⟩ :=
      half_other (T := T) E rnd ha hb ha' hbl hp hD hx1
    rw [otherDraws_bits (by simp; omega) (b := a ++ a) (b' := a' ++ a') (by simp; omega) (by simp; omega) (by simp; omega) hx2] at b3
    have hpa := pick_append (z := z) (a := a) (b := b) (by rw [List.length_append]; omega)
    have hpa' := pick_append (z := z') (a := a') (b := xorBits (xorBits a a') b) (by rw [List.length_append]; omega)
    rw [ha] at hpa
    rw [ha'] at hpa'
    rw [← hpa, ← hpa'] at hpk
    have hq := List.append_inj hpk (by rw [pick_length (by simp; omega), pick_length (by simp; omega)]; simp; omega)
    exact ⟨run, run', z, z', d, a3, b3, e1, e2, a5, b5, hq.1, hq.2⟩
  obtain ⟨run, run', z, z', d, a3, b3, e1, e2, a5, b5, hq, -⟩ := part a ha
  refine ⟨run, run', z, z', d, a3, b3, e1, e2, a5, b5, hq, ?_⟩
  have key : ∀ b : List Bool, b.length = n → pick (z'.drop n) (xorBits (xorBits a a') b) = pick (z.drop n) b := by
    intro b hb
    obtain ⟨run2, run2', y, y', d2, c3, c3', -, -, -, -, -, h⟩ := part b hb
    rw [a3] at c3
    rw [b3] at c3'
    have h1 := congrArg (fun t => t.2.1) (Except.ok.inj c3)
    have h2 := congrArg (fun t => t.2.1) (Except.ok.inj c3')
    simp only at h1 h2
    rw [h1, h2]
    exact h
  apply List.ext_getElem?
  intro i
  by_cases hi : i < n
  · obtain ⟨w, hw⟩ : ∃ w, (z.drop n)[i]? = some w := ⟨_, List.getElem?_eq_getElem (by simp; omega)⟩
    obtain ⟨w', hw'⟩ : ∃ w, (z'.drop n)[i]? = some w := ⟨_, List.getElem?_eq_getElem (by simp; omega)⟩
    obtain ⟨x, hx⟩ : ∃ x, (xorBits a a')[i]? = some x := ⟨_, List.getElem?_eq_getElem (by omega)⟩
    have both : ∀ u : Bool, (if (x ^^ u) then w'.2 else w'.1) = (if u then w.2 else w.1) := by
      intro u
      have hu : (List.replicate n u)[i]? = some u := by rw [List.getElem?_replicate, if_pos hi]
      have := congrArg (·[i]?) (key (List.replicate n u) (by simp))
      rw [pick_get hw hu, pick_get hw' (b := x ^^ u) (by
        unfold xorBits at hx ⊢
        rw [List.getElem?_zipWith, hx, hu])] at this
      exact Option.some.inj this
    have h0 := both false
    have h1 := both true
    unfold swapWhere bytePairs
    rw [List.getElem?_zipWith, hx, List.getElem?_map, List.getElem?_map, hw, hw']
    cases x
    · simp at h0 h1
      simp [h0, h1]
    · simp at h0 h1
      simp [h0, h1]
  · rw [List.getElem?_eq_none (by simp [bytePairs]; omega), List.getElem?_eq_none (by simp [bytePairs, swapWhere]; omega)]

/-- The garbling party with another password. -/
theorem garbler_other (E : Env) (rnd : GarbleRand) (ord : MapOrder) (S : List (Bytes × Bytes) → Proc Unit) (p p' : Bytes)
    (t n D T : Nat) (hn : n = 8 * p.length) (hl' : p'.length = p.length) (hp : 0 < p.length)
    (hbuild : buildCircuit E.dbg n t = .ok (thrCircuit n D T)) (hD : GoodDomain D) :
    halfGarbler E (otherDraws (thrCircuit n D T) (bitsNat (bitsOf p ++ bitsOf p)) (bitsNat (bitsOf p' ++ bitsOf p')) rnd) ord
      S p' t = halfGarbler E rnd ord (fun msgs => S (swapWhere (xorBits (bitsOf p) (bitsOf p')) msgs)) p t := by
  have hpl : (u8VecToBoolVec p).length = n := by rw [unpack_length, hn]
  have hpl' : (u8VecToBoolVec p').length = n := by rw [unpack_length, hn, hl']
  rw [← bitsOf_unpack, ← bitsOf_unpack]
  obtain ⟨run, run', z, z', d, a3, b3, e1, e2, a5, b5, hq, hs⟩ := labels_other (T := T) E rnd hpl hpl' (by omega) hD
  unfold halfGarbler
  dsimp only
  rw [hpl, hpl', hbuild, liftM_ok, ret_bind, ret_bind, a3, b3, liftM_ok, liftM_ok, ret_bind, ret_bind]
  dsimp only
  have htake : ∀ z : List (Wire × Wire), (z.drop 0).take (n - 0) = z.take n := by simp
  have hdrop : ∀ z : List (Wire × Wire), (z.drop n).take (z.length - n) = z.drop n :=
    fun z => List.take_of_length_le (by simp)
  rw [sliceR_ok (by omega) (by omega), liftM_ok, ret_bind, sliceR_ok (by omega) (by omega), liftM_ok, ret_bind,
    sliceR_ok (by omega) (by omega), liftM_ok, ret_bind, sliceR_ok (by omega) (by omega), liftM_ok, ret_bind, htake, htake,
    hdrop, hdrop, unzipped_encode (by simp; omega), unzipped_encode (by simp; omega), hq, e1, e2, hs]

/-- What has been recorded says which bits differ. -/
theorem recorder_reads (C : Curve) (X : Crypto) {g : GarblerDraws} {o : OTRecv} (hg : g.Valid) (ho : o.Valid) {p q : Bytes}
    {t : Nat} (hlen : GoodLength p.length) (hl : q.length = p.length) (ht : t < 65535) {k : WireBytes} {v : Held}
    (h : Completes (HalfKey.garbler C X g p t) (recorder X.toEnv (o.run C X) q) k v) :
    xorBits (bitsOf p) (bitsOf q) = (List.range (8 * p.length)).map fun i =>
      colourAt v.theirs i ^^ colourAt v.ours i ^^ ((firstRow v.gc (3 * (8 * p.length) + i)).color == 0) := by
  obtain ⟨k1, k2, -, h2⟩ := curious_good C X hg ho hlen hl ht
  have hcur : curious X.toEnv (o.run C X) q = (do
      let v ← recorder X.toEnv (o.run C X) q
      return (v.key, othersBits (8 * p.length) v.gc v.theirs v.ours (bitsOf q))) := by
    have e : (u8VecToBoolVec q).length = 8 * p.length := by rw [unpack_length, hl]
    unfold curious recorder
    simp only [bindP_assoc, bitsOf_unpack]
    rw [← bitsOf_unpack, e]
    rfl
  rw [hcur] at h2
  have h3 := h.ends.bindR (k := fun v : Held => Proc.ret (v.key, othersBits (8 * p.length) v.gc v.theirs v.ours (bitsOf q))) rfl
  have h4 : othersBits (8 * p.length) v.gc v.theirs v.ours (bitsOf q) = bitsOf p :=
    congrArg Prod.snd (h3.completes.unique h2.completes).2
  rw [← h4]
  apply List.ext_getElem
  · simp [othersBits, xorBits, bitsOf, hl]
  · intro i h5 h6
    have hi : i < 8 * p.length := by simpa using h6
    have hq : i < (bitsOf q).length := by simp [bitsOf, hl]; exact hi
    simp only [othersBits, xorBits, List.getElem_zipWith, List.getElem_map, List.getElem_range, List.getD,
      List.getElem?_eq_getElem hq, Option.getD_some]
    generalize (bitsOf q)[i] = y
    generalize colourAt v.theirs i = a
    generalize colourAt v.ours i = b
    generalize ((firstRow v.gc (3 * (8 * p.length) + i)).color == 0) = d
    cases y <;> cases a <;> cases b <;> cases d <;> rfl

end FP
