import Verif.Spec.Fpake
import Verif.Proof.Post
import Verif.Proof.ApricotRun
import Verif.Props.Keys
import Verif.Props.Apricot
/-
Half keys: garbling side and evaluating side.
-/
namespace FP
open Spec

/-- Of each pair of labels the one for the given bit. -/
def pick (z : List (Wire × Wire)) (bits : List Bool) : List Wire :=
  List.zipWith (fun p (b : Bool) => if b then p.2 else p.1) z bits

theorem pick_length {z : List (Wire × Wire)} {bits : List Bool} (h : bits.length = z.length) :
    (pick z bits).length = z.length := by simp [pick, h]

theorem unzipped_encode {z : List (Wire × Wire)} {bits : List Bool} (h : bits.length = z.length) :
    (BinaryEncodingKey.unzipped z).encode bits = .ok (pick z bits) := by
  unfold BinaryEncodingKey.encode BinaryEncodingKey.unzipped
  simp only [List.unzip_eq_map, List.length_map, h, beq_self_eq_true, assertR, if_true, okb]
  obtain ⟨ys, hys, hf⟩ := mapM_exists (l := bits.zipIdx)
    (f := fun p : Bool × Nat => if p.1 then idxR (z.map Prod.snd) p.2 else idxR (z.map Prod.fst) p.2)
    (P := fun p y => ∃ w, z[p.2]? = some w ∧ y = if p.1 then w.2 else w.1) (by
      rintro ⟨b, i⟩ hp
      have hi := List.mem_zipIdx_iff_getElem?.mp hp
      have hi' : i < z.length := by rw [← h]; exact (List.getElem?_eq_some_iff.mp hi).1
      cases b
      · refine ⟨z[i].1, ?_, _, List.getElem?_eq_getElem hi', rfl⟩
        simp only [Bool.false_eq_true, if_false]
        exact idxR_ok (by rw [List.getElem?_map, List.getElem?_eq_getElem hi']; rfl)
      · refine ⟨z[i].2, ?_, _, List.getElem?_eq_getElem hi', rfl⟩
        simp only [if_true]
        exact idxR_ok (by rw [List.getElem?_map, List.getElem?_eq_getElem hi']; rfl))
  refine hys.trans ?_
  congr 1
  apply List.ext_getElem
  · rw [← hf.length_eq, pick_length h]; simp [h]
  · intro i h1 h2
    have hb : i < bits.length := by rw [← hf.length_eq] at h1; simpa using h1
    have := List.Forall₂.get hf (i := i) (by simpa using hb) h1
    simp only [List.get_eq_getElem, List.getElem_zipIdx, Nat.zero_add] at this
    obtain ⟨w, e1, e2⟩ := this
    have hk : i < z.length := by omega
    rw [List.getElem?_eq_getElem hk] at e1
    injection e1 with e1
    simp [pick, e2, ← e1]

/-- Garbling a circuit with binary inputs and one binary output: the key of the garbler, and the labels of
an evaluator. -/
theorem half_detail (E : Env) (rnd : GarbleRand) {c : Circuit} (hc : WellTyped c)
    (hbin : ∀ d ∈ c.inputDomains, d = 2) (hpos : 0 < c.numInputs) (hone : c.numOutputs = 1)
    (hdom : (c.inputDomains ++ c.gates.map Gate.outputDomain)[c.numWires - 1]? = some 2) :
    ∃ run z d zl w1, garbleRun E rnd c = .ok run ∧ RunOK E c run ∧
      garbleBinary E rnd c = .ok (⟨c, run.state.f, run.state.fHalf⟩, z, d) ∧ z.length = c.numInputs ∧
      (∀ p ∈ z, p.1.domain = .binary ∧ p.2.domain = .binary) ∧
      outputKey d = .ok (hashOut E (c.numWires - 1) 1 w1) ∧
      run.state.wires[c.numWires - 1]? = some zl ∧ IsLabel 2 zl ∧ Carries run.delta 2 zl 1 w1 ∧
      ∀ bits : List Bool, bits.length = c.numInputs → InputOK c (bitsNat bits) ∧
        (pick z bits).length = c.numInputs ∧
        ∀ (i m : Nat), c.inputDomains[i]? = some m → ∃ zi w v, run.encWires[i]? = some zi ∧
          (pick z bits)[i]? = some w ∧ (bitsNat bits)[i]? = some v ∧ Carries run.delta m zi v w := by
  obtain ⟨run, hrun, hok⟩ := garbleRun_ok E rnd hc
  have hg : garble E rnd c = .ok (⟨c, run.state.f, run.state.fHalf⟩, ⟨run.encWires, run.delta⟩,
      ⟨run.state.d, run.outputsStartAt⟩) := by unfold garble; rw [hrun, okb, purek]
  obtain ⟨gc', e', d', hg', hel, hbk⟩ := Props.C08_garble_binary E rnd c hc hbin hpos
  rw [hg] at hg'
  injection hg' with hg'
  injection hg' with _ hg'
  injection hg' with hg' _
  subst hg'
  obtain ⟨bk, hofk, henc, -, z, hz, huz⟩ := Props.C08_binary_key E.dbg _ hbk
  obtain ⟨hst, m, zl, δ, hs, hm, hzl, hlab, hmpos, hδ, hδi, hd, hhs, hrow⟩ :=
    outInfo E rnd hc hrun 0 (by omega)
  rw [hone, Nat.add_zero] at hm hzl hrow
  rw [hdom] at hm
  injection hm with hm
  subst hm
  have hwires : 0 < c.numWires := by have := hc.wires; omega
  obtain ⟨w1, hw1, hh1⟩ := hrow 1 (by omega)
  have hbz : ∀ p ∈ z, p.1.domain = .binary ∧ p.2.domain = .binary := by
    have h1 : bk.zeros = run.encWires ∧ ∀ w ∈ bk.ones, w.domain = .binary := by
      obtain ⟨hw, δ2, hδ2, hδd⟩ := hbk
      have hones : run.encWires.mapM (fun w => Wire.add E.dbg w δ2) = .ok (run.encWires.map (oneLabel · δ2)) :=
        mapM_ok fun w hw' => bin_add E.dbg (hw w hw') hδd
      have hall : (run.encWires.all fun w => w.dom == 2) = true := by
        rw [List.all_eq_true]; intro w hw'; simp [bin_dom (hw w hw')]
      simp only [BinaryEncodingKey.ofKey, hall, assertR, if_true, okb, HMap.getR_ok hδ2, hones, purek] at hofk
      injection hofk with hofk
      rw [← hofk]
      refine ⟨rfl, fun w hw' => ?_⟩
      obtain ⟨_, _, rfl⟩ := List.mem_map.mp hw'
      rfl
    intro p hp
    rw [← huz] at h1
    simp only [BinaryEncodingKey.unzipped, List.unzip_eq_map] at h1
    refine ⟨hbk.wires _ ?_, h1.2 _ (List.mem_map_of_mem hp)⟩
    show p.1 ∈ run.encWires
    rw [← h1.1]
    exact List.mem_map_of_mem hp
  have hzlen : z.length = c.numInputs := by
    obtain ⟨x, hx1, hx2⟩ := henc (List.replicate run.encWires.length false) (by simp)
    have h0 := hok.enc
    by_contra hne
    rw [← huz] at hx1
    unfold BinaryEncodingKey.encode BinaryEncodingKey.unzipped at hx1
    simp only [List.unzip_eq_map, List.length_map, List.length_replicate] at hx1
    have : (run.encWires.length == z.length) = false := by simp; omega
    rw [this] at hx1
    cases hx1
  refine ⟨run, z, ⟨run.state.d, run.outputsStartAt⟩, zl, w1, hrun, hok, ?_, hzlen, hbz, ?_, hzl, hlab, hw1, ?_⟩
  · unfold garbleBinary
    rw [hg, okb]
    simp only [hofk, okb, hz, purek]
  · unfold outputKey
    simp only [idxR_ok hd, okb, idxR_ok hh1]
  · intro bits hb
    have hin : InputOK c (bitsNat bits) := by
      unfold InputOK
      have hl : bits.length = c.inputDomains.length := by rw [hc.inputs]; exact hb
      clear hc hdom henc hrow hok hrun hg hbk
      generalize c.inputDomains = ds at hbin hl
      induction ds generalizing bits with
      | nil => rw [List.length_eq_zero_iff.mp hl]; exact .nil
      | cons d ds ih =>
        cases bits with
        | nil => simp at hl
        | cons b bits =>
          refine .cons ?_ ?_
          · rw [hbin d (by simp)]; cases b <;> decide
          · clear hzlen hone hwires hb hpos hel hst
            have : ∀ (ds : List Nat) (bits : List Bool), (∀ d ∈ ds, d = 2) → bits.length = ds.length →
                List.Forall₂ (· < ·) (bitsNat bits) ds := by
              intro ds
              induction ds with
              | nil => intro bits _ h; rw [List.length_eq_zero_iff.mp h]; exact .nil
              | cons d ds ih =>
                intro bits h1 h2
                cases bits with
                | nil => simp at h2
                | cons b bits =>
                  refine .cons ?_ (ih bits (fun d hd => h1 d (by simp [hd])) (by simpa using h2))
                  rw [h1 d (by simp)]; cases b <;> decide
            exact this ds bits (fun d hd => hbin d (by simp [hd])) (by simpa using hl)
    obtain ⟨X, hX, hXl, hXi⟩ := encode_ok hc hok hin
    have hpick : pick z bits = X := by
      obtain ⟨X', h1, h2⟩ := henc bits (by rw [hb]; exact hok.enc.symm)
      rw [hX] at h2
      injection h2 with h2
      rw [← huz, unzipped_encode (by rw [hb, hzlen])] at h1
      injection h1 with h1
      rw [h1, h2]
    rw [hpick]
    exact ⟨hin, hXl, hXi⟩

/-- Garbling a circuit with binary inputs and one binary output, and what an evaluator holding one
label per input derives. -/
theorem half_key (E : Env) (rnd : GarbleRand) {c : Circuit} (hc : WellTyped c)
    (hbin : ∀ d ∈ c.inputDomains, d = 2) (hpos : 0 < c.numInputs) (hone : c.numOutputs = 1)
    (hdom : (c.inputDomains ++ c.gates.map Gate.outputDomain)[c.numWires - 1]? = some 2) :
    ∃ run z d K, garbleRun E rnd c = .ok run ∧
      garbleBinary E rnd c = .ok (⟨c, run.state.f, run.state.fHalf⟩, z, d) ∧ z.length = c.numInputs ∧
      (∀ p ∈ z, p.1.domain = .binary ∧ p.2.domain = .binary) ∧ outputKey d = .ok K ∧
      ∀ bits : List Bool, bits.length = c.numInputs →
        ∃ K', evaluatedKey E ⟨c, run.state.f, run.state.fHalf⟩ (pick z bits) = .ok K' ∧
          (meaning c (bitsNat bits) = [1] → K' = K) ∧
          (meaning c (bitsNat bits) = [0] → NoCollision E run → K' ≠ K) := by
  obtain ⟨run, z, d, zl, w1, hrun, hok, hgb, hzlen, hbz, hK, hzl, hlab, hw1, henc⟩ := half_detail E rnd hc hbin hpos hone hdom
  refine ⟨run, z, d, _, hrun, hgb, hzlen, hbz, hK, fun bits hb => ?_⟩
  obtain ⟨hin, hXl, hXi⟩ := henc bits hb
  have hwires : 0 < c.numWires := by have := hc.wires; omega
  have hst := hok.start
  obtain ⟨Z, hZ, hZl, hZi⟩ := evaluate_ok hc hok hin hXl hXi
  obtain ⟨m', z', W, v, hm', hz', hW, hv, hcar⟩ := hZi 0 (by omega)
  rw [hst, hone, Nat.add_zero] at hm' hz'
  rw [hdom] at hm'
  injection hm' with hm'
  subst hm'
  rw [hzl] at hz'
  injection hz' with hz'
  subst hz'
  obtain ⟨δ, hδ, hδi⟩ : DeltaOK run.delta 2 := by
    have hi := hc.inputs
    obtain ⟨d, hd⟩ : ∃ d, c.inputDomains[0]? = some d := ⟨_, List.getElem?_eq_getElem (by omega)⟩
    have := hbin d (List.mem_of_getElem? hd)
    subst this
    exact hok.deltas 2 (hc.inputGood 2 (List.mem_of_getElem? hd)).2
  refine ⟨hashOut E (c.numWires - 1) 1 W, ?_, ?_, ?_⟩
  · unfold evaluatedKey
    rw [hZ, okb]
    simp only [subR, show 1 ≤ c.numWires from hwires, if_true, okb, idxR_ok hW, purek]
  · intro hmean
    rw [hmean] at hv
    injection hv with hv
    subst hv
    rw [label_ext hcar.lab hw1.lab fun i => by rw [hcar.eq δ hδ, hw1.eq δ hδ]]
  · intro hmean hnc heq
    rw [hmean] at hv
    injection hv with hv
    subst hv
    have hWw := hnc (c.numWires - 1) 2 0 1 W w1 1
      ⟨zl, δ, hzl, hlab.dom, hδ, by decide, hcar.labelOf hδ⟩
      ⟨zl, δ, hzl, hlab.dom, hδ, by decide, hw1.labelOf hδ⟩ heq
    subst hWw
    have := carries_inj hδi hδ hcar hw1
    omega

theorem thr_last (n D T : Nat) :
    ((thrCircuit n D T).inputDomains ++ (thrCircuit n D T).gates.map Gate.outputDomain)[(thrCircuit n D T).numWires - 1]?
      = some 2 := by
  have hx : ((xorGates n).map Gate.outputDomain).length = n := by simp [xorGates]
  have hl : ((List.range n).map fun i =>
      (⟨i + 2 * n + n, 2, [i + 2 * n], .proj (.map D)⟩ : Gate)).length = n := by simp
  show (List.replicate (n * 2) 2 ++ (xorGates n ++ tailGates (2 * n) n D T).map Gate.outputDomain)[4 * n + 2 - 1]? = some 2
  rw [List.getElem?_append_right (by simp; omega), List.length_replicate, List.map_append,
    List.getElem?_append_right (by rw [hx]; omega), hx]
  unfold tailGates
  rw [List.map_append, List.getElem?_append_right (by simp; omega)]
  have : 4 * n + 2 - 1 - n * 2 - n - (List.map Gate.outputDomain (List.map
      (fun i => (⟨i + 2 * n + n, 2, [i + 2 * n], .proj (.map D)⟩ : Gate)) (List.range n))).length = 1 := by
    simp; omega
  rw [this]
  simp [Gate.outputDomain, ProjKind.dom]

theorem labelsOf_ok (dbg : Bool) {ws : List Wire} (h : ∀ w ∈ ws, w.domain = .binary) :
    labelsOf dbg (ws.map Wire.bytes) = .ok ws := by
  unfold labelsOf
  induction ws with
  | nil => rfl
  | cons w ws ih =>
    have hw := h w (by simp)
    rw [List.map_cons, List.mapM_cons, show w.bytes = w.values.toList from rfl, toArray32_toList, okb]
    have : Wire.fromArray dbg w.values .binary = .ok w := by
      unfold Wire.fromArray
      cases w
      simp only at hw
      subst hw
      rfl
    rw [this, okb, ih fun w hw => h w (by simp [hw]), okb, purek]

theorem pick_append {z : List (Wire × Wire)} {a b : List Bool} (h : (a ++ b).length = z.length) :
    pick (z.take a.length) a ++ pick (z.drop a.length) b = pick z (a ++ b) := by
  unfold pick
  conv_rhs => rw [← List.take_append_drop a.length z]
  rw [List.zipWith_append (by simp at h ⊢; omega)]

theorem chosen_bytePairs (z : List (Wire × Wire)) (b : List Bool) :
    chosen (bytePairs z) b = (pick z b).map Wire.bytes := by
  unfold chosen bytePairs pick
  rw [List.zipWith_map_left, List.map_zipWith]
  congr 1
  funext p c
  split <;> rfl

theorem pick_binary {z : List (Wire × Wire)} (h : ∀ p ∈ z, p.1.domain = .binary ∧ p.2.domain = .binary)
    (b : List Bool) : ∀ w ∈ pick z b, w.domain = .binary := by
  unfold pick
  induction z generalizing b with
  | nil => simp
  | cons p z ih =>
    cases b with
    | nil => simp
    | cons c b =>
      intro w hw
      rw [List.zipWith_cons_cons, List.mem_cons] at hw
      rcases hw with rfl | hw
      · have := h p (by simp)
        split <;> simp [this]
      · exact ih (fun p hp => h p (by simp [hp])) b w hw

theorem binary_fits {w : Wire} (h : w.domain = .binary) : w.Fits := by
  unfold Wire.Fits; rw [h]; trivial

/-- Receiving a garbled circuit gives one that evaluates alike. -/
theorem evaluatedKey_congr (E : Env) {gc gc' : GarbledCircuit} (hc : gc'.circuit = gc.circuit)
    (h : ∀ x, evaluate E gc' x = evaluate E gc x) (x : List Wire) : evaluatedKey E gc' x = evaluatedKey E gc x := by
  unfold evaluatedKey; rw [h, hc]

/-- The messages of one direction, given what garbling and evaluating give. -/
theorem half_conn (E : Env) (rnd : GarbleRand) (ord : MapOrder) (hord : ord.Valid)
    {S : List (Bytes × Bytes) → Proc Unit} {V : List Bool → Proc (List Bytes)} (p q : Bytes) (t n D T : Nat)
    (hn : n = 8 * p.length) (hl : q.length = p.length) (hfit : 4 * n + 2 < 2 ^ 64)
    (hbuild : buildCircuit E.dbg n t = .ok (thrCircuit n D T)) (hDl : D < 65536) (hT : T < 65536)
    (hot : CorrectOT 32 n S V) {run : GarbleRun} {z : List (Wire × Wire)} {d : DecodingKey} {K K' : WireBytes}
    (hrun : garbleRun E rnd (thrCircuit n D T) = .ok run)
    (hgb : garbleBinary E rnd (thrCircuit n D T) = .ok (⟨thrCircuit n D T, run.state.f, run.state.fHalf⟩, z, d))
    (hzl : z.length = n * 2) (hzb : ∀ p ∈ z, p.1.domain = .binary ∧ p.2.domain = .binary) (hK : outputKey d = .ok K)
    (hK' : evaluatedKey E ⟨thrCircuit n D T, run.state.f, run.state.fHalf⟩ (pick z (u8VecToBoolVec p ++ u8VecToBoolVec q)) = .ok K') :
    Ends (halfGarbler E rnd ord S p t) (halfEvaluator E V q) K K' := by
  have hpl : (u8VecToBoolVec p).length = n := by rw [unpack_length, hn]
  have hql : (u8VecToBoolVec q).length = n := by rw [unpack_length, hn, hl]
  have hfits := thr_fits (n := n) hDl hT hfit
  have hgf : GarbledFits (thrCircuit n D T) (ord.f run.state.f) (ord.h run.state.fHalf) :=
    garble_fits hrun hfits.1 hfits.2 (hord.f _) (hord.h _)
  obtain ⟨gc', hgc, hgc1, hgc2⟩ : ∃ gc', deserializeGarbled (sendGarbled ord ⟨thrCircuit n D T, run.state.f, run.state.fHalf⟩) = .ok gc' ∧
      gc'.circuit = thrCircuit n D T ∧
      ∀ x, evaluate E gc' x = evaluate E ⟨thrCircuit n D T, run.state.f, run.state.fHalf⟩ x :=
    ⟨_, deserializeGarbled_ok hgf, rfl, evaluate_congr E rfl (iteration_lookup (hord.f _)) (iteration_lookup (hord.h _))⟩
  unfold halfGarbler halfEvaluator
  dsimp only
  rw [hpl, hbuild, liftM_ok, ret_bind, hgb, liftM_ok, ret_bind]
  dsimp only
  rw [sliceR_ok (by omega) (by omega), liftM_ok, ret_bind, sliceR_ok (by omega) (by omega), liftM_ok, ret_bind]
  have htake : (z.drop 0).take (n - 0) = z.take n := by simp
  have hdrop : (z.drop n).take (z.length - n) = z.drop n := List.take_of_length_le (by simp)
  rw [htake, hdrop]
  have hown : (z.take n).length = n := by rw [List.length_take]; omega
  have hth : (z.drop n).length = n := by rw [List.length_drop]; omega
  refine .bind (hot (bytePairs (z.drop n)) (u8VecToBoolVec q) (by simp [bytePairs]; omega) hql ?_).ends ?_
  · intro m hm
    obtain ⟨w, -, rfl⟩ := List.mem_map.mp hm
    simp [Wire.bytes]
  rw [chosen_bytePairs, labelsOf_ok E.dbg (pick_binary (fun p hp => hzb p (List.mem_of_mem_drop hp)) _), liftM_ok, ret_bind,
    sendP_bind, recvP_bind]
  refine .sendRecv ?_
  have hpb := pick_binary (fun p hp => hzb p (List.mem_of_mem_take hp)) (z := z.take n) (u8VecToBoolVec p)
  rw [hgc, liftM_ok, ret_bind, unzipped_encode (by omega), liftM_ok, ret_bind, sendP_bind, recvP_bind]
  refine .sendRecv ?_
  rw [deserialize_ok wires_rt ⟨by rw [pick_length (by omega)]; omega, fun w hw => binary_fits (hpb w hw)⟩, liftM_ok, ret_bind]
  have hpa := pick_append (z := z) (a := u8VecToBoolVec p) (b := u8VecToBoolVec q) (by rw [List.length_append]; omega)
  rw [hpl] at hpa
  rw [hpa, hK, evaluatedKey_congr E hgc1 hgc2, hK']
  exact .ret _ _

theorem half_ends (E : Env) (rnd : GarbleRand) (ord : MapOrder) (hord : ord.Valid)
    {S : List (Bytes × Bytes) → Proc Unit} {V : List Bool → Proc (List Bytes)} (p q : Bytes) (t n D T : Nat)
    (hn : n = 8 * p.length) (hl : q.length = p.length) (hp : 0 < p.length) (hfit : 4 * n + 2 < 2 ^ 64)
    (hbuild : buildCircuit E.dbg n t = .ok (thrCircuit n D T)) (hD : GoodDomain D) (hT : T < 65536)
    (hot : CorrectOT 32 n S V) :
    ∃ run k k', garbleRun E rnd (thrCircuit n D T) = .ok run ∧
      Ends (halfGarbler E rnd ord S p t) (halfEvaluator E V q) k k' ∧
      (meaning (thrCircuit n D T) (bitsNat (u8VecToBoolVec p ++ u8VecToBoolVec q)) = [1] → k' = k) ∧
      (meaning (thrCircuit n D T) (bitsNat (u8VecToBoolVec p ++ u8VecToBoolVec q)) = [0] →
        NoCollision E run → k' ≠ k) := by
  have hpl : (u8VecToBoolVec p).length = n := by rw [unpack_length, hn]
  have hql : (u8VecToBoolVec q).length = n := by rw [unpack_length, hn, hl]
  have hDl : D < 65536 := by unfold GoodDomain at hD; omega
  obtain ⟨run, z, d, K, hrun, hgb, hzl, hzb, hK, hev⟩ := half_key E rnd
    (thr_typedD (T := T) (show 0 < n by omega) good2 hD)
    (by intro d hd; exact (List.mem_replicate.mp hd).2) (by show 0 < n * 2; omega) rfl (thr_last n D T)
  change z.length = n * 2 at hzl
  obtain ⟨K', hK', h1, h0⟩ := hev (u8VecToBoolVec p ++ u8VecToBoolVec q) (by
    rw [List.length_append, hpl, hql]; show n + n = n * 2; omega)
  exact ⟨run, K, K', hrun, half_conn E rnd ord hord p q t n D T hn hl hfit hbuild hDl hT hot hrun hgb hzl hzb hK hK', h1, h0⟩

theorem hamming_count (a b : List Bool) (h : a.length = b.length) :
    hamming a b = (List.range a.length).countP fun i => a.getD i false != b.getD i false := by
  induction a generalizing b with
  | nil => rfl
  | cons x a ih =>
    cases b with
    | nil => simp at h
    | cons y b =>
      rw [hamming, ih b (by simpa using h), List.length_cons, List.range_succ_eq_map, List.countP_cons, List.countP_map]
      have : (List.countP ((fun i => (x :: a).getD i false != (y :: b).getD i false) ∘ Nat.succ) (List.range a.length))
        = List.countP (fun i => a.getD i false != b.getD i false) (List.range a.length) := rfl
      rw [this]
      cases x <;> cases y <;> simp <;> omega

theorem unpack_bitAt (p : Bytes) (i : Nat) : (u8VecToBoolVec p).getD i false = bitAt p i := by
  have := unpack_get p (i / 8) (i % 8) (Nat.mod_lt _ (by omega))
  rw [Nat.div_add_mod] at this
  rw [List.getD_eq_getElem?_getD, this]
  unfold bitAt
  rw [List.getD_eq_getElem?_getD]
  cases p[i / 8]? <;> simp

theorem bitDistance_eq (p q : Bytes) (h : q.length = p.length) :
    hamming (u8VecToBoolVec p) (u8VecToBoolVec q) = bitDistance p q := by
  rw [hamming_count _ _ (by rw [unpack_length, unpack_length, h]), unpack_length]
  unfold bitDistance
  simp only [unpack_bitAt]

theorem bitDistance_comm (p q : Bytes) (h : q.length = p.length) : bitDistance p q = bitDistance q p := by
  unfold bitDistance
  rw [h]
  congr 1
  funext i
  cases bitAt p i <;> cases bitAt q i <;> rfl

theorem goodLength {len : Nat} (h : GoodLength len) : 0 < len ∧ 8 * len < 65535 ∧ GoodDomain (8 * len + 1) := by
  unfold GoodLength at h
  unfold GoodDomain
  omega

/-- The transfer of src/fpake.rs is correct. -/
theorem ot_correct (C : Curve) (X : Crypto) {s : OTSend} {r : OTRecv} (hs : s.Valid) (hr : r.Valid) {n : Nat}
    (hn : 0 < n) (h8 : n % 8 = 0) (hfit : n < 2 ^ 64) : CorrectOT 32 n (s.run C X) (r.run C X) :=
  Props.C22_over_base_ot C r.base s.base X X s.arm r.arm s.cores r.cores s.sched r.sched1 r.sched2 s.coin r.coin
    s.delta r.bonus r.seed0 r.seed1 n 32 hn h8 hfit (by omega) (by omega) hs.cores hr.cores hs.sched hr.sched1 hr.sched2

theorem weight_mod (D : Nat) (u : List Bool) : tailSum D u = weight u % D := by
  unfold tailSum
  rw [weight_eq_sum]
  induction u with
  | nil => rfl
  | cons x u ih =>
    simp only [bitsNat, List.map_cons, List.sum_cons] at *
    rw [Nat.mod_add_mod, Nat.add_mod, ih, ← Nat.add_mod]

end FP
