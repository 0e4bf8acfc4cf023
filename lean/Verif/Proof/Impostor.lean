import Verif.Proof.Leak
import Verif.Proof.Legacy
/-
Parties without a password against the parties of the key exchange.
-/
namespace FP
open Spec

/-- The zero label of the exclusive or of two inputs has colour zero if their colours agree. -/
theorem xor_colour {E : Env} {rnd : GarbleRand} {n D T : Nat} (hc : WellTyped (thrCircuit n D T)) {run : GarbleRun}
    (hrun : garbleRun E rnd (thrCircuit n D T) = .ok run) {i : Nat} (hi : i < n)
    (hcol : (rnd.input i)[31].toNat % 2 = (rnd.input (n + i))[31].toNat % 2) :
    ∃ z, run.state.wires[2 * n + i]? = some z ∧ z.color = 0 := by
  have hin : ∀ k, k < n * 2 → run.state.wires[k]? = some ⟨.binary, rnd.input k⟩ := by
    intro k hk
    obtain ⟨w, hw, h1, -⟩ := (run_steps hc hrun).2 k 2 (by
      show (List.replicate (n * 2) 2)[k]? = some 2
      rw [List.getElem?_replicate, if_pos hk])
    have : Wire.new 2 (rnd.input k) = .ok ⟨.binary, rnd.input k⟩ := rfl
    rw [this] at hw
    injection hw with hw
    rw [h1, hw]
  obtain ⟨w, hw, hlw, -, hz⟩ := run_sums hc hrun (g := ⟨i + 2 * n, 2, [i, i + n], .add⟩) (by
    show _ ∈ xorGates n ++ _
    exact List.mem_append_left _ (List.mem_map.mpr ⟨i, List.mem_range.mpr hi, rfl⟩)) rfl
  simp only at hw hlw hz
  refine ⟨w, by rw [Nat.add_comm]; exact hw, ?_⟩
  have hdw : w.domain = .binary := by
    have := hlw.dom
    have h2 : Domain.new 2 = .ok .binary := rfl
    rw [h2] at this
    injection this with this; exact this.symm
  have e := hz (colorPos w.domain)
  have hlt : w.color < 2 := color_lt_two hlw
  have e1 : zd 2 w (colorPos w.domain) = (w.color : ZMod 2) := by rw [color_eq]; rfl
  have ha : ∀ v : WireBytes, zd 2 ⟨.binary, v⟩ (colorPos w.domain) = ((v[31].toNat % 2 : ℕ) : ZMod 2) := by
    intro v
    have := color_eq ⟨.binary, v⟩
    rw [hdw]
    unfold zd
    rw [show colorPos Domain.binary = colorPos (⟨.binary, v⟩ : Wire).domain from rfl, ← this]
    simp [Wire.color, BitVec.toNat_and, Nat.and_one_is_mod]
  have hg1 : run.state.wires.getD i Wire.empty = ⟨.binary, rnd.input i⟩ := by
    rw [List.getD, hin i (by omega), Option.getD_some]
  have hg2 : run.state.wires.getD (i + n) Wire.empty = ⟨.binary, rnd.input (n + i)⟩ := by
    rw [List.getD, Nat.add_comm i n, hin (n + i) (by omega), Option.getD_some]
  simp only [List.map_cons, List.map_nil, List.sum_cons, List.sum_nil, add_zero] at e
  rw [hg1, hg2, ha, ha, hcol, e1] at e
  have h0 : ((w.color : ℕ) : ZMod 2) = 0 := by
    rw [e, ← two_mul]
    have : (2 : ZMod 2) = 0 := by decide
    rw [this, zero_mul]
  rw [ZMod.natCast_eq_zero_iff] at h0
  exact Nat.eq_zero_of_dvd_of_lt h0 hlt

theorem spy_ends (E : Env) (rnd : GarbleRand) (ord : MapOrder) (hord : ord.Valid)
    {S : List (Bytes × Bytes) → Proc Unit} {V : List Bool → Proc (List Bytes)} (p : Bytes) (t n : Nat)
    (hn : n = 8 * p.length) (hp : 0 < p.length) (hn' : n < 65535) (hD : GoodDomain (n + 1)) (ht : t < 65535)
    (hot : CorrectOT 32 n S V) (hcol : SomeColourAgrees rnd n) :
    ∃ k gc X, stolenKey E (2 * n) n (n + 1) t gc X = .ok k ∧
      (t < n → readBits E (2 * n) n (n + 1) gc X = .ok (u8VecToBoolVec p)) ∧
      ∀ {α : Type} (F : GarbledCircuit → List Wire → R α) (a : α), F gc X = .ok a →
        Ends (halfGarbler E rnd ord S p t) (spy E V n F) k a := by
  have hbuild := buildCircuit_ok E.dbg hn' ht
  have hpl : (u8VecToBoolVec p).length = n := by rw [unpack_length, hn]
  have hq : (List.replicate n false).length = n := by simp
  have hc := thr_typedD (T := t + 1) (show 0 < n by omega) good2 hD
  obtain ⟨run, z, d, zl, w1, hrun, hok, hgb, hzl, hzb, hK, hzw, hlab, hcar, henc⟩ := half_detail E rnd hc
    (by intro d hd; exact (List.mem_replicate.mp hd).2) (by show 0 < n * 2; omega) rfl (thr_last n (n + 1) (t + 1))
  change z.length = n * 2 at hzl
  obtain ⟨hin, hXl, hXi⟩ := henc (u8VecToBoolVec p ++ List.replicate n false) (by
    rw [List.length_append, hpl, hq]; show n + n = n * 2; omega)
  have hfits := thr_fits (n := n) (D := n + 1) (T := t + 1) (by omega) (by omega) (by omega)
  have hgf : GarbledFits (thrCircuit n (n + 1) (t + 1)) (ord.f run.state.f) (ord.h run.state.fHalf) :=
    garble_fits hrun hfits.1 hfits.2 (hord.f _) (hord.h _)
  have hgc : deserializeGarbled (sendGarbled ord ⟨thrCircuit n (n + 1) (t + 1), run.state.f, run.state.fHalf⟩) =
      .ok ⟨thrCircuit n (n + 1) (t + 1), hmapOfEntries (ord.f run.state.f), hmapOfEntries (ord.h run.state.fHalf)⟩ :=
    deserializeGarbled_ok hgf
  obtain ⟨i, hi, hci⟩ := hcol
  obtain ⟨z', w1', hz', hc', hst⟩ := steal_ok hc hrun hok (xs := xorGates n) (b := 2 * n) (n := n) (D := n + 1) (t := t) rfl
    (by show 4 * n + 2 = _; omega) hD (by omega) (by omega) ⟨i, hi, xor_colour hc hrun hi hci⟩
    (gc' := ⟨thrCircuit n (n + 1) (t + 1), hmapOfEntries (ord.f run.state.f), hmapOfEntries (ord.h run.state.fHalf)⟩) rfl
    (iteration_lookup (hord.f _)) (iteration_lookup (hord.h _)) hin hXl hXi
  have hidx : (thrCircuit n (n + 1) (t + 1)).numWires - 1 = 2 * n + 2 * n + 1 := by
    show 4 * n + 2 - 1 = _; omega
  rw [hidx] at hK hzw
  rw [hzw] at hz'; injection hz' with hz'; subst hz'
  obtain ⟨δ2, hδ2, -⟩ := hok.deltas 2 ⟨⟨0 + 2 * n, 2, [0, 0 + n], .add⟩, by
    show _ ∈ xorGates n ++ _
    exact List.mem_append_left _ (List.mem_map.mpr ⟨0, List.mem_range.mpr (by omega), rfl⟩), .inl rfl⟩
  have hw : w1' = w1 := label_ext hc'.lab hcar.lab fun i => by rw [hc'.eq δ2 hδ2, hcar.eq δ2 hδ2]
  subst hw
  refine ⟨hashOut E (2 * n + 2 * n + 1) 1 w1', _, _, hst, fun htn => ?_, fun F a hF => ?_⟩
  · refine readBits_ok hc hrun hok (xs := xorGates n) (b := 2 * n) (n := n) (D := n + 1) (t := t) rfl
      (by show 4 * n + 2 = _; omega) hD (by omega) (by omega) (by omega) ⟨i, hi, xor_colour hc hrun hi hci⟩
      (gc' := ⟨thrCircuit n (n + 1) (t + 1), hmapOfEntries (ord.f run.state.f), hmapOfEntries (ord.h run.state.fHalf)⟩) rfl
      (iteration_lookup (hord.f _)) (iteration_lookup (hord.h _)) hin hXl hXi _ hpl fun j hj => ?_
    rw [values_thr hpl hq]
    have hx0 : xorBits (u8VecToBoolVec p) (List.replicate n false) = u8VecToBoolVec p := by
      apply List.ext_getElem
      · simp [xorBits, hpl]
      · intro k h1 h2; simp [xorBits]
    have hl1 : (bitsNat (u8VecToBoolVec p ++ List.replicate n false)).length = 2 * n := by
      simp [bitsNat, hpl]; omega
    have hl2 : (bitsNat (u8VecToBoolVec p)).length = n := by simp [bitsNat, hpl]
    rw [hx0, List.append_assoc, List.append_assoc, List.getElem?_append_right (by omega),
      List.getElem?_append_left (by omega), hl1, Nat.add_sub_cancel_left]
  unfold halfGarbler spy
  dsimp only
  rw [hpl, hbuild, liftM_ok, ret_bind, hgb, liftM_ok, ret_bind]
  dsimp only
  rw [sliceR_ok (by omega) (by omega), liftM_ok, ret_bind, sliceR_ok (by omega) (by omega), liftM_ok, ret_bind]
  have htake : (z.drop 0).take (n - 0) = z.take n := by simp
  have hdrop : (z.drop n).take (z.length - n) = z.drop n := List.take_of_length_le (by simp)
  rw [htake, hdrop]
  have hown : (z.take n).length = n := by rw [List.length_take]; omega
  have hth : (z.drop n).length = n := by rw [List.length_drop]; omega
  refine .bind (hot (bytePairs (z.drop n)) (List.replicate n false) (by simp [bytePairs]; omega) hq ?_).ends ?_
  · intro m hm
    obtain ⟨w, -, rfl⟩ := List.mem_map.mp hm
    simp [Wire.bytes]
  rw [chosen_bytePairs, labelsOf_ok E.dbg (pick_binary (fun p hp => hzb p (List.mem_of_mem_drop hp)) _), liftM_ok, ret_bind,
    sendP_bind, recvP_bind]
  refine .sendRecv ?_
  have hpb := pick_binary (fun p hp => hzb p (List.mem_of_mem_take hp)) (z := z.take n) (u8VecToBoolVec p)
  rw [hgc, liftM_ok, ret_bind, unzipped_encode (by omega), liftM_ok, ret_bind, sendP_bind, recvP_bind]
  refine .sendRecv ?_
  rw [deserialize_ok wires_rt ⟨by rw [pick_length (by omega)]; omega, fun w hw => binary_fits (hpb w hw)⟩, liftM_ok, ret_bind]
  have hpa := pick_append (z := z) (a := u8VecToBoolVec p) (b := List.replicate n false) (by rw [List.length_append]; omega)
  rw [hpl] at hpa
  rw [hpa, hK, hF]
  exact .ret _ _

theorem thief_ends (E : Env) (rnd : GarbleRand) (ord : MapOrder) (hord : ord.Valid)
    {S : List (Bytes × Bytes) → Proc Unit} {V : List Bool → Proc (List Bytes)} (p : Bytes) (t n : Nat)
    (hn : n = 8 * p.length) (hp : 0 < p.length) (hn' : n < 65535) (hD : GoodDomain (n + 1)) (ht : t < 65535)
    (hot : CorrectOT 32 n S V) (hcol : SomeColourAgrees rnd n) :
    ∃ k, Ends (halfGarbler E rnd ord S p t) (thief E V n t) k k := by
  obtain ⟨k, gc, X, hst, -, h⟩ := spy_ends E rnd ord hord p t n hn hp hn' hD ht hot hcol
  exact ⟨k, h _ _ hst⟩

theorem reader_ends (E : Env) (rnd : GarbleRand) (ord : MapOrder) (hord : ord.Valid)
    {S : List (Bytes × Bytes) → Proc Unit} {V : List Bool → Proc (List Bytes)} (p : Bytes) (t n : Nat)
    (hn : n = 8 * p.length) (hp : 0 < p.length) (hn' : n < 65535) (hD : GoodDomain (n + 1)) (ht : t < n)
    (hot : CorrectOT 32 n S V) (hcol : SomeColourAgrees rnd n) :
    ∃ k, Ends (halfGarbler E rnd ord S p t) (reader E V n t) k (k, u8VecToBoolVec p) := by
  obtain ⟨k, gc, X, hst, hrd, h⟩ := spy_ends E rnd ord hord p t n hn hp hn' hD (by omega) hot hcol
  refine ⟨k, h _ _ ?_⟩
  rw [hst, okb, hrd ht, okb, purek]

/-- Evaluating the circuit of the forger. -/
theorem evaluate_first (E : Env) {n : Nat} {f : HMap Nat (List Wire)} {fh : HMap Nat (Wire × Wire)} {X : List Wire}
    (hX : X.length = n) (hn : 0 < n) : evaluate E ⟨firstInput n, f, fh⟩ X = .ok [X[0]] := by
  obtain ⟨ev, e1, e2, e3, -⟩ := loadInputs (N := n + 1) hX (by omega)
  have h0 := e3 0 (by omega)
  unfold evaluate
  have hni : (firstInput n).numInputs = n := rfl
  have hnw : (firstInput n).numWires = n + 1 := rfl
  have hno : (firstInput n).numOutputs = 1 := rfl
  have hgs : (firstInput n).gates = [⟨n, 2, [0], .add⟩] := rfl
  dsimp only
  rw [hni, hnw, hno, hgs, e1, debugAssertR_ok (by simp [hX])]
  have hgate : evalGate E ⟨firstInput n, f, fh⟩ ev 0 ⟨n, 2, [0], .add⟩ = .ok (X[0], 0) := by
    simp only [evalGate, List.mapM_cons, List.mapM_nil, readInit_ok h0, okb, purek]
    rfl
  simp only [List.foldlM_cons, List.foldlM_nil, hgate, okb, setR_ok (some X[0]) (show n < ev.length by omega), purek]
  rw [subR_ok E.dbg (by omega), okb, sliceR_ok (by omega) (by rw [List.length_set]; omega), okb]
  have : ((ev.set n (some X[0])).drop (n + 1 - 1)).take (n + 1 - (n + 1 - 1)) = [some X[0]] := by
    rw [show n + 1 - 1 = n by omega, show n + 1 - n = 1 by omega, List.drop_eq_getElem_cons (by rw [List.length_set]; omega)]
    simp
  rw [this]
  rfl

theorem chosen_same (label : WireBytes) {n : Nat} (b : List Bool) (hb : b.length = n) :
    chosen (List.replicate n (label.toList, label.toList)) b = (List.replicate n (⟨.binary, label⟩ : Wire)).map Wire.bytes := by
  have : ∀ (n : Nat) (b : List Bool), b.length = n →
      List.zipWith (fun (p : Bytes × Bytes) (c : Bool) => if c then p.2 else p.1)
        (List.replicate n (label.toList, label.toList)) b = List.replicate n label.toList := by
    intro n
    induction n with
    | zero => intro b _; simp
    | succ n ih =>
      intro b hb
      cases b with
      | nil => simp at hb
      | cons c b =>
        rw [List.replicate_succ, List.zipWith_cons_cons, ih b (by simpa using hb), List.replicate_succ]
        cases c <;> rfl
  rw [List.map_replicate]
  exact this n b hb

theorem forger_ends (E : Env) {S : List (Bytes × Bytes) → Proc Unit} {V : List Bool → Proc (List Bytes)} (p : Bytes) (n : Nat)
    (hn : n = 8 * p.length) (hp : 0 < p.length) (hfit : n < 2 ^ 62) (hot : CorrectOT 32 n S V) (label : WireBytes) :
    Ends (forger E S n label) (halfEvaluator E V p) (hashOut E (2 * n) 1 ⟨.binary, label⟩)
      (hashOut E (2 * n) 1 ⟨.binary, label⟩) := by
  have hpl : (u8VecToBoolVec p).length = n := by rw [unpack_length, hn]
  unfold forger halfEvaluator
  refine .bind (hot _ (u8VecToBoolVec p) (by simp) hpl (by
    intro m hm
    rw [(List.mem_replicate.mp hm).2]
    simp)).ends ?_
  have hgc : deserializeGarbled (serializeGarbled ⟨firstInput (2 * n), [], []⟩ [] []) =
      .ok ⟨firstInput (2 * n), hmapOfEntries [], hmapOfEntries []⟩ := by
    refine deserializeGarbled_ok ⟨⟨?_, ?_, ?_, ?_, ?_, ?_, ?_⟩, by simp, by simp, by simp, by simp⟩
    · show 2 * n + 1 < 2 ^ 64; omega
    · show 2 * n < 2 ^ 64; omega
    · show 1 < 2 ^ 64; omega
    · show 1 < 2 ^ 64; omega
    · intro g hg
      have hg : g ∈ [(⟨2 * n, 2, [0], .add⟩ : Gate)] := hg
      rw [List.mem_singleton] at hg
      subst hg
      refine ⟨?_, ?_, ?_, ?_, trivial⟩
      · show 2 * n < 2 ^ 64; omega
      · show 2 < 65536; omega
      · show 1 < 2 ^ 64; omega
      · intro i hi
        rw [List.mem_singleton] at hi
        omega
    · show (List.replicate (2 * n) 2).length < 2 ^ 64; rw [List.length_replicate]; omega
    · intro d hd
      have := (List.mem_replicate.mp hd).2
      omega
  rw [chosen_same label _ hpl, labelsOf_ok E.dbg (by intro w hw; rw [(List.mem_replicate.mp hw).2]), liftM_ok, ret_bind, sendP_bind, recvP_bind]
  refine .sendRecv ?_
  rw [hgc, liftM_ok, ret_bind, sendP_bind, recvP_bind]
  refine .sendRecv ?_
  rw [deserialize_ok wires_rt ⟨by rw [List.length_replicate]; omega, fun w hw => by
    rw [(List.mem_replicate.mp hw).2]; exact binary_fits rfl⟩, liftM_ok, ret_bind]
  have hl : (List.replicate n (⟨.binary, label⟩ : Wire) ++ List.replicate n (⟨.binary, label⟩ : Wire)).length = 2 * n := by
    simp; omega
  unfold evaluatedKey
  rw [evaluate_first E hl (by omega), okb, subR_ok E.dbg (by show 1 ≤ 2 * n + 1; omega), okb]
  have : (List.replicate n (⟨.binary, label⟩ : Wire) ++ List.replicate n (⟨.binary, label⟩ : Wire))[0]'(by omega) = ⟨.binary, label⟩ := by
    rw [List.getElem_append_left (by simp; omega), List.getElem_replicate]
  rw [this]
  exact .ret _ _

end FP
