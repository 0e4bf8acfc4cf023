import Verif.Proof.Impostor
import Verif.Proof.Burglar
import Verif.Spec.Sower
/-
A garbling party that offers labels of its own choice.
-/
namespace FP
open Spec

theorem add_labels (dbg : Bool) (a b : WireBytes) :
    Wire.add dbg ⟨.binary, a⟩ ⟨.binary, b⟩ = .ok ⟨.binary, Vector.zipWith (· ^^^ ·) a b⟩ := by
  have : Wire.add dbg ⟨.binary, a⟩ ⟨.binary, b⟩ =
      Wire.mapWith dbg ⟨.binary, a⟩ ⟨.binary, b⟩ fun x y => .ok (x ^^^ y) := rfl
  rw [this, mapWith_ok dbg ⟨.binary, a⟩ ⟨.binary, b⟩ _ (fun x y => x ^^^ y) rfl (fun i => rfl)]
  refine congrArg (fun v => Except.ok (Wire.mk .binary v)) ?_
  apply Vector.ext
  intro i hi
  rw [Vector.getElem_ofFn, Vector.getElem_zipWith]
  show BitVec.ofNat 8 (a[i].toNat ^^^ b[i].toNat) = a[i] ^^^ b[i]
  rw [← BitVec.toNat_xor, BitVec.ofNat_toNat, BitVec.setWidth_eq]

theorem zero_zipWith (b : WireBytes) : Vector.zipWith (· ^^^ ·) zeroLabel b = b := by
  apply Vector.ext
  intro i hi
  simp [zeroLabel]

theorem sum_binary (dbg : Bool) (l : List WireBytes) (hl : 0 < l.length) :
    Wire.sum dbg (l.map fun v => ⟨.binary, v⟩) = .ok ⟨.binary, sumLabels l⟩ := by
  cases l with
  | nil => simp at hl
  | cons a l =>
    show (l.map fun v => (⟨.binary, v⟩ : Wire)).foldlM (fun acc w => Wire.add dbg acc w) ⟨.binary, a⟩ = _
    unfold sumLabels
    rw [List.foldl_cons, zero_zipWith]
    clear hl
    induction l generalizing a with
    | nil => rfl
    | cons b l ih =>
      rw [List.map_cons, List.foldlM_cons, add_labels, okb, ih, List.foldl_cons]

/-- Evaluating the circuit of the sower. -/
theorem evaluate_sum (E : Env) {n : Nat} {f : HMap Nat (List Wire)} {fh : HMap Nat (Wire × Wire)} {A : List Wire}
    {l : List WireBytes} (hA : A.length = n) (hl : l.length = n) (hn : 0 < n) :
    evaluate E ⟨sumSecond n, f, fh⟩ (A ++ l.map fun v => ⟨.binary, v⟩) = .ok [⟨.binary, sumLabels l⟩] := by
  have hX : (A ++ l.map fun v => (⟨.binary, v⟩ : Wire)).length = n + n := by simp [hA, hl]
  generalize hXX : A ++ l.map (fun v => (⟨.binary, v⟩ : Wire)) = X at hX
  obtain ⟨ev, e1, e2, e3, -⟩ := loadInputs (N := n + n + 1) hX (by omega)
  unfold evaluate
  have hni : (sumSecond n).numInputs = n + n := rfl
  have hnw : (sumSecond n).numWires = n + n + 1 := rfl
  have hno : (sumSecond n).numOutputs = 1 := rfl
  have hgs : (sumSecond n).gates = [⟨n + n, 2, (List.range n).map (n + ·), .add⟩] := rfl
  dsimp only
  rw [hni, hnw, hno, hgs, e1, debugAssertR_ok (by simp [hX])]
  have hread : ((List.range n).map (n + ·)).mapM (readInit ev) = .ok (l.map fun v => (⟨.binary, v⟩ : Wire)) := by
    have key : ∀ ks : List Nat, (∀ k ∈ ks, k < n) → (ks.map (n + ·)).mapM (readInit ev) =
        .ok (ks.map fun k => (⟨.binary, l.getD k zeroLabel⟩ : Wire)) := by
      intro ks
      induction ks with
      | nil => intro _; rfl
      | cons k ks ih =>
        intro h
        have hk : k < n := h k (by simp)
        have h3 := e3 (n + k) (by omega)
        have hx : X[n + k]'(by omega) = ⟨.binary, l.getD k zeroLabel⟩ := by
          subst hXX
          rw [List.getElem_append_right (by omega), List.getElem_map]
          simp only [hA, Nat.add_sub_cancel_left]
          rw [List.getD_eq_getElem?_getD, List.getElem?_eq_getElem (by omega), Option.getD_some]
        rw [hx] at h3
        rw [List.map_cons, List.mapM_cons, readInit_ok h3, okb, ih (fun j hj => h j (by simp [hj])), okb, purek, List.map_cons]
    rw [key _ (fun k hk => List.mem_range.mp hk)]
    congr 1
    apply List.ext_getElem
    · simp [hl]
    · intro i h1 h2
      have : i < l.length := by simpa using h2
      simp [this]
  have hgate : evalGate E ⟨sumSecond n, f, fh⟩ ev 0 ⟨n + n, 2, (List.range n).map (n + ·), .add⟩ =
      .ok (⟨.binary, sumLabels l⟩, 0) := by
    simp only [evalGate]
    rw [hread, okb, sum_binary E.dbg l (by omega), okb, purek]
  simp only [List.foldlM_cons, List.foldlM_nil, hgate, okb,
    setR_ok (some (⟨.binary, sumLabels l⟩ : Wire)) (show n + n < ev.length by omega), purek]
  rw [subR_ok E.dbg (by omega), okb, sliceR_ok (by omega) (by rw [List.length_set]; omega), okb]
  have : ((ev.set (n + n) (some (⟨.binary, sumLabels l⟩ : Wire))).drop (n + n + 1 - 1)).take (n + n + 1 - (n + n + 1 - 1)) =
      [some (⟨.binary, sumLabels l⟩ : Wire)] := by
    rw [show n + n + 1 - 1 = n + n by omega, show n + n + 1 - (n + n) = 1 by omega,
      List.drop_eq_getElem_cons (by rw [List.length_set]; omega)]
    simp
  rw [this]
  rfl

theorem chosen_picked (labels : List (WireBytes × WireBytes)) (b : List Bool) :
    chosen (labels.map fun p => (p.1.toList, p.2.toList)) b =
      ((picked labels b).map fun v => (⟨.binary, v⟩ : Wire)).map Wire.bytes := by
  unfold chosen picked
  rw [List.zipWith_map_left, List.map_zipWith, List.map_zipWith]
  congr 1
  funext p c
  cases c <;> rfl

theorem sower_ends (E : Env) {S : List (Bytes × Bytes) → Proc Unit} {V : List Bool → Proc (List Bytes)} (p : Bytes) (n : Nat)
    (hn : n = 8 * p.length) (hp : 0 < p.length) (hfit : n < 2 ^ 62) (hot : CorrectOT 32 n S V)
    (labels : List (WireBytes × WireBytes)) (hlab : labels.length = n) :
    Ends (sower S labels) (halfEvaluator E V p) ()
      (hashOut E (n + n) 1 ⟨.binary, sumLabels (picked labels (bitsOf p))⟩) := by
  have hpl : (u8VecToBoolVec p).length = n := by rw [unpack_length, hn]
  unfold sower halfEvaluator
  refine .bind (hot _ (u8VecToBoolVec p) (by simp [hlab]) hpl (by
    intro m hm
    obtain ⟨w, -, rfl⟩ := List.mem_map.mp hm
    simp)).ends ?_
  have hgc : deserializeGarbled (serializeGarbled ⟨sumSecond labels.length, [], []⟩ [] []) =
      .ok ⟨sumSecond n, hmapOfEntries [], hmapOfEntries []⟩ := by
    rw [hlab]
    refine deserializeGarbled_ok ⟨⟨?_, ?_, ?_, ?_, ?_, ?_, ?_⟩, by simp, by simp, by simp, by simp⟩
    · show n + n + 1 < 2 ^ 64; omega
    · show n + n < 2 ^ 64; omega
    · show 1 < 2 ^ 64; omega
    · show 1 < 2 ^ 64; omega
    · intro g hg
      have hg : g ∈ [(⟨n + n, 2, (List.range n).map (n + ·), .add⟩ : Gate)] := hg
      rw [List.mem_singleton] at hg
      subst hg
      refine ⟨?_, ?_, ?_, ?_, trivial⟩
      · show n + n < 2 ^ 64; omega
      · show 2 < 65536; omega
      · show ((List.range n).map (n + ·)).length < 2 ^ 64; simp; omega
      · intro i hi
        obtain ⟨k, hk, rfl⟩ := List.mem_map.mp hi
        have := List.mem_range.mp hk
        omega
    · show (List.replicate (n + n) 2).length < 2 ^ 64; rw [List.length_replicate]; omega
    · intro d hd
      have := (List.mem_replicate.mp hd).2
      omega
  have hpk : (picked labels (u8VecToBoolVec p)).length = n := by simp [picked, hlab, hpl]
  rw [chosen_picked, labelsOf_ok E.dbg (by
    intro w hw
    obtain ⟨v, -, rfl⟩ := List.mem_map.mp hw
    rfl), liftM_ok, ret_bind, sendP_bind, recvP_bind]
  refine .sendRecv ?_
  rw [hgc, liftM_ok, ret_bind, sendP, recvP_bind]
  refine .sendRecv ?_
  rw [deserialize_ok wires_rt ⟨by rw [List.length_replicate]; omega, fun w hw => by
    rw [(List.mem_replicate.mp hw).2]; exact binary_fits rfl⟩, liftM_ok, ret_bind]
  unfold evaluatedKey
  rw [evaluate_sum E (by rw [List.length_replicate, hlab]) hpk (by omega), okb, subR_ok E.dbg (by show 1 ≤ n + n + 1; omega), okb,
    bitsOf_unpack]
  exact .ret _ _

/-- A bit of a sum of labels. -/
theorem sumLabels_bit (l : List WireBytes) (k : Nat) (hk : k < 32) (b : Nat) :
    (sumLabels l)[k].getLsbD b = decide (l.countP (fun v => v[k].getLsbD b) % 2 = 1) := by
  have key : ∀ (l : List WireBytes) (a : WireBytes),
      (l.foldl (fun a b => Vector.zipWith (· ^^^ ·) a b) a)[k].getLsbD b =
        (a[k].getLsbD b ^^ decide (l.countP (fun v => v[k].getLsbD b) % 2 = 1)) := by
    intro l
    induction l with
    | nil => intro a; simp
    | cons v l ih =>
      intro a
      rw [List.foldl_cons, ih, Vector.getElem_zipWith, BitVec.getLsbD_xor, List.countP_cons]
      generalize List.countP (fun v : WireBytes => v[k].getLsbD b) l = c
      cases a[k].getLsbD b <;> cases v[k].getLsbD b <;> rcases Nat.mod_two_eq_zero_or_one c with h | h <;>
        simp [h, Nat.add_mod]
  unfold sumLabels
  rw [key]
  simp [zeroLabel]

theorem picked_marks (p : Bytes) (f : Nat → WireBytes × WireBytes) :
    picked ((List.range (8 * p.length)).map f) (bitsOf p) =
      (List.range (8 * p.length)).map fun i => if bitAt p i then (f i).2 else (f i).1 := by
  unfold picked bitsOf
  apply List.ext_getElem
  · simp
  · intro i h1 h2
    simp

theorem markLabel_bit (i k b : Nat) (hk : k < 32) (hb : b < 8) :
    (markLabel i)[k].getLsbD b = decide (i = 8 * k + b) := by
  unfold markLabel
  rw [Vector.getElem_ofFn]
  dsimp only
  have : i % 8 < 8 := Nat.mod_lt _ (by omega)
  by_cases h : k = i / 8
  · rw [if_pos h]
    generalize hj : i % 8 = j at this
    have : (1 <<< j : Byte).getLsbD b = decide (j = b) := by
      interval_cases j <;> interval_cases b <;> decide
    rw [this]
    congr 1
    apply propext
    omega
  · rw [if_neg h]
    simp
    omega

theorem countP_single (n a : Nat) (q : Nat → Bool) :
    (List.range n).countP (fun i => q i && decide (i = a)) = if a < n ∧ q a then 1 else 0 := by
  induction n with
  | zero => simp
  | succ n ih =>
    rw [List.range_succ, List.countP_append, ih]
    by_cases h : n = a
    · subst h; cases h : q n <;> simp [h]
    · have h2 : (a < n + 1 ∧ q a = true) ↔ (a < n ∧ q a = true) := by
        constructor
        · rintro ⟨h1, h2⟩; exact ⟨by omega, h2⟩
        · rintro ⟨h1, h2⟩; exact ⟨by omega, h2⟩
      simp only [h2, List.countP_cons, List.countP_nil, h, decide_false, Bool.and_false]
      simp

/-- The labels of a password of at most 32 bytes add up to the password. -/
theorem sum_marks (p : Bytes) (hp : p.length ≤ 32) : sumLabels (picked (marks (8 * p.length)) (bitsOf p)) = padded p := by
  apply Vector.ext
  intro k hk
  apply BitVec.eq_of_getLsbD_eq
  intro b hb
  rw [sumLabels_bit _ k hk]
  unfold marks
  rw [picked_marks, List.countP_map]
  have : (List.range (8 * p.length)).countP ((fun v : WireBytes => v[k].getLsbD b) ∘ fun i =>
      if bitAt p i = true then ((fun i => (zeroLabel, markLabel i)) i).2 else ((fun i => (zeroLabel, markLabel i)) i).1) =
      (List.range (8 * p.length)).countP fun i => bitAt p i && decide (i = 8 * k + b) := by
    congr 1
    funext i
    show (if bitAt p i = true then markLabel i else zeroLabel)[k].getLsbD b = _
    cases bitAt p i with
    | false => simp [zeroLabel]
    | true =>
      rw [if_pos rfl, markLabel_bit i k b hk hb]
      simp
  rw [this, countP_single]
  unfold padded
  rw [Vector.getElem_ofFn]
  have h8 : bitAt p (8 * k + b) = (p.getD k 0).getLsbD b := (getLsbD_getD p k b hb).symm
  show _ = (p.getD k 0).getLsbD b
  rw [← h8]
  by_cases hlt : 8 * k + b < 8 * p.length
  · cases bitAt p (8 * k + b) <;> simp [hlt]
  · rw [bitAt_ge (by omega)]
    simp

theorem padded_inj {p q : Bytes} (hl : p.length = q.length) (hp : p.length ≤ 32) (h : padded p = padded q) : p = q := by
  apply List.ext_getElem hl
  intro i h1 h2
  have := congrArg (fun v : WireBytes => v[i]'(by omega)) h
  simpa [padded, h1, h2] using this

/-- The labels of `parityLabels` add up to `label` or to nothing. -/
theorem sum_parity (p : Bytes) (s : Nat → Bool) (label : WireBytes) :
    sumLabels (picked (parityLabels (8 * p.length) s label) (bitsOf p)) = if oddAt p s then label else zeroLabel := by
  apply Vector.ext
  intro k hk
  apply BitVec.eq_of_getLsbD_eq
  intro b hb
  rw [sumLabels_bit _ k hk]
  unfold parityLabels
  rw [picked_marks, List.countP_map]
  have : (List.range (8 * p.length)).countP ((fun v : WireBytes => v[k].getLsbD b) ∘ fun i =>
      if bitAt p i = true then ((fun i => (zeroLabel, if s i then label else zeroLabel)) i).2
        else ((fun i => (zeroLabel, if s i then label else zeroLabel)) i).1) =
      (List.range (8 * p.length)).countP fun i => (s i && bitAt p i) && label[k].getLsbD b := by
    congr 1
    funext i
    show (if bitAt p i = true then (if s i = true then label else zeroLabel) else zeroLabel)[k].getLsbD b = _
    cases bitAt p i <;> cases s i <;> simp [zeroLabel]
  rw [this]
  by_cases hodd : oddAt p s
  · rw [if_pos hodd]
    unfold oddAt at hodd
    cases label[k].getLsbD b <;> simp [hodd]
  · rw [if_neg hodd]
    unfold oddAt at hodd
    cases label[k].getLsbD b <;> simp [hodd, zeroLabel]

end FP
