import Verif.Spec.ManyFpake
import Verif.Proof.Fpake
import Verif.Props.ManyOT
/-
One-of-many password authenticated key exchange: helpers.
-/
namespace FP
open Spec

theorem mapM_range {β} {f : Nat → R β} {ys : List β} {n : Nat} (hn : ys.length = n)
    (h : ∀ i (hi : i < ys.length), f i = .ok ys[i]) : (List.range n).mapM f = .ok ys := by
  subst hn
  obtain ⟨bs, hbs, hf⟩ := mapM_exists (l := List.range ys.length) (f := f) (P := fun i b => ys[i]? = some b) (by
    intro i hi
    have hi := List.mem_range.mp hi
    exact ⟨ys[i], h i hi, List.getElem?_eq_getElem hi⟩)
  rw [hbs]
  refine congrArg Except.ok ?_
  apply List.ext_getElem
  · rw [← hf.length_eq]; simp
  · intro i h1 h2
    have := List.Forall₂.get hf (i := i) (by simpa using h2) h1
    simp only [List.get_eq_getElem, List.getElem_range] at this
    rw [List.getElem?_eq_getElem h2] at this
    exact (Option.some.inj this).symm

theorem bit_eq (p : Bytes) (i : Nat) (hi : i < 8 * p.length) :
    ∃ b, idxR p (i / 8) = .ok b ∧ ((b >>> (i % 8)) &&& 1 == 1) = (u8VecToBoolVec p)[i]'(by rw [unpack_length]; exact hi) := by
  have hj : i / 8 < p.length := by omega
  refine ⟨p[i / 8], idxR_ok (List.getElem?_eq_getElem hj), ?_⟩
  have := unpack_get p (i / 8) (i % 8) (Nat.mod_lt _ (by omega))
  rw [Nat.div_add_mod, List.getElem?_eq_getElem (by rw [unpack_length]; exact hi), List.getElem?_eq_getElem hj] at this
  simp only [Option.map_some, Option.some.injEq] at this
  rw [this]
  generalize p[i / 8] = b
  have hk : i % 8 < 8 := Nat.mod_lt _ (by omega)
  generalize i % 8 = k at hk
  revert b
  revert k
  decide

theorem bitsUpTo_ok {p : Bytes} {n : Nat} (h : p.length = n) : bitsUpTo p n = .ok (u8VecToBoolVec p) := by
  unfold bitsUpTo
  refine mapM_range (by rw [unpack_length, h]) fun i hi => ?_
  obtain ⟨b, h1, h2⟩ := bit_eq p i (by rwa [unpack_length] at hi)
  rw [h1, okb, h2]
  rfl

theorem labelPairs_ok {e : List (Wire × Wire)} {off n : Nat} (h : off + n ≤ e.length) :
    labelPairs e off n = .ok (bytePairs ((e.drop off).take n)) := by
  unfold labelPairs bytePairs
  refine mapM_range (by simp; omega) fun i hi => ?_
  have hi' : i < n := by simp at hi; omega
  rw [idxR_ok (a := e[off + i]) (List.getElem?_eq_getElem (by omega)), okb]
  simp
  rfl

theorem labelsAt_ok {e : List (Wire × Wire)} {off : Nat} {bits : List Bool} (h : off + bits.length ≤ e.length) :
    labelsAt e off bits = .ok (pick ((e.drop off).take bits.length) bits) := by
  unfold labelsAt
  have : ∀ (bits : List Bool) (k : Nat), off + k + bits.length ≤ e.length →
      (bits.zipIdx k).mapM (fun (b, i) => do
        let p ← idxR e (off + i)
        return if b then p.2 else p.1) = (.ok (pick ((e.drop (off + k)).take bits.length) bits) : R _) := by
    intro bits
    induction bits with
    | nil => intro k _; simp [pick]; rfl
    | cons b bits ih =>
      intro k hk
      simp only [List.length_cons] at hk
      rw [List.zipIdx_cons, List.mapM_cons]
      dsimp only
      rw [idxR_ok (a := e[off + k]) (List.getElem?_eq_getElem (by omega)), okb, purek, okb, ih (k + 1) (by omega), okb,
        List.drop_eq_getElem_cons (i := off + k) (by omega), List.length_cons, List.take_succ_cons]
      unfold pick
      rw [List.zipWith_cons_cons, Nat.add_assoc]
      rfl
  exact this bits 0 (by omega)

theorem encodeRows_ok (dbg : Bool) {e : List (Wire × Wire)} {off n : Nat} {bytes : Bytes} (hn : n = 8 * bytes.length)
    (h : off + n ≤ e.length) :
    encodeRows dbg e off n bytes = .ok ((pick ((e.drop off).take n) (u8VecToBoolVec bytes)).flatMap Wire.bytes) := by
  unfold encodeRows
  have hul : (u8VecToBoolVec bytes).length = n := by rw [unpack_length, hn]
  have hpl : (pick ((e.drop off).take n) (u8VecToBoolVec bytes)).length = n := by
    rw [pick_length (by simp; omega)]; simp; omega
  have step : ∀ i < n, ∃ b p, idxR bytes (i / 8) = .ok b ∧ idxR e (off + i) = .ok p ∧
      (pick ((e.drop off).take n) (u8VecToBoolVec bytes))[i]? = some (if (b >>> (i % 8)) &&& 1 == 1 then p.2 else p.1) := by
    intro i hi
    obtain ⟨b, h1, h2⟩ := bit_eq bytes i (by omega)
    refine ⟨b, e[off + i], h1, idxR_ok (List.getElem?_eq_getElem (by omega)), ?_⟩
    rw [List.getElem?_eq_getElem (by omega)]
    rw [h2]
    simp [pick]
  have hcongr := foldlM_congr' (fun (buf : Bytes) i => ((do
      let byte ← idxR bytes (i / 8)
      let p ← idxR e (off + i)
      updateRow buf i 32 fun row => xorBytesInplace dbg row
        (if (byte >>> (i % 8)) &&& 1 == 1 then p.2 else p.1).bytes) : R Bytes))
    (fun buf i => updateRow buf i 32 fun row => xorBytesInplace dbg row
        ((pick ((e.drop off).take n) (u8VecToBoolVec bytes)).getD i Wire.empty).bytes) (List.range n)
    (List.replicate (n * 32) 0) ?_
  · rw [hcongr]
    rw [updateRows_ok (len := 32) _ (fun i => ((pick ((e.drop off).take n) (u8VecToBoolVec bytes)).getD i Wire.empty).bytes)]
    · refine congrArg Except.ok ?_
      rw [List.flatMap_def, List.flatMap_def]
      congr 1
      apply List.ext_getElem
      · simp [hpl]
      · intro i h1 h2
        have : i < (pick ((e.drop off).take n) (u8VecToBoolVec bytes)).length := by simpa using h2
        simp [this]
    · intro i hi
      rw [xorBytesInplace_ok _ (by simp [Wire.bytes])]
      refine congrArg Except.ok ?_
      exact zipWith_zero' (by simp [Wire.bytes])
    · intro i hi; simp [Wire.bytes]
  · intro i hi s
    obtain ⟨b, p, h1, h2, h3⟩ := step i (List.mem_range.mp hi)
    rw [h1, okb, h2, okb, List.getD_eq_getElem?_getD, h3]
    rfl

theorem fromBytes_bytes (dbg : Bool) {w : Wire} (h : w.domain = .binary) : Wire.fromBytes dbg w.bytes .binary = .ok w := by
  have h32 : w.bytes.length = 32 := by simp [Wire.bytes]
  unfold Wire.fromBytes
  rw [dif_pos h32]
  unfold Wire.fromArray
  cases w
  simp only at h
  subst h
  rfl

theorem payloadToEncoding_ok (dbg : Bool) {ws : List Wire} {n : Nat} (h : ∀ w ∈ ws, w.domain = .binary) (hn : ws.length = n) :
    payloadToEncoding dbg (ws.map Wire.bytes) n = .ok ws := by
  unfold payloadToEncoding
  refine mapM_range hn fun i hi => ?_
  rw [idxR_ok (a := ws[i].bytes) (by simp [hi]), okb, fromBytes_bytes dbg (h _ (List.getElem_mem hi))]

theorem bytesToEncoding_ok (dbg : Bool) {ws : List Wire} {n : Nat} (h : ∀ w ∈ ws, w.domain = .binary) (hn : ws.length = n) :
    bytesToEncoding dbg (ws.flatMap Wire.bytes) n 32 = .ok ws := by
  unfold bytesToEncoding
  refine mapM_range hn fun i hi => ?_
  have hrow : vectorRow (ws.flatMap Wire.bytes) i 32 = .ok ws[i].bytes := by
    have hlen : ∀ l : List Wire, (l.flatMap Wire.bytes).length = 32 * l.length := by
      intro l
      induction l with
      | nil => rfl
      | cons w l ih => rw [List.flatMap_cons, List.length_append, ih]; simp [Wire.bytes]; omega
    unfold vectorRow
    rw [if_pos (by rw [hlen]; omega)]
    refine congrArg Except.ok ?_
    conv_lhs => rw [← List.take_append_drop i ws, List.flatMap_append, List.drop_eq_getElem_cons hi, List.flatMap_cons]
    rw [List.drop_left' (by rw [hlen, List.length_take]; congr 1; omega), List.take_left' (by simp [Wire.bytes])]
  rw [hrow, okb, fromBytes_bytes dbg (h _ (List.getElem_mem hi))]

/-- Bytewise exclusive or. -/
def xorB (a b : Bytes) : Bytes := List.zipWith (· ^^^ ·) a b

theorem xorB_length {a b : Bytes} (h : a.length = b.length) : (xorB a b).length = b.length := by simp [xorB, h]

theorem maskPasswords_ok (dbg : Bool) {mask : Bytes} {len : Nat} {passwords : List Bytes} (hm : mask.length = len)
    (h : ∀ p ∈ passwords, p.length = len) :
    maskPasswords dbg mask len passwords = .ok (passwords.map (xorB mask)) := by
  unfold maskPasswords
  refine mapM_ok fun p hp => ?_
  rw [xorBytesInplace_ok _ (by simp [hm]), okb, zipWith_zero' hm, xorBytesInplace_ok _ (by rw [hm, h p hp])]
  rfl

theorem unpack_xor (a b : Bytes) (h : a.length = b.length) :
    u8VecToBoolVec (xorB a b) = xorBits (u8VecToBoolVec a) (u8VecToBoolVec b) := by
  induction a generalizing b with
  | nil => simp [xorB, xorBits, u8VecToBoolVec]
  | cons x a ih =>
    cases b with
    | nil => simp at h
    | cons y b =>
      have := ih b (by simpa using h)
      unfold xorB xorBits at *
      rw [List.zipWith_cons_cons, unpack_cons, unpack_cons, unpack_cons, List.zipWith_append (by simp), this]
      congr 1
      simp

theorem log2_same (dbg : Bool) {n : Nat} (h0 : 0 < n) (h : n < 2 ^ 32) :
    ∃ d, log2R dbg 64 n = .ok d ∧ log2R dbg 32 n = .ok d ∧ d ≤ 32 := by
  refine ⟨if n - 1 = 0 then 0 else (n - 1).log2 + 1, ?_, ?_, ?_⟩
  · unfold log2R subR; rw [if_pos (by omega), okb]; rfl
  · unfold log2R subR; rw [if_pos (by omega), okb]; rfl
  · split
    · omega
    · have := (Nat.log2_lt (n := n - 1) (k := 32) (by omega)).mpr (by omega)
      omega

/-- The 1-out-of-n transfer of a database. -/
theorem manyRun_ends (C : Curve) (X : Crypto) {o : ManySend} {base : Nat → Nat} {messages : List Bytes} {len index : Nat}
    (hdb : Database messages len) (ho : o.Valid X.dbg messages.length) (hi : index < messages.length) (hlen : 0 < len)
    (hfit : len < 2 ^ 32) :
    ∃ domain, log2R X.dbg 64 messages.length = .ok domain ∧ log2R X.dbg 32 messages.length = .ok domain ∧
      Ends (o.run C X messages domain) (manyRecv C X base index domain) () messages[index] := by
  obtain ⟨d, h1, h2, h3⟩ := log2_same X.dbg (n := messages.length) (by omega) hdb.count
  refine ⟨d, h1, h2, ?_⟩
  have hsize : messages.length * len < 2 ^ 64 := by
    have h1 := hdb.count
    calc messages.length * len ≤ 2 ^ 32 * len := Nat.mul_le_mul_right _ (by omega)
      _ < 2 ^ 32 * 2 ^ 32 := Nat.mul_lt_mul_of_pos_left hfit (by decide)
      _ = 2 ^ 64 := by decide
  exact (Props.C26_with_base_ot_partial C X o.base base o.cores o.order o.keys messages d len index h1 h3 hdb.lengths hi
    hsize ho.cores hlen ho.order hdb.power ho.split).ends

theorem xorB_get {a b : Bytes} (h : a.length = b.length) (i : Nat) : bitAt (xorB a b) i = (bitAt a i ^^ bitAt b i) := by
  unfold bitAt xorB
  by_cases hi : i / 8 < a.length
  · have hb : i / 8 < b.length := by omega
    simp [hi, hb]
  · have hb : ¬ i / 8 < b.length := by omega
    simp [List.getD_eq_getElem?_getD, List.getElem?_zipWith, List.getElem?_eq_none (Nat.le_of_not_lt hi),
      List.getElem?_eq_none (Nat.le_of_not_lt hb)]

theorem distance_masked {mask a b : Bytes} (h1 : mask.length = a.length) (h2 : mask.length = b.length) :
    bitDistance mask (xorB (xorB mask a) b) = bitDistance b a := by
  unfold bitDistance
  rw [h2]
  congr 1
  funext i
  rw [xorB_get (by rw [xorB_length h1, ← h1, h2]), xorB_get h1]
  cases bitAt mask i <;> cases bitAt a i <;> cases bitAt b i <;> rfl

theorem thr3_last (n D T : Nat) :
    ((thrCircuit3 n D T).inputDomains ++ (thrCircuit3 n D T).gates.map Gate.outputDomain)[(thrCircuit3 n D T).numWires - 1]?
      = some 2 := by
  have hx : ((xorGates3 n).map Gate.outputDomain).length = n := by simp [xorGates3]
  show (List.replicate (n * 3) 2 ++ (xorGates3 n ++ tailGates (3 * n) n D T).map Gate.outputDomain)[5 * n + 2 - 1]? = some 2
  rw [List.getElem?_append_right (by simp; omega), List.length_replicate, List.map_append,
    List.getElem?_append_right (by rw [hx]; omega), hx]
  unfold tailGates
  rw [List.map_append, List.getElem?_append_right (by simp; omega)]
  have : 5 * n + 2 - 1 - n * 3 - n - (List.map Gate.outputDomain (List.map
      (fun i => (⟨i + 3 * n + n, 2, [i + 3 * n], .proj (.map D)⟩ : Gate)) (List.range n))).length = 1 := by
    simp; omega
  rw [this]
  simp [Gate.outputDomain, ProjKind.dom]

/-- What a garbler of the three-input circuit `c` holds, and the copy `gc'` its peer receives. -/
structure Held3 (E : Env) (rnd : GarbleRand) (ord : MapOrder) (n t : Nat) (c : Circuit) (z : List (Wire × Wire))
    (K : WireBytes) (gc gc' : GarbledCircuit) (d : DecodingKey) : Prop where
  built : buildCircuitV2 E.dbg n t = .ok c
  garbled : garbleBinary E rnd c = .ok (gc, z, d)
  key : outputKey d = .ok K
  length : z.length = n * 3
  binary : ∀ p ∈ z, p.1.domain = .binary ∧ p.2.domain = .binary
  sent : deserializeGarbled (sendGarbled ord gc) = .ok gc'

theorem held3 {E : Env} {rnd : GarbleRand} {ord : MapOrder} (hord : ord.Valid) {n t D T : Nat} {z : List (Wire × Wire)}
    {K : WireBytes} {d : DecodingKey} {run : GarbleRun} (hbuild : buildCircuitV2 E.dbg n t = .ok (thrCircuit3 n D T))
    (hD : D < 65536) (hT : T < 65536) (hfit : 5 * n + 2 < 2 ^ 64) (hrun : garbleRun E rnd (thrCircuit3 n D T) = .ok run)
    (hgb : garbleBinary E rnd (thrCircuit3 n D T) = .ok (⟨thrCircuit3 n D T, run.state.f, run.state.fHalf⟩, z, d))
    (hzl : z.length = n * 3) (hzb : ∀ p ∈ z, p.1.domain = .binary ∧ p.2.domain = .binary) (hK : outputKey d = .ok K) :
    ∃ gc', Held3 E rnd ord n t (thrCircuit3 n D T) z K ⟨thrCircuit3 n D T, run.state.f, run.state.fHalf⟩ gc' d ∧
      ∀ a b c : List Bool, a.length = n → b.length = n → c.length = n →
        evaluatedKey E gc' (pick (z.take n) a ++ pick ((z.drop n).take n) b ++ pick (z.drop (n * 2)) c) =
          evaluatedKey E ⟨thrCircuit3 n D T, run.state.f, run.state.fHalf⟩ (pick z (a ++ b ++ c)) := by
  have hfits := thr3_fits (n := n) hD hT hfit
  have hgf : GarbledFits (thrCircuit3 n D T) (ord.f run.state.f) (ord.h run.state.fHalf) :=
    garble_fits hrun hfits.1 hfits.2 (hord.f _) (hord.h _)
  obtain ⟨gc', hgc, hgc1, hgc2⟩ : ∃ gc', deserializeGarbled
        (sendGarbled ord ⟨thrCircuit3 n D T, run.state.f, run.state.fHalf⟩) = .ok gc' ∧
      gc'.circuit = thrCircuit3 n D T ∧
      ∀ x, evaluate E gc' x = evaluate E ⟨thrCircuit3 n D T, run.state.f, run.state.fHalf⟩ x :=
    ⟨_, deserializeGarbled_ok hgf, rfl, evaluate_congr E rfl (iteration_lookup (hord.f _)) (iteration_lookup (hord.h _))⟩
  refine ⟨gc', ⟨hbuild, hgb, hK, hzl, hzb, hgc⟩, fun a b c ha hb hc => ?_⟩
  rw [evaluatedKey_congr E hgc1 hgc2]
  refine congrArg (evaluatedKey E _) ?_
  have e1 := pick_append (z := z) (a := a ++ b) (b := c) (by simp [ha, hb, hc]; omega)
  have e2 := pick_append (z := z.take (n + n)) (a := a) (b := b) (by simp [ha, hb]; omega)
  rw [List.length_append, ha, hb] at e1
  rw [ha] at e2
  rw [← e1, ← e2]
  rw [List.take_take, Nat.min_eq_left (by omega), List.drop_take, Nat.add_sub_cancel_left, Nat.mul_two]

/-- The garbler's key and the evaluator's, in terms of the three inputs. -/
theorem half3 (E : Env) (rnd : GarbleRand) (ord : MapOrder) (hord : ord.Valid) {n t D : Nat} (hn : 0 < n)
    (hfit : 5 * n + 2 < 2 ^ 64) (hbuild : buildCircuitV2 E.dbg n t = .ok (thrCircuit3 n D (t + 1))) (hD : GoodDomain D)
    (ht : t < 65535) :
    ∃ z K gc gc' d, Held3 E rnd ord n t (thrCircuit3 n D (t + 1)) z K gc gc' d ∧
      ∀ a b c : List Bool, a.length = n → b.length = n → c.length = n →
        ∃ K', evaluatedKey E gc' (pick (z.take n) a ++ pick ((z.drop n).take n) b ++ pick (z.drop (n * 2)) c) = .ok K' ∧
          (weight (xorBits (xorBits a b) c) % D ≤ t → K' = K) ∧
          (t < weight (xorBits (xorBits a b) c) % D → NoOutputCollision E rnd (buildCircuitV2 E.dbg n t) → K' ≠ K) := by
  obtain ⟨run, z, d, K, hrun, hgb, hzl, hzb, hK, hev⟩ := half_key E rnd
    (thr3_typedD (T := t + 1) hn good2 hD)
    (by intro d hd; exact (List.mem_replicate.mp hd).2) (by show 0 < n * 3; omega) rfl (thr3_last n D (t + 1))
  change z.length = n * 3 at hzl
  obtain ⟨gc', H, he⟩ := held3 (rnd := rnd) hord hbuild (by unfold GoodDomain at hD; omega) (by omega) hfit hrun hgb hzl hzb hK
  refine ⟨z, K, _, gc', d, H, fun a b c ha hb hc => ?_⟩
  obtain ⟨K', hK', h1, h0⟩ := hev (a ++ b ++ c) (by simp [ha, hb, hc, thrCircuit3]; omega)
  rw [meaning_thr3 ha hb hc, weight_mod] at h1 h0
  exact ⟨K', (he a b c ha hb hc).trans hK', fun h => h1 (by rw [if_pos (by omega)]),
    fun h hnc => h0 (by rw [if_neg (by omega)]) (hnc _ run hbuild hrun)⟩

theorem mask_weight {p q mask : Bytes} (h1 : mask.length = p.length) (h2 : q.length = p.length) :
    weight (xorBits (xorBits (u8VecToBoolVec p) (u8VecToBoolVec mask)) (u8VecToBoolVec (xorB mask q))) = bitDistance p q := by
  rw [← bitDistance_eq p q h2, hamming_eq_weight, unpack_xor mask q (by omega)]
  congr 1
  have l1 : (u8VecToBoolVec mask).length = (u8VecToBoolVec p).length := by rw [unpack_length, unpack_length, h1]
  have l2 : (u8VecToBoolVec q).length = (u8VecToBoolVec p).length := by rw [unpack_length, unpack_length, h2]
  apply List.ext_getElem
  · simp [xorBits, l1, l2]
  · intro i h1 h2
    simp [xorBits]

theorem mask_weight' {p q mask : Bytes} (h1 : mask.length = p.length) (h2 : q.length = p.length) :
    weight (xorBits (xorBits (u8VecToBoolVec (xorB mask p)) (u8VecToBoolVec mask)) (u8VecToBoolVec q)) = bitDistance p q := by
  rw [← mask_weight (p := p) (q := q) (mask := mask) h1 h2, unpack_xor mask q (by omega), unpack_xor mask p (by omega)]
  congr 1
  have l1 : (u8VecToBoolVec mask).length = (u8VecToBoolVec p).length := by rw [unpack_length, unpack_length, h1]
  have l2 : (u8VecToBoolVec q).length = (u8VecToBoolVec p).length := by rw [unpack_length, unpack_length, h2]
  apply List.ext_getElem
  · simp [xorBits, l1, l2]
  · intro i h1 h2
    simp only [xorBits, List.getElem_zipWith]
    generalize (u8VecToBoolVec mask)[i]'_ = x
    generalize (u8VecToBoolVec p)[i]'_ = y
    generalize (u8VecToBoolVec q)[i]'_ = w
    cases x <;> cases y <;> cases w <;> rfl

end FP
