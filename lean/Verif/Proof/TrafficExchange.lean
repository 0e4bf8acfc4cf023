import Verif.Proof.TrafficLoop
import Verif.Spec.Fpake
/-
Sizes of the messages of the key exchanges.
-/
namespace FP
open Spec

/-! ### Threshold circuits -/

/-- What is needed of a threshold circuit with `k` strings of `n` bits. -/
structure ThrOK (k n : Nat) (c : Circuit) : Prop where
  size : garbledSize c = thresholdSize k n
  inputs : c.numInputs = k * n
  doms : ∀ d ∈ c.inputDomains, d = 2
  wf : (∃ g gs, c.gates = g :: gs ∧ g.kind = .add ∧ g.inputs = []) ∨ WellFormed SmallPos c ∧ BitProjections c

theorem sum_gates (n a : Nat) (mk : Nat → Gate) (f : Gate → Nat) (h : ∀ i, f (mk i) = a) :
    (((List.range n).map mk).map f).sum = n * a := by
  rw [List.map_map, show f ∘ mk = fun _ => a from funext h, sum_map_const, List.length_range, Nat.mul_comm]

theorem tail_sizes (p n D T : Nat) : ((tailGates p n D T).map gateSize).sum = n * 36 + (22 + 8 * n) + 36 ∧
    ((tailGates p n D T).map tableSize).sum = n * (16 + 2 * labelSize D) + (16 + D * 36) := by
  unfold tailGates
  rw [List.map_append, List.sum_append, List.map_append, List.sum_append]
  rw [sum_gates n 36 _ gateSize fun i => rfl, sum_gates n (16 + 2 * labelSize D) _ tableSize fun i => rfl]
  refine ⟨?_, ?_⟩
  · simp [gateSize, kindSize]; omega
  · simp [tableSize, ProjKind.dom, labelSize]

theorem thr_bits {n D T : Nat} : BitProjections (thrCircuit n D T) ∧ BitProjections (thrCircuit3 n D T) := by
  have ht : ∀ p, ∀ g ∈ tailGates p n D T, ∀ q, g.kind = .proj q → g.domain = 2 ∨ q.dom = 2 := by
    intro p g hg q hk
    rcases List.mem_append.mp hg with h | h
    · obtain ⟨i, -, rfl⟩ := List.mem_map.mp h
      exact .inl rfl
    · simp only [List.mem_cons, List.not_mem_nil, or_false] at h
      rcases h with rfl | rfl
      · cases hk
      · cases hk; exact .inr rfl
  constructor
  · intro g hg q hk
    rcases List.mem_append.mp hg with h | h
    · obtain ⟨i, -, rfl⟩ := List.mem_map.mp h
      cases hk
    · exact ht _ g h q hk
  · intro g hg q hk
    rcases List.mem_append.mp hg with h | h
    · obtain ⟨i, -, rfl⟩ := List.mem_map.mp h
      cases hk
    · exact ht _ g h q hk

theorem addR_dom {dbg : Bool} {n D : Nat} (h8 : n % 8 = 0) (h : addR dbg 65536 (n % 65536) 1 = .ok D) :
    D = n % 65536 + 1 ∧ SmallPos D := by
  rw [addR_ok dbg (by omega)] at h
  cases Except.ok.inj h
  exact ⟨rfl, by unfold SmallPos; omega⟩

theorem build_post {dbg : Bool} {n t : Nat} (h8 : n % 8 = 0) : Post (ThrOK 2 n) (buildCircuit dbg n t) := by
  cases hD : addR dbg 65536 (n % 65536) 1 with
  | error e => unfold buildCircuit; rw [hD]; exact .err
  | ok D =>
    cases hT : addR dbg 65536 t 1 with
    | error e => unfold buildCircuit; rw [hD, okb, hT]; exact .err
    | ok T =>
      rw [buildCircuit_eq hD hT]
      obtain ⟨rfl, hs⟩ := addR_dom h8 hD
      refine .ok ⟨?_, Nat.mul_comm .., fun d hd => (List.mem_replicate.mp hd).2, ?_⟩
      · obtain ⟨e1, e2⟩ := tail_sizes (2 * n) n (n % 65536 + 1) T
        unfold garbledSize thresholdSize
        show (24 + 8 + ((xorGates n ++ tailGates (2 * n) n (n % 65536 + 1) T).map gateSize).sum + 8 +
          2 * (List.replicate (n * 2) 2).length) + (16 + ((xorGates n ++ tailGates (2 * n) n (n % 65536 + 1) T).map tableSize).sum) = _
        rw [List.map_append, List.sum_append, e1, List.map_append, List.sum_append, e2]
        unfold xorGates
        rw [sum_gates n 38 _ gateSize fun i => rfl, sum_gates n 0 _ tableSize fun i => rfl, List.length_replicate]
        omega
      · by_cases hn : n = 0
        · subst hn
          exact .inl ⟨_, _, rfl, rfl, rfl⟩
        · exact .inr ⟨thr_typedD (by omega) (by decide) hs, thr_bits.1⟩

theorem build2_post {dbg : Bool} {n t : Nat} (h8 : n % 8 = 0) : Post (ThrOK 3 n) (buildCircuitV2 dbg n t) := by
  cases hD : addR dbg 65536 (n % 65536) 1 with
  | error e => unfold buildCircuitV2; rw [hD]; exact .err
  | ok D =>
    cases hT : addR dbg 65536 t 1 with
    | error e => unfold buildCircuitV2; rw [hD, okb, hT]; exact .err
    | ok T =>
      rw [buildCircuitV2_eq hD hT]
      obtain ⟨rfl, hs⟩ := addR_dom h8 hD
      refine .ok ⟨?_, Nat.mul_comm .., fun d hd => (List.mem_replicate.mp hd).2, ?_⟩
      · obtain ⟨e1, e2⟩ := tail_sizes (3 * n) n (n % 65536 + 1) T
        unfold garbledSize thresholdSize
        show (24 + 8 + ((xorGates3 n ++ tailGates (3 * n) n (n % 65536 + 1) T).map gateSize).sum + 8 +
          2 * (List.replicate (n * 3) 2).length) + (16 + ((xorGates3 n ++ tailGates (3 * n) n (n % 65536 + 1) T).map tableSize).sum) = _
        rw [List.map_append, List.sum_append, e1, List.map_append, List.sum_append, e2]
        unfold xorGates3
        rw [sum_gates n 46 _ gateSize fun i => rfl, sum_gates n 0 _ tableSize fun i => rfl, List.length_replicate]
        omega
      · by_cases hn : n = 0
        · subst hn
          exact .inl ⟨_, _, rfl, rfl, rfl⟩
        · exact .inr ⟨thr3_typedD (by omega) (by decide) hs, thr_bits.2⟩

/-! ### Garbling -/

theorem garbleRun_empty (E : Env) (rnd : GarbleRand) {c : Circuit} {P : GarbleRun → Prop}
    (h : ∃ g gs, c.gates = g :: gs ∧ g.kind = .add ∧ g.inputs = []) : Post P (garbleRun E rnd c) := by
  obtain ⟨g, gs, e, hk, hi⟩ := h
  unfold garbleRun
  refine (Post.any _).bind fun _ _ => (Post.any _).bind fun _ _ => (Post.any _).bind fun _ _ => (Post.any _).bind fun _ _ => ?_
  rw [e, List.foldlM_cons]
  refine Post.bind (P := fun _ => False) ?_ fun _ h => h.elim
  refine Post.bind (P := fun _ => False) ?_ fun _ h => h.elim
  refine Post.bind (P := fun _ => False) ?_ fun _ h => h.elim
  unfold garbleGate
  rw [hk, hi]
  exact .err

theorem garbleRun_enc (E : Env) (rnd : GarbleRand) {c : Circuit} (h : ∀ d ∈ c.inputDomains, d = 2) :
    Post (fun r => r.encWires.length = c.numInputs ∧ ∀ w ∈ r.encWires, w.domain = .binary) (garbleRun E rnd c) := by
  unfold garbleRun
  refine (Post.any _).bind fun _ _ => (inputs_dom _ _).bind fun ws hws => (sliceR_post ..).bind fun enc henc =>
    (Post.any _).bind fun _ _ => (Post.any _).bind fun _ _ => .ok ⟨henc.1, fun w hw => ?_⟩
  obtain ⟨i, hi, e⟩ := List.mem_iff_getElem.mp (henc.2 w hw)
  have hi' : i < c.inputDomains.length := by rw [← hws.len]; exact hi
  obtain ⟨w', h1, h2⟩ := hws.dom i _ (List.getElem?_eq_getElem hi')
  rw [List.getElem?_eq_getElem hi] at h1
  rw [← Option.some.inj h1, e, h _ (List.getElem_mem hi')] at h2
  exact binary_of_new h2

/-- A garbled threshold circuit and its labels. -/
structure GarbledOK (k n : Nat) (g : GarbledCircuit × List (Wire × Wire) × DecodingKey) : Prop where
  size : ∀ ord : MapOrder, ord.Valid → (sendGarbled ord g.1).length = thresholdSize k n
  len : g.2.1.length = k * n
  labels : ∀ p ∈ g.2.1, p.1.domain = .binary ∧ p.2.domain = .binary

theorem garbleBinary_sizes (E : Env) (rnd : GarbleRand) {k n : Nat} {c : Circuit} (hc : ThrOK k n c) :
    Post (GarbledOK k n) (garbleBinary E rnd c) := by
  have hrun : Post (fun r => (∀ ord : MapOrder, ord.Valid → (sendGarbled ord ⟨c, r.state.f, r.state.fHalf⟩).length = thresholdSize k n) ∧
      r.encWires.length = k * n ∧ ∀ w ∈ r.encWires, w.domain = .binary) (garbleRun E rnd c) := by
    rcases hc.wf with h | h
    · exact garbleRun_empty E rnd h
    · refine ⟨fun r e => ⟨fun ord ho => ?_, ?_⟩⟩
      · have ht := (garbleRun_tab E rnd (.inl h)).out r e
        rw [← hc.size]
        refine garbled_length ht ?_ (ho.f _) (ho.h _)
        rw [gatesFit_outs h.1.gates]
        exact List.nodup_range'
      · have := (garbleRun_enc E rnd hc.doms).out r e
        rw [hc.inputs] at this
        exact this
  unfold garbleBinary garble
  refine Post.bind (P := fun g : GarbledCircuit × EncodingKey × DecodingKey =>
    (∀ ord : MapOrder, ord.Valid → (sendGarbled ord g.1).length = thresholdSize k n) ∧
      g.2.1.wires.length = k * n ∧ ∀ w ∈ g.2.1.wires, w.domain = .binary) (hrun.bind fun r hr => .ok hr) ?_
  rintro ⟨gc, e, d⟩ ⟨h1, h2, h3⟩
  refine Post.bind (P := fun b : BinaryEncodingKey => b.zeros = e.wires ∧ ∀ w ∈ b.ones, w.domain = .binary) ?_ fun b hb => ?_
  · unfold BinaryEncodingKey.ofKey
    refine (Post.any _).bind fun _ _ => (Post.any _).bind fun _ _ =>
      (Post.mapM (P := fun w : Wire => w.domain = .binary) _ fun w hw => (add_post ..).mono fun c hc => by rw [hc]; exact h3 w hw).bind
        fun ones ho => .ok ⟨rfl, ho.2⟩
  · refine Post.bind (P := fun z : List (Wire × Wire) => z.length = k * n ∧ ∀ p ∈ z, p.1.domain = .binary ∧ p.2.domain = .binary) ?_
      fun z hz => .ok ⟨h1, hz.1, hz.2⟩
    unfold BinaryEncodingKey.zipped
    refine (Post.mapM (P := fun p : Wire × Wire => p.1.domain = .binary ∧ p.2.domain = .binary) _ fun i _ =>
      (idxR_post _ _).bind fun a ha => (idxR_post _ _).bind fun b' hb' => .ok ⟨h3 a (hb.1 ▸ ha), hb.2 b' hb'⟩).mono fun z hz => ⟨?_, hz.2⟩
    rw [hz.1, List.length_range, hb.1, h2]

theorem wire_bytes_length (w : Wire) : w.bytes.length = 32 := by unfold Wire.bytes; simp

theorem wires_enc_length {ws : List Wire} {n : Nat} (hl : ws.length = n) (h : ∀ w ∈ ws, w.domain = .binary) :
    (Codec.wires.enc ws).length = 8 + n * 36 := by
  show ((Codec.vec Codec.wire).enc ws).length = _
  rw [vec_enc_length, show (ws.map fun x => (Codec.wire.enc x).length) = ws.map fun _ => 36 from
    List.map_congr_left fun w hw => by rw [wire_enc_length, h w hw]; rfl, sum_map_const, hl, Nat.mul_comm]

theorem labelPairs_post (e : List (Wire × Wire)) (o n : Nat) :
    Post (fun l => l.length = n ∧ ∀ p ∈ l, p.1.length = 32 ∧ p.2.length = 32) (labelPairs e o n) := by
  unfold labelPairs
  refine (Post.mapM (P := fun p : Bytes × Bytes => p.1.length = 32 ∧ p.2.length = 32) _ fun i _ => (Post.any _).bind fun p _ =>
    .ok ⟨wire_bytes_length _, wire_bytes_length _⟩).mono fun l h => ⟨by simpa using h.1, h.2⟩

theorem labelsAt_post {e : List (Wire × Wire)} (he : ∀ p ∈ e, p.1.domain = .binary ∧ p.2.domain = .binary) (o : Nat) (bits : List Bool) :
    Post (fun l => l.length = bits.length ∧ ∀ w ∈ l, w.domain = .binary) (labelsAt e o bits) := by
  unfold labelsAt
  refine (Post.mapM (P := fun w : Wire => w.domain = .binary) _ fun i _ => (idxR_post _ _).bind fun p hp => .ok ?_).mono
    fun l h => ⟨by simpa using h.1, h.2⟩
  split
  · exact (he p hp).2
  · exact (he p hp).1

theorem bitsUpTo_post (b : Bytes) (n : Nat) : Post (fun l => l.length = n * 8) (bitsUpTo b n) := by
  unfold bitsUpTo
  exact (Post.mapM (P := fun _ => True) _ fun _ _ => .any _).mono fun l h => by rw [h.1, List.length_range, Nat.mul_comm]

theorem encodeRows_post (dbg : Bool) (e : List (Wire × Wire)) (o n : Nat) (b : Bytes) :
    Post (fun l => l.length = n * 32) (encodeRows dbg e o n b) := by
  unfold encodeRows
  refine Post.foldlM (P := fun l : Bytes => l.length = n * 32) _ _ (by simp) fun l hl i _ => ?_
  exact (Post.any _).bind fun _ _ => (Post.any _).bind fun p _ => (updateRow_post fun row hr =>
    (xorBytesInplace_post ..).mono fun r h => by rw [h, hr]).mono fun l' h => by rw [h, hl]

theorem maskPasswords_post (dbg : Bool) (mask : Bytes) (len : Nat) (ps : List Bytes) :
    Post (fun l => l.length = ps.length ∧ ∀ b ∈ l, b.length = len) (maskPasswords dbg mask len ps) := by
  unfold maskPasswords
  exact Post.mapM (P := fun b : Bytes => b.length = len) _ fun p _ => (xorBytesInplace_post ..).bind fun m hm =>
    (xorBytesInplace_post ..).mono fun r hr => by rw [hr, hm, List.length_replicate]

theorem u8Bits_length (b : Bytes) : (u8VecToBoolVec b).length = b.length * 8 := by
  unfold u8VecToBoolVec
  rw [List.length_flatMap, show (b.map fun s => ((List.range 8).map fun i => ((s >>> i) &&& 1 == 1 : Bool)).length) = b.map fun _ => 8 from
    List.map_congr_left fun s _ => by simp, sum_map_const, Nat.mul_comm]

theorem clog_log2 {n d bits : Nat} {dbg : Bool} (h0 : 0 < n) (h : log2R dbg bits n = .ok d) : d = Nat.clog 2 n := by
  unfold log2R subR at h
  rw [if_pos (by omega), okb] at h
  have h := Except.ok.inj h
  rw [← h]
  split
  · next h1 =>
    have : n = 1 := by omega
    rw [this]; simp
  · next h1 =>
    apply Nat.le_antisymm
    · by_contra hlt
      have hle : Nat.clog 2 n ≤ (n - 1).log2 := by omega
      have h2 := (Nat.clog_le_iff_le_pow (by decide : 1 < 2)).mp hle
      have h3 := Nat.log2_self_le h1
      omega
    · refine (Nat.clog_le_iff_le_pow (by decide : 1 < 2)).mpr ?_
      have := Nat.lt_log2_self (n := n - 1)
      omega

/-! ### Parties -/

theorem otSend_shape (C : Curve) (X : Crypto) (o : OTSend) {msg : List (Bytes × Bytes)} {n : Nat}
    (h : msg.length = n ∧ ∀ p ∈ msg, p.1.length = 32 ∧ p.2.length = 32) :
    Shape (fun _ => True) (o.run C X msg) (extSenderSizes n 32) :=
  (apricotSender_shape X o.arm o.cores o.sched o.coin o.delta (coReceiver_shape C X o.base) msg 32 fun m hm =>
    (h.2 m (List.mem_of_mem_head? hm)).1).cast (by rw [h.1])

theorem otRecv_shape (C : Curve) (X : Crypto) (o : OTRecv) {choices : List Bool} {n : Nat} (h : choices.length = n) :
    Shape (fun _ => True) (o.run C X choices) (extReceiverSizes n) :=
  (apricotReceiver_shape X o.arm o.cores o.sched1 o.sched2 o.coin o.bonus o.seed0 o.seed1 (coSender_shape C X o.base) choices).cast
    (by rw [h])

theorem clog_bound {n len bits d : Nat} {dbg : Bool} (h0 : 0 < n) (hn : n < 2 ^ 32) (hl : len < 2 ^ 32)
    (h : log2R dbg bits n = .ok d) : d = Nat.clog 2 n ∧ d < 64 ∧ 2 ^ d * len < 2 ^ 64 := by
  have e := clog_log2 h0 h
  have h32 : d ≤ 32 := by
    rw [e]
    exact (Nat.clog_le_iff_le_pow (by decide : 1 < 2)).mpr (by omega)
  refine ⟨e, by omega, ?_⟩
  calc 2 ^ d * len ≤ 2 ^ 32 * len := Nat.mul_le_mul_right _ (Nat.pow_le_pow_right (by decide) h32)
    _ < 2 ^ 32 * 2 ^ 32 := Nat.mul_lt_mul_of_pos_left hl (by decide)
    _ = 2 ^ 64 := by decide

theorem manySend_shape (C : Curve) (X : Crypto) (o : ManySend) {msgs : List Bytes} {d len : Nat} (h : ∀ m ∈ msgs, m.length = len)
    (hd : d < 64) (hl : 2 ^ d * len < 2 ^ 64) :
    Shape (fun _ => True) (o.run C X msgs d) (manySenderSizes d len) :=
  manySender_shape X o.cores o.order o.keys (coSender_shape C X o.base) msgs d len
    (fun m hm => h m (List.mem_of_mem_head? hm)) hd hl

theorem manyRecv_shape (C : Curve) (X : Crypto) (base : Nat → Nat) (index d : Nat) :
    Shape (fun _ => True) (manyRecv C X base index d) (baseReceiverSizes d) :=
  manyReceiver_shape X (coReceiver_shape C X base) index d

theorem halfGarbler_shape (C : Curve) (X : Crypto) (g : GarblerDraws) (hg : g.ord.Valid) (password : Bytes) (t : Nat) :
    Shape (fun _ => True) (HalfKey.garbler C X g password t) (halfGarblerSizes password.length) := by
  unfold HalfKey.garbler halfGarbler
  dsimp only
  rw [u8Bits_length]
  refine Shape.step (build_post (by omega)) fun c hc => Shape.step (garbleBinary_sizes _ _ hc) fun z hz =>
    Shape.step (sliceR_post ..) fun own hown => Shape.step (sliceR_post ..) fun theirs ht => ?_
  refine (otSend_shape C X g.ot (n := password.length * 8) ⟨?_, ?_⟩).bind fun _ _ => Shape.send (hz.size _ hg) ?_
  · unfold bytePairs
    rw [List.length_map, ht.1, hz.len]
    omega
  · intro p hp
    unfold bytePairs at hp
    obtain ⟨q, -, rfl⟩ := List.mem_map.mp hp
    exact ⟨wire_bytes_length _, wire_bytes_length _⟩
  · refine Shape.step (P := fun l => l.length = password.length * 8 ∧ ∀ w ∈ l, w.domain = .binary) ?_ fun l hl =>
      Shape.send (wires_enc_length hl.1 hl.2) (Shape.lifted _)
    unfold BinaryEncodingKey.encode BinaryEncodingKey.unzipped
    refine (Post.any _).bind fun _ _ => (Post.mapM (P := fun w : Wire => w.domain = .binary) _ fun p _ => ?_).mono fun l h =>
      ⟨by rw [h.1, List.length_zipIdx, u8Bits_length], h.2⟩
    obtain ⟨b, i⟩ := p
    dsimp only
    split
    · refine (idxR_post _ _).mono fun w hw => ?_
      rw [List.unzip_eq_map] at hw
      obtain ⟨q, hq, rfl⟩ := List.mem_map.mp hw
      exact (hz.labels q (hown.2 q hq)).2
    · refine (idxR_post _ _).mono fun w hw => ?_
      rw [List.unzip_eq_map] at hw
      obtain ⟨q, hq, rfl⟩ := List.mem_map.mp hw
      exact (hz.labels q (hown.2 q hq)).1

theorem halfEvaluator_shape (C : Curve) (X : Crypto) (o : OTRecv) (password : Bytes) :
    Shape (fun _ => True) (HalfKey.evaluator C X o password) (halfEvaluatorSizes password.length) := by
  unfold HalfKey.evaluator halfEvaluator
  exact ((otRecv_shape C X o (u8Bits_length password)).bind (L' := []) fun _ _ => Shape.skip fun _ => Shape.recv fun _ =>
    Shape.skip fun _ => Shape.recv fun _ => Shape.skip fun _ => Shape.lifted _).cast (List.append_nil _)

theorem fpakeFirst_shape (C : Curve) (X : Crypto) (g : GarblerDraws) (o : OTRecv) (hg : g.ord.Valid) (password : Bytes) (t : Nat) :
    Shape (fun _ => True) (fpakeFirst C X g o password t) (halfGarblerSizes password.length ++ halfEvaluatorSizes password.length) := by
  unfold fpakeFirst
  exact (halfGarbler_shape C X g hg password t).bind fun _ _ =>
    ((halfEvaluator_shape C X o password).bind (L' := []) fun _ _ => Shape.ret trivial).cast (List.append_nil _)

theorem fpakeSecond_shape (C : Curve) (X : Crypto) (o : OTRecv) (g : GarblerDraws) (hg : g.ord.Valid) (password : Bytes) (t : Nat) :
    Shape (fun _ => True) (fpakeSecond C X o g password t) (halfEvaluatorSizes password.length ++ halfGarblerSizes password.length) := by
  unfold fpakeSecond
  exact (halfEvaluator_shape C X o password).bind fun _ _ =>
    ((halfGarbler_shape C X g hg password t).bind (L' := []) fun _ _ => Shape.ret trivial).cast (List.append_nil _)

/-- The password at position 0. -/
theorem idx0_post {passwords : List Bytes} {len : Nat} (h : ∀ p ∈ passwords.head?, p.length = len) :
    Post (fun p => p.length = len) (idxR passwords 0) := by
  refine ⟨fun p e => h p ?_⟩
  unfold idxR at e
  cases passwords with
  | nil => cases e
  | cons q l => exact congrArg some (Except.ok.inj e)

theorem drawMask_length (r : Nat → Byte) (n : Nat) : (drawMask r n).length = n := by unfold drawMask; simp

theorem garblerServerV3_shape (C : Curve) (X : Crypto) (r : ServerDraws) (hr : r.g.ord.Valid) (passwords : List Bytes) (t len : Nat)
    (h0 : passwords.length < 2 ^ 32) (hlen : ∀ p ∈ passwords.head?, p.length = len) (hl : len < 2 ^ 32) :
    Shape (fun _ => True) (garblerServerV3 C X r passwords t) (serverGarblerSizes passwords.length len) := by
  have hpos : ∀ p ∈ passwords, 0 < passwords.length := fun p hp => List.length_pos_of_mem hp
  unfold garblerServerV3
  refine Shape.step (P := fun p => p ∈ passwords ∧ p.length = len) ⟨fun p e => ⟨(idxR_post _ _).out p e, (idx0_post hlen).out p e⟩⟩ ?_
  rintro p ⟨hmem, rfl⟩
  have h0' := hpos p hmem
  dsimp only
  refine Shape.step (build2_post (by omega)) fun c hc => Shape.step (garbleBinary_sizes _ _ hc) fun z hz => Shape.send (hz.size _ hr) ?_
  refine Shape.step (labelPairs_post ..) fun l hl1 => (otSend_shape C X r.g.ot hl1).bind fun _ _ => ?_
  refine Shape.step (encodeRows_post ..) fun rows hrows => Shape.send hrows ?_
  refine Shape.step (P := fun d => d = Nat.clog 2 passwords.length ∧ d < 64 ∧ 2 ^ d * p.length < 2 ^ 64)
    ⟨fun d e => clog_bound h0' h0 hl e⟩ ?_
  rintro d ⟨rfl, hd1, hd2⟩
  refine Shape.step (maskPasswords_post ..) fun m hm => (manySend_shape C X r.many hm.2 hd1 hd2).bind fun _ _ => ?_
  refine Shape.step (labelPairs_post ..) fun l2 hl2 => ((otSend_shape C X r.ot2 hl2).bind (L' := []) fun _ _ => ?_).cast (List.append_nil _)
  exact Shape.skip fun _ => Shape.ret trivial

theorem garblerServerV2_shape (C : Curve) (X : Crypto) (r : ServerDraws) (hr : r.g.ord.Valid) (passwords : List Bytes) (t len : Nat)
    (h0 : passwords.length < 2 ^ 32) (hlen : ∀ p ∈ passwords.head?, p.length = len) (hl : len < 2 ^ 32) :
    Shape (fun _ => True) (garblerServerV2 C X r passwords t) (serverGarblerSizes passwords.length len) := by
  have hpos : ∀ p ∈ passwords, 0 < passwords.length := fun p hp => List.length_pos_of_mem hp
  unfold garblerServerV2
  refine Shape.step (P := fun p => p ∈ passwords ∧ p.length = len) ⟨fun p e => ⟨(idxR_post _ _).out p e, (idx0_post hlen).out p e⟩⟩ ?_
  rintro p ⟨hmem, rfl⟩
  have h0' := hpos p hmem
  dsimp only
  refine Shape.step (build2_post (by omega)) fun c hc => Shape.step (garbleBinary_sizes _ _ hc) fun z hz => Shape.send (hz.size _ hr) ?_
  refine Shape.step (labelPairs_post ..) fun l hl1 => (otSend_shape C X r.g.ot hl1).bind fun _ _ => ?_
  refine Shape.step (encodeRows_post ..) fun rows hrows => Shape.send hrows ?_
  refine Shape.step (P := fun d => d = Nat.clog 2 passwords.length ∧ d < 64 ∧ 2 ^ d * p.length < 2 ^ 64)
    ⟨fun d e => clog_bound h0' h0 hl e⟩ ?_
  rintro d ⟨rfl, hd1, hd2⟩
  refine Shape.step (maskPasswords_post ..) fun m hm => (manySend_shape C X r.many hm.2 hd1 hd2).bind fun _ _ => ?_
  refine Shape.step (labelPairs_post ..) fun l2 hl2 => ((otSend_shape C X r.ot2 hl2).bind (L' := []) fun _ _ => ?_).cast (List.append_nil _)
  exact Shape.lifted _

theorem evaluatorClientV3_shape (C : Curve) (X : Crypto) (r : ClientDraws) (password : Bytes) (number index : Nat) (h0 : 0 < number) :
    Shape (fun _ => True) (evaluatorClientV3 C X r password number index) (clientEvaluatorSizes number password.length) := by
  unfold evaluatorClientV3
  dsimp only
  refine Shape.recv fun _ => Shape.skip fun gc => Shape.step (bitsUpTo_post ..) fun ch hch => (otRecv_shape C X r.ot hch).bind fun e1 _ =>
    Shape.recv fun _ => Shape.step (P := fun d => d = Nat.clog 2 number) ⟨fun d e => clog_log2 h0 e⟩ ?_
  rintro d rfl
  refine (manyRecv_shape C X r.many index _).bind fun m _ => Shape.step (bitsUpTo_post ..) fun mc hmc => ?_
  refine ((otRecv_shape C X r.ot2 hmc).bind (L' := []) fun e2 _ => ?_).cast (List.append_nil _)
  exact Shape.skip fun _ => Shape.skip fun _ => Shape.skip fun _ => Shape.skip fun _ => Shape.skip fun _ => Shape.ret trivial

theorem evaluatorClientV2_shape (C : Curve) (X : Crypto) (r : ClientDraws) (password : Bytes) (number index : Nat) (h0 : 0 < number) :
    Shape (fun _ => True) (evaluatorClientV2 C X r password number index) (clientEvaluatorSizes number password.length) := by
  unfold evaluatorClientV2
  dsimp only
  refine Shape.recv fun _ => Shape.skip fun gc => Shape.step (bitsUpTo_post ..) fun ch hch => (otRecv_shape C X r.ot hch).bind fun e1 _ =>
    Shape.recv fun _ => Shape.step (P := fun d => d = Nat.clog 2 number) ⟨fun d e => clog_log2 h0 e⟩ ?_
  rintro d rfl
  refine (manyRecv_shape C X r.many index _).bind fun m _ => Shape.step (bitsUpTo_post ..) fun mc hmc => ?_
  refine ((otRecv_shape C X r.ot2 hmc).bind (L' := []) fun e2 _ => ?_).cast (List.append_nil _)
  exact Shape.skip fun _ => Shape.skip fun _ => Shape.skip fun _ => Shape.skip fun _ => Shape.lifted _

theorem garblerClientV3_shape (C : Curve) (X : Crypto) (r : GarblerDraws) (hr : r.ord.Valid) (password masked : Bytes) (index number t : Nat) :
    Shape (fun _ => True) (garblerClientV3 C X r password masked index number t) (clientGarblerSizes password.length) := by
  unfold garblerClientV3
  dsimp only
  refine Shape.step (build2_post (by omega)) fun c hc => Shape.step (garbleBinary_sizes _ _ hc) fun z hz =>
    Shape.step (bitsUpTo_post ..) fun bits hb => Shape.step (labelsAt_post hz.labels _ _) fun inp hi => Shape.send (hz.size _ hr) ?_
  refine Shape.send (wires_enc_length (hi.1.trans hb) hi.2) (Shape.step (labelPairs_post ..) fun l hl => ?_)
  exact (otSend_shape C X r.ot hl).bind fun _ _ => Shape.skip fun _ => Shape.step (encodeRows_post ..) fun rows hrows =>
    Shape.send hrows (Shape.lifted _)

theorem garblerClientV2_shape (C : Curve) (X : Crypto) (r : ClientGarbler2) (hr : r.g.ord.Valid) (password : Bytes) (index number t : Nat)
    (h0 : 0 < number) :
    Shape (fun _ => True) (garblerClientV2 C X r password index number t) (clientGarblerSizes2 number password.length) := by
  unfold garblerClientV2
  dsimp only
  refine Shape.step (build2_post (by omega)) fun c hc => Shape.step (garbleBinary_sizes _ _ hc) fun z hz =>
    Shape.step (bitsUpTo_post ..) fun bits hb => Shape.step (labelsAt_post hz.labels _ _) fun inp hi => Shape.send (hz.size _ hr) ?_
  refine Shape.send (wires_enc_length (hi.1.trans hb) hi.2) (Shape.step (labelPairs_post ..) fun l hl => ?_)
  refine (otSend_shape C X r.g.ot hl).bind fun _ _ => Shape.step (P := fun d => d = Nat.clog 2 number) ⟨fun d e => clog_log2 h0 e⟩ ?_
  rintro d rfl
  exact (manyRecv_shape C X r.many index _).bind fun m _ => Shape.skip fun _ => Shape.step (encodeRows_post ..) fun rows hrows =>
    Shape.send hrows (Shape.lifted _)

theorem evaluatorServerV3_shape (C : Curve) (X : Crypto) (r : OTRecv) (passwords : List Bytes) (mask : Bytes) (len : Nat)
    (hlen : ∀ p ∈ passwords.head?, p.length = len) :
    Shape (fun _ => True) (evaluatorServerV3 C X r passwords mask) (halfEvaluatorSizes len) := by
  unfold evaluatorServerV3
  refine Shape.step (idx0_post hlen) ?_
  rintro p rfl
  refine Shape.recv fun _ => Shape.skip fun _ => Shape.recv fun _ => Shape.skip fun _ => Shape.step (bitsUpTo_post ..) fun ch hch => ?_
  refine ((otRecv_shape C X r hch).bind (L' := []) fun e _ => Shape.recv fun _ => ?_).cast (List.append_nil _)
  exact Shape.skip fun _ => Shape.skip fun _ => Shape.skip fun _ => Shape.lifted _

theorem evaluatorServerV2_shape (C : Curve) (X : Crypto) (r : ServerEvaluator2) (passwords : List Bytes) (len : Nat)
    (h0 : passwords.length < 2 ^ 32) (hlen : ∀ p ∈ passwords.head?, p.length = len) (hl : len < 2 ^ 32) :
    Shape (fun _ => True) (evaluatorServerV2 C X r passwords) (serverEvaluatorSizes2 passwords.length len) := by
  have hpos : ∀ p ∈ passwords, 0 < passwords.length := fun p hp => List.length_pos_of_mem hp
  unfold evaluatorServerV2
  refine Shape.step (P := fun p => p ∈ passwords ∧ p.length = len) ⟨fun p e => ⟨(idxR_post _ _).out p e, (idx0_post hlen).out p e⟩⟩ ?_
  rintro p ⟨hmem, rfl⟩
  have h0' := hpos p hmem
  dsimp only
  refine Shape.recv fun _ => Shape.skip fun _ => Shape.recv fun _ => Shape.skip fun _ => Shape.step (bitsUpTo_post ..) fun ch hch =>
    Shape.step (maskPasswords_post ..) fun m hm => (otRecv_shape C X r.ot hch).bind fun e _ => ?_
  refine Shape.step (P := fun d => d = Nat.clog 2 passwords.length ∧ d < 64 ∧ 2 ^ d * p.length < 2 ^ 64)
    ⟨fun d e => clog_bound h0' h0 hl e⟩ ?_
  rintro d ⟨rfl, hd1, hd2⟩
  refine ((manySend_shape C X r.many hm.2 hd1 hd2).bind (L' := []) fun _ _ => Shape.recv fun _ => ?_).cast (List.append_nil _)
  exact Shape.skip fun _ => Shape.skip fun _ => Shape.skip fun _ => Shape.lifted _

theorem mfpakeMany_shape (C : Curve) (X : Crypto) (r : ManyDraws) (hr : r.g.ord.Valid) (passwords : List Bytes) (t len : Nat)
    (h0 : passwords.length < 2 ^ 32) (hlen : ∀ p ∈ passwords.head?, p.length = len) (hl : len < 2 ^ 32) :
    Shape (fun _ => True) (mfpakeMany C X r passwords t)
      (manySenderSizes (Nat.clog 2 passwords.length) len ++ (halfGarblerSizes len ++ halfEvaluatorSizes len)) := by
  have hpos : ∀ p ∈ passwords, 0 < passwords.length := fun p hp => List.length_pos_of_mem hp
  unfold mfpakeMany
  refine Shape.step (P := fun p => p ∈ passwords ∧ p.length = len) ⟨fun p e => ⟨(idxR_post _ _).out p e, (idx0_post hlen).out p e⟩⟩ ?_
  rintro p ⟨hmem, rfl⟩
  have h0' := hpos p hmem
  dsimp only
  refine Shape.step (maskPasswords_post ..) fun m hm =>
    Shape.step (P := fun d => d = Nat.clog 2 passwords.length ∧ d < 64 ∧ 2 ^ d * p.length < 2 ^ 64)
    ⟨fun d e => clog_bound h0' h0 hl e⟩ ?_
  rintro d ⟨rfl, hd1, hd2⟩
  have hg := halfGarbler_shape C X r.g hr (drawMask r.mask p.length) t
  have he := halfEvaluator_shape C X r.ot (drawMask r.mask p.length)
  rw [drawMask_length] at hg he
  exact (manySend_shape C X r.many hm.2 hd1 hd2).bind fun _ _ => hg.bind fun _ _ =>
    (he.bind (L' := []) fun _ _ => Shape.ret trivial).cast (List.append_nil _)

/-! ### The client of the fourth implementation -/

/-- Waits for a message, then sends messages of the given sizes. -/
def Shape1 {α : Type} (P : Bytes → α → Prop) : Proc α → (Bytes → List Nat) → Prop
  | .recv k, L => ∀ y, Shape (P y) (k y) (L y)
  | .fail _, _ => True
  | _, _ => False

namespace Shape1
variable {α β : Type}

theorem bind {P : Bytes → α → Prop} {Q : Bytes → β → Prop} {p : Proc α} {f : α → Proc β} {L L' : Bytes → List Nat}
    (h : Shape1 P p L) (hf : ∀ y a, P y a → Shape (Q y) (f a) (L' y)) : Shape1 Q (p >>= f) (fun y => L y ++ L' y) := by
  cases p with
  | ret a => exact h.elim
  | fail e => exact trivial
  | send m k => exact h.elim
  | recv k => exact fun y => (h y).bind (hf y)

theorem step {P : α → Prop} {Q : Bytes → β → Prop} {r : R α} {f : α → Proc β} {L : Bytes → List Nat} (h : Post P r)
    (hf : ∀ a, P a → Shape1 Q (f a) L) : Shape1 Q ((liftM r : Proc α) >>= f) L := by
  cases r with
  | ok a => exact hf a (h.out a rfl)
  | error e => exact trivial

theorem traffic {P : Bytes → α → Prop} {p : Proc α} {L : Bytes → List Nat} (h : Shape1 P p L) : TrafficAfter p L := by
  cases p with
  | ret a => exact h.elim
  | fail e => exact ⟨rfl, fun y inc => ⟨List.nil_prefix, fun a e => by cases e⟩⟩
  | send m k => exact h.elim
  | recv k => exact ⟨rfl, fun y inc => (h y).traffic inc⟩

end Shape1

theorem manyRecv_shape1 (C : Curve) (X : Crypto) (base : Nat → Nat) (index d : Nat) (hd : d < 64) :
    Shape1 (fun y m => m.length = y.length / 2 ^ d) (manyRecv C X base index d) (fun _ => baseReceiverSizes d) := by
  unfold manyRecv manyReceiver
  refine Shape1.step (P := fun c : List Bool => c.length = d) ?_ fun c hc y => ?_
  · unfold manyChoices
    exact (Post.mapM (P := fun _ => True) _ fun _ _ => .any _).mono fun c h => by simpa using h.1
  · refine ((coReceiver_shape C X base c).bind (L' := []) fun ms _ => Shape.skip fun ks => Shape.lift ?_).cast (by rw [hc, List.append_nil])
    unfold manyUnmask
    rw [show shlOneR X.dbg 64 d = .ok (2 ^ d) by unfold shlOneR; rw [if_pos hd], okb]
    dsimp only
    refine Post.bind (P := fun x : Bytes => x.length = y.length / 2 ^ d) ?_ fun x hx => ?_
    · unfold vectorRow
      split
      · exact .ok (by simp; omega)
      · exact .err
    · exact Post.foldlM (P := fun x : Bytes => x.length = y.length / 2 ^ d) _ _ hx fun s hs i _ => (Post.any _).bind fun _ _ =>
        (xorBytesInplace_post ..).mono fun r hr => by rw [hr, hs]

theorem mfpakeSingle_shape (C : Curve) (X : Crypto) (r : SingleDraws) (hr : r.g.ord.Valid) (password : Bytes) (index number t : Nat)
    (h0 : 0 < number) (hn : number < 2 ^ 32) :
    Shape1 (fun _ _ => True) (mfpakeSingle C X r password index number t) (fun y => baseReceiverSizes (Nat.clog 2 number) ++
      (halfEvaluatorSizes (y.length / 2 ^ Nat.clog 2 number) ++ halfGarblerSizes (y.length / 2 ^ Nat.clog 2 number))) := by
  unfold mfpakeSingle
  refine Shape1.step (P := fun d => d = Nat.clog 2 number ∧ d < 64 ∧ 2 ^ d * 0 < 2 ^ 64) ⟨fun d e => clog_bound h0 hn (by decide) e⟩ ?_
  rintro d ⟨rfl, hd, -⟩
  refine (manyRecv_shape1 C X r.many index _ hd).bind fun y m hm => Shape.step (P := fun m' => m'.length = y.length / 2 ^ Nat.clog 2 number)
    ((xorBytesInplace_post ..).mono fun m' h => by rw [h, hm]) fun m' hm' => ?_
  rw [← hm']
  exact (halfEvaluator_shape C X r.ot m').bind fun _ _ =>
    ((halfGarbler_shape C X r.g hr m' t).bind (L' := []) fun _ _ => Shape.ret trivial).cast (List.append_nil _)

/-- In a checked build the client goes on only if the strings have the length of its password. -/
theorem mfpakeSingle_checked (C : Curve) (X : Crypto) (hX : X.dbg = true) (r : SingleDraws) (hr : r.g.ord.Valid) (password : Bytes)
    (index number t : Nat) (h0 : 0 < number) :
    Shape (fun _ => True) (mfpakeSingle C X r password index number t) (baseReceiverSizes (Nat.clog 2 number) ++
      (halfEvaluatorSizes password.length ++ halfGarblerSizes password.length)) := by
  unfold mfpakeSingle
  refine Shape.step (P := fun d => d = Nat.clog 2 number) ⟨fun d e => clog_log2 h0 e⟩ ?_
  rintro d rfl
  refine (manyRecv_shape C X r.many index _).bind fun m _ => Shape.step (P := fun m' : Bytes => m'.length = password.length) ?_ fun m' hm' => ?_
  · by_cases he : m.length = password.length
    · exact (xorBytesInplace_post ..).mono fun m' h => by rw [h, he]
    · unfold xorBytesInplace
      rw [show debugAssertR X.dbg (m.length = password.length) = panicR by unfold debugAssertR; rw [hX]; simp [he]; rfl]
      exact .err
  · rw [← hm']
    exact (halfEvaluator_shape C X r.ot m').bind fun _ _ =>
      ((halfGarbler_shape C X r.g hr m' t).bind (L' := []) fun _ _ => Shape.ret trivial).cast (List.append_nil _)

/-! ### The first implementation -/

theorem encodeAll_post (e : List (Wire × Wire)) (n : Nat) (ps : List Bytes) :
    Post (fun l => ∀ b ∈ l, b.length = n * 32) (encodeAll e n ps) := by
  unfold encodeAll
  refine (Post.mapM (P := fun b : Bytes => b.length = n * 32) _ fun p _ => ?_).mono fun l h => h.2
  refine (Post.mapM (P := fun b : Bytes => b.length = 32) _ fun i _ => (Post.any _).bind fun _ _ => (Post.any _).bind fun _ _ =>
    .ok (wire_bytes_length _)).bind fun rows hr => .ok ?_
  rw [List.length_flatten, show rows.map List.length = rows.map fun _ => 32 from List.map_congr_left fun b hb => hr.2 b hb,
    sum_map_const, hr.1, List.length_range, Nat.mul_comm]

theorem garblerServerV1_shape (C : Curve) (X : Crypto) (r : ServerDraws1) (hr : r.g.ord.Valid) (passwords : List Bytes) (t len : Nat)
    (h0 : passwords.length < 2 ^ 32) (hlen : ∀ p ∈ passwords.head?, p.length = len) (hl : len * 8 * 32 < 2 ^ 32) :
    Shape (fun _ => True) (garblerServerV1 C X r passwords t) (serverGarblerSizes1 passwords.length len) := by
  have hpos : ∀ p ∈ passwords, 0 < passwords.length := fun p hp => List.length_pos_of_mem hp
  unfold garblerServerV1
  refine Shape.step (P := fun p => p ∈ passwords ∧ p.length = len) ⟨fun p e => ⟨(idxR_post _ _).out p e, (idx0_post hlen).out p e⟩⟩ ?_
  rintro p ⟨hmem, rfl⟩
  have h0' := hpos p hmem
  dsimp only
  refine Shape.step (build_post (by omega)) fun c hc => Shape.step (garbleBinary_sizes _ _ hc) fun z hz => Shape.send (hz.size _ hr) ?_
  refine Shape.step (labelPairs_post ..) fun l hl1 => (otSend_shape C X r.g.ot hl1).bind fun _ _ => ?_
  refine Shape.step (P := fun d => d = Nat.clog 2 passwords.length ∧ d < 64 ∧ 2 ^ d * (p.length * 8 * 32) < 2 ^ 64)
    ⟨fun d e => clog_bound h0' h0 hl e⟩ ?_
  rintro d ⟨rfl, hd1, hd2⟩
  exact Shape.step (encodeAll_post ..) fun m hm => ((manySend_shape C X r.many hm hd1 hd2).bind (L' := []) fun _ _ =>
    Shape.lifted _).cast (List.append_nil _)

theorem evaluatorClientV1_shape (C : Curve) (X : Crypto) (r : ClientDraws1) (password : Bytes) (number index : Nat) (h0 : 0 < number) :
    Shape (fun _ => True) (evaluatorClientV1 C X r password number index)
      (halfEvaluatorSizes password.length ++ baseReceiverSizes (Nat.clog 2 number)) := by
  unfold evaluatorClientV1
  refine Shape.recv fun _ => Shape.skip fun gc => Shape.step (bitsUpTo_post ..) fun ch hch => (otRecv_shape C X r.ot hch).bind fun e1 _ =>
    Shape.step (P := fun d => d = Nat.clog 2 number) ⟨fun d e => clog_log2 h0 e⟩ ?_
  rintro d rfl
  refine ((manyRecv_shape C X r.many index _).bind (L' := []) fun m _ => ?_).cast (List.append_nil _)
  exact Shape.skip fun _ => Shape.skip fun _ => Shape.lifted _

theorem blindingKeys_post (dbg : Bool) (rk : Nat → Nat → WireBytes) (number bits : Nat) :
    Post (fun rows => ∀ row ∈ rows, ∀ k ∈ row, k.length = 32) (blindingKeys dbg rk number bits) := by
  unfold blindingKeys
  refine (Post.any _).bind fun _ _ => (Post.any _).bind fun _ _ => (Post.any _).bind fun count _ => ?_
  refine Post.bind (P := fun c : List Bytes => ∀ k ∈ c, k.length = 32) ?_ fun c hc => .ok fun row hrow k hk => ?_
  · refine Post.foldlM (P := fun c : List Bytes => ∀ k ∈ c, k.length = 32) _ _ (fun k hk => by rw [(List.mem_replicate.mp hk).2]; simp) fun c hc i _ => ?_
    refine Post.foldlM (P := fun c : List Bytes => ∀ k ∈ c, k.length = 32) _ _ hc fun c hc j _ => ?_
    refine (idxR_post _ _).bind fun b hb => (xorBytesInplace_post ..).bind fun b' hb' => setR_post fun k hk => ?_
    rcases List.mem_or_eq_of_mem_set hk with h | rfl
    · exact hc k h
    · rw [hb', hc b hb]
  · rcases List.mem_append.mp hrow with h | h
    · obtain ⟨i, -, rfl⟩ := List.mem_map.mp h
      obtain ⟨j, -, rfl⟩ := List.mem_map.mp hk
      simp
    · rw [List.mem_singleton.mp h] at hk
      exact hc k hk

theorem selectKeys_post {real : List (Bytes × Bytes)} {blinding : List (List Bytes)} (hreal : ∀ p ∈ real, p.1.length = 32 ∧ p.2.length = 32)
    (hb : ∀ row ∈ blinding, ∀ k ∈ row, k.length = 32) (number index bits : Nat) :
    Post (fun l => l.length = number * bits ∧ ∀ p ∈ l, p.1.length = 32 ∧ p.2.length = 32) (selectKeys real blinding number index bits) := by
  unfold selectKeys
  refine Post.bind (P := fun s : List (Bytes × Bytes) × List (List Bytes) => (s.1.length = number * bits ∧
    ∀ p ∈ s.1, p.1.length = 32 ∧ p.2.length = 32)) ?_ fun s hs => .ok hs
  refine (Post.foldlM_pre (P := fun done (s : List (Bytes × Bytes) × List (List Bytes)) => (s.1.length = done.length * bits ∧
    ∀ p ∈ s.1, p.1.length = 32 ∧ p.2.length = 32) ∧ ∀ row ∈ s.2, ∀ k ∈ row, k.length = 32) _ _ ⟨⟨by simp, by simp⟩, hb⟩ ?_).mono
      fun s hs => ⟨by simpa using hs.1.1, hs.1.2⟩
  rintro done i rest s - ⟨⟨h1, h2⟩, h3⟩
  have hlen : ∀ {ps : List (Bytes × Bytes)}, ps.length = bits → (s.1 ++ ps).length = (done ++ [i]).length * bits := by
    intro ps hps
    rw [List.length_append, h1, hps, List.length_append, List.length_singleton, Nat.succ_mul]
  unfold selectStep
  split
  · refine (Post.mapM (P := fun p : Bytes × Bytes => p.1.length = 32 ∧ p.2.length = 32) _ fun j _ => (idxR_post _ _).mono fun p hp => hreal p hp).bind
      fun ps hps => .ok ⟨⟨hlen (by simpa using hps.1), fun p hp => ?_⟩, h3⟩
    rcases List.mem_append.mp hp with h | h
    · exact h2 p h
    · exact hps.2 p h
  · split
    · exact .err
    · next row rest' e =>
      rw [e] at h3
      refine (Post.mapM (P := fun p : Bytes × Bytes => p.1.length = 32 ∧ p.2.length = 32) _ fun j _ => (idxR_post _ _).bind fun k hk =>
        .ok ⟨h3 row (by simp) k hk, h3 row (by simp) k hk⟩).bind
        fun ps hps => .ok ⟨⟨hlen (by simpa using hps.1), fun p hp => ?_⟩, fun row' hr' => h3 row' (by simp [hr'])⟩
      rcases List.mem_append.mp hp with h | h
      · exact h2 p h
      · exact hps.2 p h

theorem garblerClientV1_shape (C : Curve) (X : Crypto) (r : ClientGarbler1) (hr : r.g.ord.Valid) (password : Bytes) (index number t : Nat) :
    Shape (fun _ => True) (garblerClientV1 C X r password index number t) (clientGarblerSizes1 number password.length) := by
  unfold garblerClientV1
  dsimp only
  refine Shape.step (build_post (by omega)) fun c hc => Shape.step (garbleBinary_sizes _ _ hc) fun z hz =>
    Shape.step (labelPairs_post ..) fun real hreal =>
    Shape.step (bitsUpTo_post ..) fun bits hb => Shape.step (labelsAt_post hz.labels _ _) fun inp hi => Shape.send (hz.size _ hr) ?_
  refine Shape.send (wires_enc_length (hi.1.trans hb) hi.2) (Shape.step (blindingKeys_post ..) fun bl hbl =>
    Shape.step (selectKeys_post hreal.2 hbl _ _ _) fun l hl => ?_)
  exact ((otSend_shape C X r.g.ot hl).bind (L' := []) fun _ _ => Shape.lifted _).cast (List.append_nil _)

theorem evaluatorServerV1_shape (C : Curve) (X : Crypto) (r : OTRecv) (passwords : List Bytes) (len : Nat)
    (hlen : ∀ p ∈ passwords.head?, p.length = len) :
    Shape (fun _ => True) (evaluatorServerV1 C X r passwords) (extReceiverSizes (passwords.length * (len * 8))) := by
  unfold evaluatorServerV1
  refine Shape.step (idx0_post hlen) ?_
  rintro p rfl
  refine Shape.recv fun _ => Shape.skip fun _ => Shape.recv fun _ => Shape.skip fun _ =>
    Shape.step (P := fun l : List Bool => l.length = passwords.length * (p.length * 8)) ?_ fun ch hch => ?_
  · unfold allBits
    refine (Post.mapM (P := fun l : List Bool => l.length = p.length * 8) _ fun q _ => bitsUpTo_post ..).bind fun rows hrows => .ok ?_
    rw [List.length_flatten, show rows.map List.length = rows.map fun _ => p.length * 8 from List.map_congr_left fun b hb => hrows.2 b hb,
      sum_map_const, hrows.1, Nat.mul_comm]
  · refine ((otRecv_shape C X r hch).bind (L' := []) fun e _ => ?_).cast (List.append_nil _)
    exact Shape.skip fun _ => Shape.skip fun _ => Shape.lifted _

end FP
