import Verif.Proof.Canonical
import Verif.Spec.Layout
import Verif.Props.WireFormat
/-
C84: which messages are understood, and as what.
-/
namespace FP.Props
open FP Spec

theorem le_eq (k x : Nat) : leBytes k x = le k x := by
  unfold leBytes le
  apply List.map_congr_left
  intro i _
  rw [Nat.shiftRight_eq_div_pow, Nat.pow_mul]

theorem vec_layout {α : Type} (c : Codec α) {f : α → Bytes} (h : ∀ a, c.enc a = f a) (xs : List α) :
    (Codec.vec c).enc xs = layoutSeq f xs := by
  have : c.enc = f := funext h
  show leBytes 8 xs.length ++ xs.flatMap c.enc = _
  rw [this, le_eq]
  rfl

theorem bytes_layout (b : Bytes) : Codec.bytes.enc b = layoutBytes b := by
  show leBytes 8 b.length ++ b.flatMap (fun x => [x]) = _
  rw [List.flatMap_singleton', le_eq]
  rfl

theorem domain_layout (d : Domain) : Codec.domain.enc d = layoutDomain d := by
  have t : ∀ n < 5, leBytes 4 n = [BitVec.ofNat 8 n, 0, 0, 0] := by decide
  cases d with
  | binary => exact t 0 (by decide)
  | u8 m => show leBytes 4 1 ++ leBytes 1 m = _; rw [t 1 (by decide), le_eq]; rfl
  | u16 m => show leBytes 4 2 ++ leBytes 2 m = _; rw [t 2 (by decide), le_eq]; rfl
  | u8max => exact t 3 (by decide)
  | u16max => exact t 4 (by decide)

theorem wire_layout (w : Wire) : Codec.wire.enc w = layoutWire w := by
  show Codec.domain.enc w.domain ++ w.values.toList = _
  rw [domain_layout]; rfl

theorem kind_layout (k : GateKind) : Codec.gateKind.enc k = layoutKind k := by
  have t : ∀ n < 5, leBytes 4 n = [BitVec.ofNat 8 n, 0, 0, 0] := by decide
  cases k with
  | add => exact t 0 (by decide)
  | mul m => show leBytes 4 1 ++ leBytes 2 m = _; rw [t 1 (by decide), le_eq]; rfl
  | proj p =>
    cases p with
    | map m => show leBytes 4 2 ++ (leBytes 4 0 ++ leBytes 2 m) = _; rw [t 2 (by decide), t 0 (by decide), le_eq]; rfl
    | less m => show leBytes 4 2 ++ (leBytes 4 1 ++ leBytes 2 m) = _; rw [t 2 (by decide), t 1 (by decide), le_eq]; rfl
  | and => exact t 3 (by decide)

theorem gate_layout (g : Gate) : Codec.gate.enc g = layoutGate g := by
  show leBytes 8 g.output ++ (leBytes 2 g.domain ++ ((Codec.vec Codec.usize).enc g.inputs ++ Codec.gateKind.enc g.kind)) = _
  rw [le_eq, le_eq, vec_layout Codec.usize (le_eq 8), kind_layout]; rfl

theorem circuit_layout (c : Circuit) : Codec.circuit.enc c = layoutCircuit c := by
  show leBytes 8 c.numWires ++ (leBytes 8 c.numInputs ++ (leBytes 8 c.numOutputs ++
    ((Codec.vec Codec.gate).enc c.gates ++ (Codec.vec Codec.u16).enc c.inputDomains))) = _
  rw [le_eq, le_eq, le_eq, vec_layout Codec.gate gate_layout, vec_layout Codec.u16 (le_eq 2)]; rfl

theorem garbled_layout (c : Circuit) (rows : List (Nat × List Wire)) (halves : List (Nat × (Wire × Wire))) :
    Codec.garbled.enc (c, rows, halves) = layoutGarbled c rows halves := by
  show Codec.circuit.enc c ++ ((Codec.vec (Codec.pair Codec.usize (Codec.vec Codec.wire))).enc rows ++
    (Codec.vec (Codec.pair Codec.usize (Codec.pair Codec.wire Codec.wire))).enc halves) = _
  rw [circuit_layout, vec_layout (Codec.pair Codec.usize (Codec.vec Codec.wire))
      (f := fun p => le 8 p.1 ++ layoutSeq layoutWire p.2),
    vec_layout (Codec.pair Codec.usize (Codec.pair Codec.wire Codec.wire))
      (f := fun p => le 8 p.1 ++ (layoutWire p.2.1 ++ layoutWire p.2.2))]
  · rfl
  · intro p
    show leBytes 8 p.1 ++ (Codec.wire.enc p.2.1 ++ Codec.wire.enc p.2.2) = _
    rw [le_eq, wire_layout, wire_layout]
  · intro p
    show leBytes 8 p.1 ++ (Codec.vec Codec.wire).enc p.2 = _
    rw [le_eq, vec_layout Codec.wire wire_layout]

theorem domainFits_iff (d : Domain) : d.Fits ↔ DomainInRange d := by cases d <;> exact Iff.rfl

theorem gateFits_iff (g : Gate) : g.Fits ↔ GateInRange g := by
  have hk : g.kind.Fits ↔ (match g.kind with
      | .mul c => c < 2 ^ 16
      | .proj (.map m) => m < 2 ^ 16
      | .proj (.less t) => t < 2 ^ 16
      | _ => True) := by
    cases g.kind with
    | proj p => cases p <;> exact Iff.rfl
    | _ => exact Iff.rfl
  constructor
  · rintro ⟨h1, h2, h3, h4, h5⟩; exact ⟨h1, h2, h3, h4, hk.mp h5⟩
  · rintro ⟨h1, h2, h3, h4, h5⟩; exact ⟨h1, h2, h3, h4, hk.mpr h5⟩

theorem circuitFits_iff (c : Circuit) : c.Fits ↔ CircuitInRange c := by
  constructor
  · rintro ⟨h1, h2, h3, h4, h5, h6, h7⟩
    exact ⟨h1, h2, h3, h4, fun g hg => (gateFits_iff g).mp (h5 g hg), h6, h7⟩
  · rintro ⟨h1, h2, h3, h4, h5, h6, h7⟩
    exact ⟨h1, h2, h3, h4, fun g hg => (gateFits_iff g).mpr (h5 g hg), h6, h7⟩

theorem garbledFits_iff (c : Circuit) (rows : List (Nat × List Wire)) (halves : List (Nat × (Wire × Wire))) :
    GarbledFits c rows halves ↔ CircuitInRange c ∧ EntriesInRange rows halves := by
  constructor
  · rintro ⟨h1, h2, h3, h4, h5⟩
    exact ⟨(circuitFits_iff c).mp h1, h2, fun p hp => ⟨(h3 p hp).1, (h3 p hp).2.1, fun w hw =>
      (domainFits_iff _).mp ((h3 p hp).2.2 w hw)⟩, h4, fun p hp => ⟨(h5 p hp).1, (domainFits_iff _).mp (h5 p hp).2.1,
      (domainFits_iff _).mp (h5 p hp).2.2⟩⟩
  · rintro ⟨h1, h2, h3, h4, h5⟩
    exact ⟨(circuitFits_iff c).mpr h1, h2, fun p hp => ⟨(h3 p hp).1, (h3 p hp).2.1, fun w hw =>
      (domainFits_iff _).mpr ((h3 p hp).2.2 w hw)⟩, h4, fun p hp => ⟨(h5 p hp).1, (domainFits_iff _).mpr (h5 p hp).2.1,
      (domainFits_iff _).mpr (h5 p hp).2.2⟩⟩

/-- C84: a message is understood as given transaction properties exactly if it starts with their layout. -/
theorem C84_properties (s : Bytes) (p : TransactionProperties) : Codec.properties.deserialize s = .ok p ↔
    (p.msgSize < 2 ^ 64 ∧ p.protocol.utf8ByteSize < 2 ^ 64) ∧
      le 8 p.msgSize ++ layoutBytes (p.protocol.toUTF8.data.toList.map UInt8.toBitVec) <+: s := by
  rw [deserialize_iff properties_rt properties_sound]
  have : Codec.properties.enc p = le 8 p.msgSize ++ layoutBytes (p.protocol.toUTF8.data.toList.map UInt8.toBitVec) := by
    show leBytes 8 p.msgSize ++ Codec.bytes.enc (stringBytes p.protocol) = _
    rw [le_eq, bytes_layout]; rfl
  rw [this]

/-- C84: a message is understood as a given byte string (bit vector, polynomial) exactly if it starts with its layout. -/
theorem C84_bytes (s b : Bytes) : Codec.bytes.deserialize s = .ok b ↔ b.length < 2 ^ 64 ∧ layoutBytes b <+: s := by
  rw [deserialize_iff bytes_rt bytes_sound, bytes_layout]

/-- C84: the same for lists of byte strings (bit matrices, payloads). -/
theorem C84_bytesList (s : Bytes) (l : List Bytes) : Codec.bytesList.deserialize s = .ok l ↔
    (l.length < 2 ^ 64 ∧ ∀ b ∈ l, b.length < 2 ^ 64) ∧ layoutSeq layoutBytes l <+: s := by
  rw [deserialize_iff bytesList_rt bytesList_sound]
  unfold Codec.bytesList
  rw [vec_layout Codec.bytes bytes_layout]

/-- C84: the same for lists of pairs of ciphertexts. -/
theorem C84_payload (s : Bytes) (l : List (Bytes × Bytes)) : Codec.payload.deserialize s = .ok l ↔
    (l.length < 2 ^ 64 ∧ ∀ p ∈ l, p.1.length < 2 ^ 64 ∧ p.2.length < 2 ^ 64) ∧ layoutSeq layoutPair l <+: s := by
  rw [deserialize_iff payload_rt payload_sound]
  unfold Codec.payload
  rw [vec_layout (Codec.pair Codec.bytes Codec.bytes) (f := layoutPair)]
  intro p
  show Codec.bytes.enc p.1 ++ Codec.bytes.enc p.2 = _
  rw [bytes_layout, bytes_layout]; rfl

/-- C84: the same for lists of labels. -/
theorem C84_wires (s : Bytes) (ws : List Wire) : Codec.wires.deserialize s = .ok ws ↔
    (ws.length < 2 ^ 64 ∧ ∀ w ∈ ws, DomainInRange w.domain) ∧ layoutSeq layoutWire ws <+: s := by
  rw [deserialize_iff wires_rt wires_sound]
  unfold Codec.wires
  rw [vec_layout Codec.wire wire_layout]
  simp only [Wire.Fits, domainFits_iff]

/-- C84: the same for circuits. -/
theorem C84_circuit (s : Bytes) (c : Circuit) : Codec.circuit.deserialize s = .ok c ↔
    CircuitInRange c ∧ layoutCircuit c <+: s := by
  rw [deserialize_iff circuit_rt circuit_sound, circuit_layout, circuitFits_iff]

theorem lookup_lastEntry {V : Type} (l : List (Nat × V)) (k : Nat) :
    List.lookup k (hmapOfEntries l) = lastEntry l k := by
  unfold hmapOfEntries lastEntry
  have : ∀ (acc : HMap Nat V), List.lookup k (l.foldl (fun m p => HMap.insert m p.1 p.2) acc) =
      l.foldl (fun found p => if p.1 = k then some p.2 else found) (List.lookup k acc) := by
    induction l with
    | nil => intro acc; rfl
    | cons p l ih =>
      intro acc
      rw [List.foldl_cons, List.foldl_cons, ih]
      congr 1
      unfold HMap.insert
      rw [List.lookup_cons]
      by_cases h : p.1 = k
      · simp [h]
      · have : (k == p.1) = false := by simpa using fun e => h e.symm
        simp [h, this]
  exact this []

/-- C84: a message is understood as a garbled circuit exactly if it starts with the layout of a circuit and of two lists
of entries; of several entries for one wire the last counts. -/
theorem C84_garbled (s : Bytes) (gc : GarbledCircuit) (h : deserializeGarbled s = .ok gc) :
    ∃ rows halves, CircuitInRange gc.circuit ∧ EntriesInRange rows halves ∧ layoutGarbled gc.circuit rows halves <+: s ∧
      (∀ k, List.lookup k gc.f = lastEntry rows k) ∧ ∀ k, List.lookup k gc.fHalf = lastEntry halves k := by
  unfold deserializeGarbled at h
  cases hd : Codec.garbled.deserialize s with
  | error e => rw [hd] at h; cases h
  | ok t =>
    obtain ⟨c, rows, halves⟩ := t
    rw [hd] at h
    obtain rfl := Except.ok.inj h
    obtain ⟨h1, h2⟩ := (deserialize_iff garbled_rt garbled_sound _ _).mp hd
    rw [garbled_layout] at h2
    obtain ⟨f1, f2⟩ := (garbledFits_iff _ _ _).mp h1
    exact ⟨rows, halves, f1, f2, h2, lookup_lastEntry rows, lookup_lastEntry halves⟩

/-- C84: and every such message is understood. -/
theorem C84_garbled_accepts (s : Bytes) (c : Circuit) (rows : List (Nat × List Wire))
    (halves : List (Nat × (Wire × Wire))) (hc : CircuitInRange c) (he : EntriesInRange rows halves)
    (hs : layoutGarbled c rows halves <+: s) :
    ∃ gc, deserializeGarbled s = .ok gc ∧ gc.circuit = c ∧
      (∀ k, List.lookup k gc.f = lastEntry rows k) ∧ ∀ k, List.lookup k gc.fHalf = lastEntry halves k := by
  have := (deserialize_iff garbled_rt garbled_sound s (c, rows, halves)).mpr
    ⟨(garbledFits_iff _ _ _).mpr ⟨hc, he⟩, by rw [garbled_layout]; exact hs⟩
  refine ⟨_, by unfold deserializeGarbled; rw [this]; rfl, rfl, lookup_lastEntry rows, lookup_lastEntry halves⟩

/-- C84: a message is understood as a list of points exactly if it starts with the layout of a byte string of which they
are the full groups of 32 bytes; up to 31 bytes at its end are dropped. -/
theorem C84_public (s : Bytes) (ps : List WireBytes) : deserializePublic s = .ok ps ↔
    ∃ tail : Bytes, tail.length < 32 ∧ (ps.flatMap (·.toList) ++ tail).length < 2 ^ 64 ∧
      layoutBytes (ps.flatMap (·.toList) ++ tail) <+: s := by
  have flat : ∀ l : List WireBytes, (l.flatMap (·.toList)).length = 32 * l.length := by
    intro l
    induction l with
    | nil => rfl
    | cons a l ih => rw [List.flatMap_cons, List.length_append, ih]; simp; omega
  have flatAt : ∀ (l : List WireBytes) (t : Bytes) (i : Nat) (hi : i < l.length),
      ((l.flatMap (·.toList) ++ t).drop (i * 32)).take 32 = l[i].toList := by
    intro l
    induction l with
    | nil => intro t i hi; simp at hi
    | cons a l ih =>
      intro t i hi
      rw [List.flatMap_cons, List.append_assoc]
      cases i with
      | zero => simp
      | succ i =>
        rw [show (i + 1) * 32 = 32 + i * 32 by omega, ← List.drop_drop, List.drop_left' (by simp)]
        simpa using ih t i (by simpa using hi)
  have visit : ∀ (l : List WireBytes) (t : Bytes), t.length < 32 → visitBytes (l.flatMap (·.toList) ++ t) = .ok l := by
    intro l t ht
    obtain ⟨qs, h1, h2, h3⟩ := C40_no_panic (l.flatMap (·.toList) ++ t)
    rw [h1]
    rw [List.length_append, flat] at h2
    congr 1
    apply List.ext_getElem (by omega)
    intro i hi hi'
    have := h3 i hi
    rw [flatAt l t i hi'] at this
    exact Vector.toList_inj.mp this
  have whole : ∀ v : Bytes, ∃ (l : List WireBytes) (t : Bytes), t.length < 32 ∧ v = l.flatMap (·.toList) ++ t := by
    intro v
    induction hn : v.length using Nat.strongRecOn generalizing v with
    | _ n ih =>
      by_cases hlt : v.length < 32
      · exact ⟨[], v, hlt, rfl⟩
      · obtain ⟨l, t, ht, e⟩ := ih (v.drop 32).length (by rw [List.length_drop]; omega) (v.drop 32) rfl
        have hl : (v.take 32).length = 32 := by rw [List.length_take]; omega
        refine ⟨⟨(v.take 32).toArray, by simpa using hl⟩ :: l, t, ht, ?_⟩
        rw [List.flatMap_cons, List.append_assoc, ← e]
        exact (List.take_append_drop 32 v).symm
  unfold deserializePublic
  constructor
  · intro h
    cases hd : Codec.bytes.deserialize s with
    | error e => rw [hd] at h; cases h
    | ok v =>
      rw [hd, okb] at h
      obtain ⟨h1, h2⟩ := (C84_bytes s v).mp hd
      obtain ⟨l, t, ht, rfl⟩ := whole v
      rw [visit l t ht] at h
      obtain rfl := Except.ok.inj h
      exact ⟨t, ht, h1, h2⟩
  · rintro ⟨t, ht, h1, h2⟩
    rw [(C84_bytes s _).mpr ⟨h1, h2⟩, okb, visit ps t ht]

/-- C84: a message that is not understood is refused with an error; reading a message never panics. -/
theorem C84_refused (s : Bytes) :
    ((∃ p, Codec.properties.deserialize s = .ok p) ∨ Codec.properties.deserialize s = errR .bincode) ∧
    ((∃ b, Codec.bytes.deserialize s = .ok b) ∨ Codec.bytes.deserialize s = errR .bincode) ∧
    ((∃ l, Codec.bytesList.deserialize s = .ok l) ∨ Codec.bytesList.deserialize s = errR .bincode) ∧
    ((∃ l, Codec.payload.deserialize s = .ok l) ∨ Codec.payload.deserialize s = errR .bincode) ∧
    ((∃ ws, Codec.wires.deserialize s = .ok ws) ∨ Codec.wires.deserialize s = errR .bincode) ∧
    ((∃ gc, deserializeGarbled s = .ok gc) ∨ deserializeGarbled s = errR .bincode) ∧
    ((∃ ps, deserializePublic s = .ok ps) ∨ deserializePublic s = errR .bincode) := by
  refine ⟨deserialize_fails _ s, deserialize_fails _ s, deserialize_fails _ s, deserialize_fails _ s,
    deserialize_fails _ s, ?_, ?_⟩
  · unfold deserializeGarbled
    rcases deserialize_fails Codec.garbled s with ⟨⟨c, lf, lh⟩, h⟩ | h
    · rw [h]; exact .inl ⟨_, rfl⟩
    · rw [h]; exact .inr rfl
  · unfold deserializePublic
    rcases deserialize_fails Codec.bytes s with ⟨v, h⟩ | h
    · rw [h, okb]
      obtain ⟨ps, h1, _⟩ := C40_no_panic v
      exact .inl ⟨ps, h1⟩
    · rw [h]; exact .inr rfl

private theorem cut {α} {c : Codec α} {P : α → Prop} (h : c.RT P) (hs : c.Sound P) {a : α} (ha : P a) {k : Nat}
    (hk : k < (c.enc a).length) : c.deserialize ((c.enc a).take k) = errR .bincode := by
  rcases deserialize_fails c ((c.enc a).take k) with ⟨b, hb⟩ | hb
  · obtain ⟨pb, hpre⟩ := (deserialize_iff h hs _ _).mp hb
    have hpre' : c.enc b <+: c.enc a := hpre.trans (List.take_prefix k _)
    have e1 := (deserialize_iff h hs (c.enc a) b).mpr ⟨pb, hpre'⟩
    have e2 := (deserialize_iff h hs (c.enc a) a).mpr ⟨ha, List.prefix_rfl⟩
    rw [e1] at e2
    obtain rfl := Except.ok.inj e2
    have := hpre.length_le
    rw [List.length_take] at this
    omega
  · exact hb

/-- C84: a message cut short anywhere is refused. -/
theorem C84_cut (k : Nat) :
    (∀ ws : List Wire, ws.length < 2 ^ 64 → (∀ w ∈ ws, DomainInRange w.domain) → k < (layoutSeq layoutWire ws).length →
      Codec.wires.deserialize ((layoutSeq layoutWire ws).take k) = errR .bincode) ∧
    (∀ l : List (Bytes × Bytes), l.length < 2 ^ 64 → (∀ p ∈ l, p.1.length < 2 ^ 64 ∧ p.2.length < 2 ^ 64) →
      k < (layoutSeq layoutPair l).length →
      Codec.payload.deserialize ((layoutSeq layoutPair l).take k) = errR .bincode) ∧
    (∀ l : List Bytes, l.length < 2 ^ 64 → (∀ b ∈ l, b.length < 2 ^ 64) → k < (layoutSeq layoutBytes l).length →
      Codec.bytesList.deserialize ((layoutSeq layoutBytes l).take k) = errR .bincode) ∧
    (∀ c rows halves, CircuitInRange c → EntriesInRange rows halves → k < (layoutGarbled c rows halves).length →
      deserializeGarbled ((layoutGarbled c rows halves).take k) = errR .bincode) := by
  refine ⟨fun ws h1 h2 hk => ?_, fun l h1 h2 hk => ?_, fun l h1 h2 hk => ?_, fun c rows halves h1 h2 hk => ?_⟩
  · rw [← vec_layout Codec.wire wire_layout] at hk ⊢
    exact cut wires_rt wires_sound ⟨h1, fun w hw => (domainFits_iff _).mpr (h2 w hw)⟩ hk
  · have e : ∀ p : Bytes × Bytes, (Codec.pair Codec.bytes Codec.bytes).enc p = layoutPair p := by
      intro p
      show Codec.bytes.enc p.1 ++ Codec.bytes.enc p.2 = _
      rw [bytes_layout, bytes_layout]; rfl
    rw [← vec_layout _ e] at hk ⊢
    exact cut payload_rt payload_sound ⟨h1, h2⟩ hk
  · rw [← vec_layout Codec.bytes bytes_layout] at hk ⊢
    exact cut bytesList_rt bytesList_sound ⟨h1, h2⟩ hk
  · rw [← garbled_layout] at hk ⊢
    unfold deserializeGarbled
    rw [cut garbled_rt garbled_sound ((garbledFits_iff _ _ _).mpr ⟨h1, h2⟩) hk]
    rfl

/-- C84 in another reading: what follows is ignored.  Messages of a correct peer can be prolonged at will on the way
without the receiver noticing (on a connection without authentication). -/
theorem C84_prolonged (ws : List Wire) (hn : ws.length < 2 ^ 64) (h : ∀ w ∈ ws, DomainInRange w.domain) (more : Bytes) :
    Codec.wires.deserialize (layoutSeq layoutWire ws ++ more) = .ok ws :=
  (C84_wires _ _).mpr ⟨⟨hn, h⟩, more, rfl⟩

/-- Two labels, byte by byte. -/
example : layoutSeq layoutWire [⟨.u16 513, Vector.replicate 32 7⟩, ⟨.binary, Vector.replicate 32 9⟩] =
    [2, 0, 0, 0, 0, 0, 0, 0] ++ [2, 0, 0, 0, 1, 2] ++ List.replicate 32 7 ++ [0, 0, 0, 0] ++ List.replicate 32 9 := by
  decide +kernel

/-- A projection gate that compares, byte by byte. -/
example : layoutGate ⟨3, 258, [1], .proj (.less 2)⟩ = [3, 0, 0, 0, 0, 0, 0, 0] ++ [2, 1] ++
    [1, 0, 0, 0, 0, 0, 0, 0] ++ [1, 0, 0, 0, 0, 0, 0, 0] ++ [2, 0, 0, 0] ++ [1, 0, 0, 0] ++ [2, 0] := by decide

/-- The numbers of a circuit and of entries fit. -/
example : CircuitInRange sampleCircuit ∧ EntriesInRange [(3, [sampleWire])] [(2, (sampleWire, sampleWire))] := by
  refine ⟨⟨by decide, by decide, by decide, by decide, ?_, by decide, by decide⟩, by decide, ?_, by decide, ?_⟩
  · intro g hg
    rcases List.mem_cons.mp hg with rfl | hg
    · exact ⟨by decide, by decide, by decide, by decide, trivial⟩
    · rw [List.mem_singleton] at hg; subst hg
      exact ⟨by decide, by decide, by decide, by decide, by show 2 < 2 ^ 16; decide⟩
  · intro p hp
    rw [List.mem_singleton] at hp; subst hp
    refine ⟨by decide, by decide, ?_⟩
    intro w hw
    rw [List.mem_singleton] at hw; subst hw
    show 513 < 2 ^ 16
    decide
  · intro p hp
    rw [List.mem_singleton] at hp; subst hp
    exact ⟨by decide, by show 513 < 2 ^ 16; decide, by show 513 < 2 ^ 16; decide⟩

end FP.Props
