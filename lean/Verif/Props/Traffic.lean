import Verif.Proof.TrafficExchange
import Verif.Props.Fpake
import Verif.Proof.Witness
/-
The traffic of the protocols: how many messages a party sends, and how long they are, is determined by public numbers
alone.  All statements hold for every peer, honest or not, for all random draws and schedules, and in both builds.
-/
namespace FP.Props
open FP.Spec

/-- What `Traffic` means for an observer: two runs of a party with the same sizes, on different secrets, with different draws
and against different peers, cannot be told apart by their sizes, except that one may have stopped earlier than the other. -/
theorem C69_meaning {α β : Type} {p : Proc α} {q : Proc β} {sizes : List Nat} (hp : Traffic p sizes) (hq : Traffic q sizes)
    (in1 in2 : List Bytes) :
    ((p.against in1).1.map List.length <+: (q.against in2).1.map List.length ∨
      (q.against in2).1.map List.length <+: (p.against in1).1.map List.length) ∧
    ((∃ a, (p.against in1).2 = some (.ok a)) → (∃ b, (q.against in2).2 = some (.ok b)) →
      (p.against in1).1.map List.length = (q.against in2).1.map List.length) :=
  ⟨List.prefix_or_prefix_of_prefix (hp in1).1 (hq in2).1, fun ⟨a, ha⟩ ⟨b, hb⟩ => by rw [(hp in1).2 a ha, (hq in2).2 b hb]⟩

/-- Base transfers: neither the choices nor the contents of the messages matter. -/
theorem C69_base (C : Curve) (X : Crypto) (secrets : Nat → Nat) :
    (∀ msg : List (Bytes × Bytes), Traffic (coSender C X secrets msg)
      (baseSenderSizes msg.length (msg.map fun p => p.1.length + p.2.length).sum)) ∧
    ∀ choices : List Bool, Traffic (coReceiver C X secrets choices) (baseReceiverSizes choices.length) :=
  ⟨fun msg => (coSender_shape C X secrets msg).traffic, fun c => (coReceiver_shape C X secrets c).traffic⟩

/-- Extended transfers on top of base transfers. -/
theorem C69_extended (C : Curve) (X : Crypto) :
    (∀ (o : OTSend) (msg : List (Bytes × Bytes)) (s : Nat), (∀ m ∈ msg, m.1.length = s) →
      Traffic (o.run C X msg) (extSenderSizes msg.length s)) ∧
    ∀ (o : OTRecv) (choices : List Bool), Traffic (o.run C X choices) (extReceiverSizes choices.length) :=
  ⟨fun o msg s h => (apricotSender_shape X o.arm o.cores o.sched o.coin o.delta (coReceiver_shape C X o.base) msg s
      fun m hm => h m (List.mem_of_mem_head? hm)).traffic, fun o _ => (otRecv_shape C X o rfl).traffic⟩

/-- The other implementation of extended transfers. -/
theorem C69_classic (C : Curve) (X : Crypto) (arch : Arch) (base : Nat → Nat) (coin : WireBytes) :
    (∀ (delta : Vector Byte 16) (msg : List (Bytes × Bytes)),
      Traffic (classicSender X arch coin delta (coReceiver C X base) msg)
        (classicSenderSizes msg.length (msg.map (·.1.length)).sum (msg.map (·.2.length)).sum)) ∧
    ∀ (bonus : Vector Bool 192) (seed0 seed1 : Vector WireBytes 128) (choices : List Bool),
      Traffic (classicReceiver X arch coin bonus seed0 seed1 (coSender C X base) choices) (classicReceiverSizes choices.length) :=
  ⟨fun delta msg => (classicSender_shape X arch coin delta (coReceiver_shape C X base) msg).traffic,
    fun bonus s0 s1 c => (classicReceiver_shape X arch coin bonus s0 s1 (coSender_shape C X base) c).traffic⟩

/-- Transfers of one of many messages: neither the index nor the contents matter. -/
theorem C69_one_of_many (C : Curve) (X : Crypto) (domain : Nat) :
    (∀ (o : ManySend) (messages : List Bytes) (len : Nat), (∀ m ∈ messages, m.length = len) → domain < 64 →
      2 ^ domain * len < 2 ^ 64 → Traffic (o.run C X messages domain) (manySenderSizes domain len)) ∧
    ∀ (base : Nat → Nat) (index : Nat), Traffic (manyRecv C X base index domain) (baseReceiverSizes domain) :=
  ⟨fun o _ _ h hd hl => (manySend_shape C X o h hd hl).traffic, fun base index => (manyRecv_shape C X base index domain).traffic⟩

/-- Garbled circuits: the size is a function of the circuit, whatever labels are drawn and in whatever order the tables are
written.  This covers all circuits the library supports, and beyond them all in which projections read or produce bits. -/
theorem C69_garbled (E : Env) (rnd : GarbleRand) (c : Circuit)
    (hc : WellTyped c ∨ WellFormed SmallPos c ∧ BitProjections c) (gc : GarbledCircuit) (e : EncodingKey) (d : DecodingKey)
    (h : garble E rnd c = .ok (gc, e, d)) (lf : List (Nat × List Wire)) (lh : List (Nat × (Wire × Wire)))
    (hf : IsIteration gc.f lf) (hh : IsIteration gc.fHalf lh) : (serializeGarbled gc lf lh).length = garbledSize c := by
  have key : Post (fun g : GarbledCircuit × EncodingKey × DecodingKey => ∀ (lf : List (Nat × List Wire)) (lh : List (Nat × (Wire × Wire))),
      IsIteration g.1.f lf → IsIteration g.1.fHalf lh → (serializeGarbled g.1 lf lh).length = garbledSize c) (garble E rnd c) := by
    unfold garble
    refine (garbleRun_tab E rnd hc.symm).bind fun r hr => .ok fun lf lh hf hh => garbled_length hr ?_ hf hh
    have : c.gates.map (·.output) = List.range' c.inputDomains.length c.gates.length := by
      rcases hc with h | h
      · exact gatesFit_outs h.gates
      · exact gatesFit_outs h.1.gates
    rw [this]
    exact List.nodup_range'
  exact key.out _ h lf lh hf hh

/-- The key exchange between two parties: the sizes depend on the length of the own password only, neither on the password nor
on the threshold. -/
theorem C69_exchange (C : Curve) (X : Crypto) (g : GarblerDraws) (o : OTRecv) (hg : g.ord.Valid) (password : Bytes) (threshold : Nat) :
    Traffic (HalfKey.garbler C X g password threshold) (halfGarblerSizes password.length) ∧
    Traffic (HalfKey.evaluator C X o password) (halfEvaluatorSizes password.length) ∧
    Traffic (fpakeFirst C X g o password threshold) (halfGarblerSizes password.length ++ halfEvaluatorSizes password.length) ∧
    Traffic (fpakeSecond C X o g password threshold) (halfEvaluatorSizes password.length ++ halfGarblerSizes password.length) :=
  ⟨(halfGarbler_shape C X g hg password threshold).traffic, (halfEvaluator_shape C X o password).traffic,
    (fpakeFirst_shape C X g o hg password threshold).traffic, (fpakeSecond_shape C X o g hg password threshold).traffic⟩

example := C69_exchange Witness.curve (Witness.crypto true) Witness.g Witness.recv Witness.order_valid Witness.password 1

example := C69_meaning (C69_exchange Witness.curve (Witness.crypto true) Witness.g Witness.recv Witness.order_valid Witness.password 1).1
    (C69_exchange Witness.curve (Witness.crypto true) Witness.g' Witness.recv Witness.order_valid [7, 7] 2).1 [[1]] [[2]]

/-- The servers that hold many passwords: the sizes depend on the number of passwords and on the length of the first one. -/
theorem C69_servers (C : Curve) (X : Crypto) (passwords : List Bytes) (len : Nat) (hcount : passwords.length < 2 ^ 32)
    (hlen : ∀ p ∈ passwords.head?, p.length = len) (hsize : len < 2 ^ 32) (threshold : Nat) :
    (∀ r : ServerDraws, r.g.ord.Valid → Traffic (garblerServerV3 C X r passwords threshold) (serverGarblerSizes passwords.length len)) ∧
    (∀ (r : OTRecv) (mask : Bytes), Traffic (evaluatorServerV3 C X r passwords mask) (halfEvaluatorSizes len)) ∧
    (∀ r : ManyDraws, r.g.ord.Valid → Traffic (mfpakeMany C X r passwords threshold)
      (manySenderSizes (Nat.clog 2 passwords.length) len ++ (halfGarblerSizes len ++ halfEvaluatorSizes len))) ∧
    (∀ r : ServerDraws, r.g.ord.Valid → Traffic (garblerServerV2 C X r passwords threshold) (serverGarblerSizes passwords.length len)) ∧
    (∀ r : ServerEvaluator2, Traffic (evaluatorServerV2 C X r passwords) (serverEvaluatorSizes2 passwords.length len)) ∧
    (∀ r : ServerDraws1, r.g.ord.Valid → len * 8 * 32 < 2 ^ 32 →
      Traffic (garblerServerV1 C X r passwords threshold) (serverGarblerSizes1 passwords.length len)) ∧
    ∀ r : OTRecv, Traffic (evaluatorServerV1 C X r passwords) (extReceiverSizes (passwords.length * (len * 8))) :=
  ⟨fun r hr => (garblerServerV3_shape C X r hr passwords threshold len hcount hlen hsize).traffic,
    fun r mask => (evaluatorServerV3_shape C X r passwords mask len hlen).traffic,
    fun r hr => (mfpakeMany_shape C X r hr passwords threshold len hcount hlen hsize).traffic,
    fun r hr => (garblerServerV2_shape C X r hr passwords threshold len hcount hlen hsize).traffic,
    fun r => (evaluatorServerV2_shape C X r passwords len hcount hlen hsize).traffic,
    fun r hr h => (garblerServerV1_shape C X r hr passwords threshold len hcount hlen h).traffic,
    fun r => (evaluatorServerV1_shape C X r passwords len hlen).traffic⟩

example := C69_servers Witness.curve (Witness.crypto true) Witness.passwords 2 (by meets) (by meets) (by meets) 1

/-- The clients: the sizes depend on the length of the password and on the number of passwords of the server, not on the
password, the index or the threshold. -/
theorem C69_clients (C : Curve) (X : Crypto) (password : Bytes) (number index threshold : Nat) (h0 : 0 < number) :
    (∀ r : ClientDraws, Traffic (evaluatorClientV3 C X r password number index) (clientEvaluatorSizes number password.length)) ∧
    (∀ (r : GarblerDraws) (masked : Bytes), r.ord.Valid →
      Traffic (garblerClientV3 C X r password masked index number threshold) (clientGarblerSizes password.length)) ∧
    (∀ r : ClientDraws, Traffic (evaluatorClientV2 C X r password number index) (clientEvaluatorSizes number password.length)) ∧
    (∀ r : ClientGarbler2, r.g.ord.Valid →
      Traffic (garblerClientV2 C X r password index number threshold) (clientGarblerSizes2 number password.length)) ∧
    (∀ r : ClientDraws1, Traffic (evaluatorClientV1 C X r password number index)
      (halfEvaluatorSizes password.length ++ baseReceiverSizes (Nat.clog 2 number))) ∧
    ∀ r : ClientGarbler1, r.g.ord.Valid →
      Traffic (garblerClientV1 C X r password index number threshold) (clientGarblerSizes1 number password.length) :=
  ⟨fun r => (evaluatorClientV3_shape C X r password number index h0).traffic,
    fun r masked hr => (garblerClientV3_shape C X r hr password masked index number threshold).traffic,
    fun r => (evaluatorClientV2_shape C X r password number index h0).traffic,
    fun r hr => (garblerClientV2_shape C X r hr password index number threshold h0).traffic,
    fun r => (evaluatorClientV1_shape C X r password number index h0).traffic,
    fun r hr => (garblerClientV1_shape C X r hr password index number threshold).traffic⟩

example := C69_clients Witness.curve (Witness.crypto true) Witness.password 4 1 1 (by meets)

/-- The client of the fourth implementation takes the length of the strings from the first message it receives.  In a checked
build it goes on only with strings as long as its password; in a release build the server decides how much it sends.  In both
builds the sizes depend on nothing else. -/
theorem C69_single (C : Curve) (X : Crypto) (r : SingleDraws) (hr : r.g.ord.Valid) (password : Bytes) (index number threshold : Nat)
    (h0 : 0 < number) :
    (number < 2 ^ 32 → TrafficAfter (mfpakeSingle C X r password index number threshold) fun first =>
      baseReceiverSizes (Nat.clog 2 number) ++ (halfEvaluatorSizes (first.length / 2 ^ Nat.clog 2 number) ++
        halfGarblerSizes (first.length / 2 ^ Nat.clog 2 number))) ∧
    (X.dbg = true → Traffic (mfpakeSingle C X r password index number threshold)
      (baseReceiverSizes (Nat.clog 2 number) ++ (halfEvaluatorSizes password.length ++ halfGarblerSizes password.length))) :=
  ⟨fun hn => (mfpakeSingle_shape C X r hr password index number threshold h0 hn).traffic,
    fun hX => (mfpakeSingle_checked C X hX r hr password index number threshold h0).traffic⟩

/-! ### The hypotheses can be met, and the sizes are what they should be -/

/-- One byte: 8 pairs of labels. -/
example : halfGarblerSizes 1 =
    [23, 32, 2, 28] ++ List.replicate 128 32 ++ [8 * 64, 786 + 1076, 8 + 8 * 36] := by decide +kernel

example : halfEvaluatorSizes 1 = [23, 32, 32, 28] ++ List.replicate 128 32 ++ [8 + 128 * (16 + 64), 128 * 33, 16, 16] := by
  decide +kernel

/-- Passwords of different lengths are told apart. -/
example : halfGarblerSizes 1 ≠ halfGarblerSizes 2 := by decide +kernel

/-- The threshold circuits are among the circuits of `C69_garbled`, for every length. -/
example (n T : Nat) (h0 : 0 < n) (h : n < 65535) : WellFormed SmallPos (thrCircuit n (n + 1) T) ∧ BitProjections (thrCircuit n (n + 1) T) :=
  ⟨thr_typedD h0 (by decide) ⟨by omega, by omega⟩, thr_bits.1⟩

/-- Orders that visit every entry exist. -/
example : ∃ ord : MapOrder, ord.Valid :=
  ⟨someOrder, fun m => (exists_iteration m).choose_spec, fun m => (exists_iteration m).choose_spec⟩

end FP.Props
