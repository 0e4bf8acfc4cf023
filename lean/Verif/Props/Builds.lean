import Verif.Proof.BuildsParties
import Verif.Props.Channel
import Verif.Proof.Witness
/-
Debug assertions and overflow checks never change a result.
-/
namespace FP.Props
open FP FP.Spec

/-- C67: operations on labels: a build with assertions returns what a build without them returns, or panics. -/
theorem C67_labels (dbg : Bool) (a b : Wire) (c : Nat) (v : Bytes) (d : Domain) (E : Env) (l : List Wire) :
    SameOrPanic (Wire.add dbg a b) (Wire.add false a b) ∧ SameOrPanic (Wire.sub dbg a b) (Wire.sub false a b) ∧
    SameOrPanic (Wire.neg dbg a) (Wire.neg false a) ∧ SameOrPanic (Wire.mul dbg a c) (Wire.mul false a c) ∧
    SameOrPanic (Wire.sum dbg l) (Wire.sum false l) ∧ SameOrPanic (Wire.fromBytes dbg v d) (Wire.fromBytes false v d) ∧
    SameOrPanic (hashWire E c a b) (hashWire E.release c a b) :=
  ⟨same_add .., same_sub .., same_neg .., same_mul .., same_sum .., same_fromBytes .., same_hashWire ..⟩

/-- C67: circuits. -/
theorem C67_circuits (dbg : Bool) (c : Circuit) (x : List Nat) (n t : Nat) :
    SameOrPanic (c.eval dbg x) (c.eval false x) ∧ SameOrPanic (buildCircuit dbg n t) (buildCircuit false n t) ∧
    SameOrPanic (buildCircuitV2 dbg n t) (buildCircuitV2 false n t) :=
  ⟨same_circuitEval .., same_buildCircuit .., same_buildCircuitV2 ..⟩

/-- C67: garbling, encoding, evaluating and the two forms of encoding keys; decoding does not look at the build at
all. -/
theorem C67_garbling (E : Env) (rnd : GarbleRand) (c : Circuit) (gc : GarbledCircuit) (e : EncodingKey) (b : BinaryEncodingKey)
    (d : DecodingKey) (x : List Nat) (z : List Wire) :
    SameOrPanic (garble E rnd c) (garble E.release rnd c) ∧ SameOrPanic (e.encode E.dbg x) (e.encode false x) ∧
    SameOrPanic (evaluate E gc z) (evaluate E.release gc z) ∧ d.decode E z = d.decode E.release z ∧
    decodeFn E d z = decodeFn E.release d z ∧
    SameOrPanic (BinaryEncodingKey.ofKey E.dbg e) (BinaryEncodingKey.ofKey false e) ∧
    SameOrPanic (b.toKey E.dbg) (b.toKey false) :=
  ⟨same_garble .., same_encode .., same_evaluate .., by rw [decode_release], by rw [decodeFn_release], same_ofKey ..,
    same_toKey ..⟩

/-- C67: polynomials over GF(2) modulo the field polynomial, on every processor. -/
theorem C67_field (arch : Arch) (dbg : Bool) (r a b : Bytes) :
    SameOrPanic (polynomialMulAddAssign arch dbg r a b) (polynomialMulAddAssign arch false r a b) ∧
    SameOrPanic (polynomialAddAssign dbg a b) (polynomialAddAssign false a b) ∧
    SameOrPanic (polynomialFrom dbg a) (polynomialFrom false a) :=
  ⟨same_gf128MulAcc .., same_bitVectorXorAssign .., same_polynomialFrom ..⟩

/-- C67: the senders and receivers of all transfers, whatever the peer sends.  The transfer that an extension or a
1-out-of-n transfer is built on may be any one, also one that differs in its assertions. -/
theorem C67_transfers (C : Curve) (X : Crypto) (secrets : Nat → Nat) (msg : List (Bytes × Bytes)) (choices : List Bool)
    (arm : Bool) (arch : Arch) (cores : Nat) (sched sched' : Nat → List Nat) (order : List Nat) (coin : WireBytes) (delta : Vector Byte 16)
    (bonus : Vector Bool 256) (bonus' : Vector Bool 192) (seed0 seed1 : Vector WireBytes 128) (keys : Nat → WireBytes × WireBytes)
    (messages : List Bytes) (index domain : Nat) (innerS innerS' : List (Bytes × Bytes) → Proc Unit)
    (innerR innerR' : List Bool → Proc (List Bytes)) (hS : ∀ m, PartySameOrPanic (innerS m) (innerS' m))
    (hR : ∀ c, PartySameOrPanic (innerR c) (innerR' c)) :
    PartySameOrPanic (coSender C X secrets msg) (coSender C X.release secrets msg) ∧
    PartySameOrPanic (coReceiver C X secrets choices) (coReceiver C X.release secrets choices) ∧
    PartySameOrPanic (apricotSender X arm cores sched coin delta innerR msg)
      (apricotSender X.release arm cores sched coin delta innerR' msg) ∧
    PartySameOrPanic (apricotReceiver X arm cores sched sched' coin bonus seed0 seed1 innerS choices)
      (apricotReceiver X.release arm cores sched sched' coin bonus seed0 seed1 innerS' choices) ∧
    PartySameOrPanic (classicSender X arch coin delta innerR msg) (classicSender X.release arch coin delta innerR' msg) ∧
    PartySameOrPanic (classicReceiver X arch coin bonus' seed0 seed1 innerS choices)
      (classicReceiver X.release arch coin bonus' seed0 seed1 innerS' choices) ∧
    PartySameOrPanic (manySender X cores order keys innerS messages domain)
      (manySender X.release cores order keys innerS' messages domain) ∧
    PartySameOrPanic (manyReceiver X innerR index domain) (manyReceiver X.release innerR' index domain) := by
  have hS := fun m => party_dips (hS m)
  have hR := fun c => party_dips (hR c)
  exact ⟨(dips_coSender ..).party, (dips_coReceiver ..).party, (dips_apricotSender _ _ _ _ _ _ hR _).party,
    (dips_apricotReceiver _ _ _ _ _ _ _ _ _ hS _).party, (dips_classicSender _ _ _ _ hR _).party,
    (dips_classicReceiver _ _ _ _ _ _ hS _).party, (dips_manySender _ _ _ _ hS _ _).party,
    (dips_manyReceiver _ hR _ _).party⟩

/-- C67: the half exchanges and the whole two-party exchange, whatever the peer sends. -/
theorem C67_exchange (C : Curve) (X : Crypto) (g : GarblerDraws) (o : OTRecv) (p : Bytes) (t : Nat) :
    PartySameOrPanic (HalfKey.garbler C X g p t) (HalfKey.garbler C X.release g p t) ∧
    PartySameOrPanic (HalfKey.evaluator C X o p) (HalfKey.evaluator C X.release o p) ∧
    PartySameOrPanic (fpakeFirst C X g o p t) (fpakeFirst C X.release g o p t) ∧
    PartySameOrPanic (fpakeSecond C X o g p t) (fpakeSecond C X.release o g p t) :=
  ⟨(dips_garbler ..).party, (dips_evaluator ..).party, (dips_fpakeFirst ..).party, (dips_fpakeSecond ..).party⟩

/-- C67: the parties of all four exchanges with a database, whatever the peer sends. -/
theorem C67_database_exchanges (C : Curve) (X : Crypto) (ps : List Bytes) (p m : Bytes) (i n t : Nat) (s1 : ServerDraws1)
    (c1 : ClientDraws1) (k1 : ClientGarbler1) (o : OTRecv) (s : ServerDraws) (c : ClientDraws) (k2 : ClientGarbler2)
    (e2 : ServerEvaluator2) (g : GarblerDraws) (single : SingleDraws) (many : ManyDraws) :
    PartySameOrPanic (garblerServerV1 C X s1 ps t) (garblerServerV1 C X.release s1 ps t) ∧
    PartySameOrPanic (evaluatorClientV1 C X c1 p n i) (evaluatorClientV1 C X.release c1 p n i) ∧
    PartySameOrPanic (garblerClientV1 C X k1 p i n t) (garblerClientV1 C X.release k1 p i n t) ∧
    PartySameOrPanic (evaluatorServerV1 C X o ps) (evaluatorServerV1 C X.release o ps) ∧
    PartySameOrPanic (garblerServerV2 C X s ps t) (garblerServerV2 C X.release s ps t) ∧
    PartySameOrPanic (evaluatorClientV2 C X c p n i) (evaluatorClientV2 C X.release c p n i) ∧
    PartySameOrPanic (garblerClientV2 C X k2 p i n t) (garblerClientV2 C X.release k2 p i n t) ∧
    PartySameOrPanic (evaluatorServerV2 C X e2 ps) (evaluatorServerV2 C X.release e2 ps) ∧
    PartySameOrPanic (garblerServerV3 C X s ps t) (garblerServerV3 C X.release s ps t) ∧
    PartySameOrPanic (evaluatorClientV3 C X c p n i) (evaluatorClientV3 C X.release c p n i) ∧
    PartySameOrPanic (garblerClientV3 C X g p m i n t) (garblerClientV3 C X.release g p m i n t) ∧
    PartySameOrPanic (evaluatorServerV3 C X o ps m) (evaluatorServerV3 C X.release o ps m) ∧
    PartySameOrPanic (mfpakeSingle C X single p i n t) (mfpakeSingle C X.release single p i n t) ∧
    PartySameOrPanic (mfpakeMany C X many ps t) (mfpakeMany C X.release many ps t) :=
  ⟨(dips_garblerServerV1 ..).party, (dips_evaluatorClientV1 ..).party, (dips_garblerClientV1 ..).party,
    (dips_evaluatorServerV1 ..).party, (dips_garblerServerV2 ..).party, (dips_evaluatorClientV2 ..).party,
    (dips_garblerClientV2 ..).party, (dips_evaluatorServerV2 ..).party, (dips_garblerServerV3 ..).party,
    (dips_evaluatorClientV3 ..).party, (dips_garblerClientV3 ..).party, (dips_evaluatorServerV3 ..).party,
    (dips_mfpakeSingle ..).party, (dips_mfpakeMany ..).party⟩

/-- C67: the four programs, handshake and authentication included. -/
theorem C67_programs (C : Curve) (X : Crypto) (M : ChannelCrypto) (secret : M.Secret) (many : ManyDraws) (single : SingleDraws)
    (g : GarblerDraws) (o : OTRecv) (file p : Bytes) (size i n t : Nat) :
    PartySameOrPanic (serverMain C X M secret many file size t) (serverMain C X.release M secret many file size t) ∧
    PartySameOrPanic (clientMain C X M secret single p i n t) (clientMain C X.release M secret single p i n t) ∧
    PartySameOrPanic (vanillaServer C X M secret g o p t) (vanillaServer C X.release M secret g o p t) ∧
    PartySameOrPanic (vanillaClient C X M secret o g p t) (vanillaClient C X.release M secret o g p t) :=
  ⟨(dips_serverMain ..).party, (dips_clientMain ..).party, (dips_vanillaServer ..).party, (dips_vanillaClient ..).party⟩

/-- C67: a party may be replaced by its release build, on either side or on both: whatever a run ends with, other than a
panic, it still ends with. -/
theorem C67_interoperates {α β : Type} (p p' : Proc α) (q q' : Proc β) (hp : PartySameOrPanic p p') (hq : PartySameOrPanic q q') :
    (∀ a b, Completes p q a b → Completes p' q' a b ∧ Completes p' q a b ∧ Completes p q' a b) ∧
    (∀ a b, a ≠ .fails .panic → b ≠ .fails .panic → Outcome p q a b →
      Outcome p' q' a b ∧ Outcome p' q a b ∧ Outcome p q' a b) := by
  have hp := party_dips hp
  have hq := party_dips hq
  exact ⟨fun a b h => ⟨hp.completes hq h, hp.completes (.refl _) h, (Dips.refl p).completes hq h⟩,
    fun a b ha hb h => ⟨hp.outcome hq ha hb h, hp.outcome (.refl _) ha hb h, (Dips.refl p).outcome hq ha hb h⟩⟩

example := C67_interoperates (sendP [1]) (sendP [1]) recvP recvP (fun _ => .inl rfl) (fun _ => .inl rfl)

/-- C67: the two-party program derives one and the same key in every mix of builds: with and without assertions on either
side. -/
theorem C67_vanilla_any_build (C : Curve) (X : Crypto) (M : ChannelCrypto) (a b : M.Secret) (g1 g2 : GarblerDraws)
    (o1 o2 : OTRecv) (hg1 : g1.Valid) (hg2 : g2.Valid) (ho1 : o1.Valid) (ho2 : o2.Valid) (p q : Bytes) (t1 t2 : Nat)
    (hl : q.length = p.length) (hlen : GoodLength p.length) (ht1 : t1 < 65535) (ht2 : t2 < 65535)
    (h1 : bitDistance p q ≤ t1) (h2 : bitDistance p q ≤ t2) :
    ∃ key, ∀ left right, Completes (vanillaServer C (X.build left) M a g1 o1 p t1)
      (vanillaClient C (X.build right) M b o2 g2 q t2) key key := by
  obtain ⟨key, h⟩ := C47_vanilla_partial C (X.build true) M a b g1 g2 o1 o2 hg1 hg2 ho1 ho2 p q t1 t2 hl hlen ht1 ht2 h1 h2
  refine ⟨key, fun left right => ?_⟩
  have hp := dips_vanillaServer C (X.build true) M a g1 o1 p t1
  have hq := dips_vanillaClient C (X.build true) M b o2 g2 q t2
  cases left <;> cases right
  · exact hp.completes hq h
  · exact hp.completes (.refl _) h
  · exact (Dips.refl _).completes hq h
  · exact h

example := C67_vanilla_any_build Witness.curve (Witness.crypto true) Witness.channel (3 : BitVec 8) (5 : BitVec 8)
    Witness.g Witness.g' Witness.recv Witness.recv (by meets) (by meets) (by meets) (by meets) [3, 4] Witness.password 1
    2 (by meets) (by meets) (by meets) (by meets) (by meets) (by meets)

/-- C67: the same for the programs with a password file. -/
theorem C67_programs_any_build (C : Curve) (X : Crypto) (M : ChannelCrypto) (a b : M.Secret) (s : ManyDraws) (c : SingleDraws)
    (file password : Bytes) (size k index ts tc : Nat) (hfile : file.length = 2 ^ k * size) (hk : k < 32)
    (hsize : GoodLength size) (hpw : password.length = size) (hi : index < 2 ^ k) (hm : s.many.Valid true (2 ^ k))
    (hsg : s.g.Valid) (hso : s.ot.Valid) (hcg : c.g.Valid) (hco : c.ot.Valid) (hts : ts < 65535) (htc : tc < 65535)
    (h1 : bitDistance ((file.drop (index * size)).take size) password ≤ ts)
    (h2 : bitDistance ((file.drop (index * size)).take size) password ≤ tc) :
    ∃ key, ∀ left right, Completes (serverMain C (X.build left) M a s file size ts)
      (clientMain C (X.build right) M b c password index (2 ^ k) tc) key key := by
  obtain ⟨key, h⟩ := C47_programs_partial C (X.build true) M a b s c file password size k index ts tc hfile hk hsize hpw hi
    hm hsg hso hcg hco hts htc h1 h2
  refine ⟨key, fun left right => ?_⟩
  have hp := dips_serverMain C (X.build true) M a s file size ts
  have hq := dips_clientMain C (X.build true) M b c password index (2 ^ k) tc
  cases left <;> cases right
  · exact hp.completes hq h
  · exact hp.completes (.refl _) h
  · exact (Dips.refl _).completes hq h
  · exact h

example := C67_programs_any_build Witness.curve (Witness.crypto true) Witness.channel (3 : BitVec 8) (5 : BitVec 8)
    Witness.manyDraws Witness.singleDraws [1, 2, 3, 4, 5, 6, 7, 8] Witness.password 2 2 1 1 1 (by meets) (by meets)
    (by meets) (by meets) (by meets) (by meets) (by meets) (by meets) (by meets) (by meets) (by meets) (by meets)
    (by meets) (by meets)

/-- C67: the builds do differ: operands of different lengths, and sums that do not fit, are noticed by the checked build
only.  The sum of 40000 and 40000 modulo 65535 is 14465; a release build says 14464. -/
theorem C67_builds_differ :
    (∃ left right out, xorBytes true left right = .error .panic ∧ xorBytes false left right = .ok out) ∧
    (∃ c, Circuit.eval true c [40000, 40000] = .error .panic ∧ Circuit.eval false c [40000, 40000] = .ok [40000, 40000, 14464]) := by
  refine ⟨⟨[1], [1, 2], [0], rfl, rfl⟩, ?_⟩
  exact ⟨⟨3, 2, 1, [⟨2, 65535, [0, 1], .add⟩], [65535, 65535]⟩, by decide +kernel, by decide +kernel⟩

/-- The parties of the examples are not trivial: with nine pairs a checked sender of the extension panics at once, and a
release build sends its first message. -/
example (X : Crypto) (arm : Bool) (cores : Nat) (sched : Nat → List Nat) (coin : WireBytes) (delta : Vector Byte 16)
    (inner : List Bool → Proc (List Bytes)) :
    (apricotSender (X.build true) arm cores sched coin delta inner (List.replicate 9 ([1], [2]))).against [] =
      ([], some (.error .panic)) ∧
    (apricotSender (X.build false) arm cores sched coin delta inner (List.replicate 9 ([1], [2]))).against [] =
      ([Codec.properties.enc ⟨9, "Apricot"⟩], none) := by
  constructor
  · rfl
  · rfl

end FP.Props
