import Verif.Proof.Sabotage
import Verif.Proof.Witness
/-
C57: whatever a peer sends, a party stays inside its memory.
-/
namespace FP.Props
open Spec

attribute [local irreducible] Spec.modulus

/-! ### Parties for which the property holds -/

/-- The base transfer, both sides, any messages and choices, debug and release. -/
theorem C57_base_ot (C : Curve) (X : Crypto) (secrets : Nat → Nat) (msg : List (Bytes × Bytes)) (choices : List Bool) :
    MemorySafe (coSender C X secrets msg) ∧ MemorySafe (coReceiver C X secrets choices) :=
  ⟨(coSender_calm C X secrets msg).safe, (coReceiver_calm C X secrets choices).safe⟩

/-- The receiver of src/ot/apricot.rs over the base transfer, for any number of choices, any number of cores
and every schedule. -/
theorem C57_extension_receiver (C : Curve) (X : Crypto) (o : OTRecv) (ho : o.Valid) (choices : List Bool) :
    MemorySafe (o.run C X choices) := (OTRecv.calm C X ho choices).safe

example := C57_extension_receiver Witness.curve (Witness.crypto true) Witness.recv (by meets) [true, false, true]

/-- The receiver of src/ot/apricot_classic.rs over the base transfer, on every architecture. -/
theorem C57_classic_receiver (C : Curve) (X : Crypto) (arch : Arch) (coin : WireBytes) (bonus : Vector Bool 192)
    (seed0 seed1 : Vector WireBytes 128) (base : Nat → Nat) (choices : List Bool) :
    MemorySafe (classicReceiver X arch coin bonus seed0 seed1 (coSender C X base) choices) :=
  (classicReceiver_calm X arch coin bonus seed0 seed1 (coSender_calm C X base) choices).safe

/-- The receiver of the 1-out-of-n transfer, if its index is below the size of the domain. -/
theorem C57_many_receiver (C : Curve) (X : Crypto) (base : Nat → Nat) (index domain : Nat) (hd : domain < 64)
    (hi : index < 2 ^ domain) : MemorySafe (manyRecv C X base index domain) := (manyRecv_calm C X base index domain hd hi).safe

example := C57_many_receiver Witness.curve (Witness.crypto true) (· + 3) 5 3 (by meets) (by meets)

/-- The sender of the 1-out-of-n transfer, for the databases and machines on which the transfer works. -/
theorem C57_many_sender (C : Curve) (X : Crypto) (o : ManySend) (messages : List Bytes) (len : Nat) (hdb : Database messages len)
    (ho : o.Valid X.dbg messages.length) (h0 : 0 < messages.length) (hlen : 0 < len) (hfit : len < 2 ^ 32) (domain : Nat)
    (hd : log2R X.dbg 64 messages.length = .ok domain) : MemorySafe (o.run C X messages domain) :=
  (manySend_calm C X o messages len hdb ho h0 hlen hfit domain hd).safe

example := C57_many_sender Witness.curve (Witness.crypto true) Witness.many Witness.passwords 2 (by meets) (by meets) (by meets)
    (by meets) (by meets) 2 (by decide)

/-- The garbling party stays in bounds, apart perhaps from the oblivious transfer it is given. -/
theorem C57_garbler (E : Env) (rnd : GarbleRand) (ord : MapOrder) (ot : List (Bytes × Bytes) → Proc Unit)
    (hot : ∀ m, MemorySafe (ot m)) (password : Bytes) (t : Nat) (hlen : GoodLength password.length) (ht : t < 65535) :
    MemorySafe (halfGarbler E rnd ord ot password t) :=
  (halfGarbler_calm E rnd ord (fun m => calm_of_memorySafe (hot m)) password t hlen ht).safe

example := C57_garbler (toyEnv true) Witness.rand Witness.order (coSender Witness.curve (Witness.crypto true) (· + 3))
    (fun m => (C57_base_ot _ _ _ m []).1) Witness.password 1 (by meets) (by meets)

/-- An authenticated channel keeps the party that uses it in bounds. -/
theorem C57_authenticated {α : Type} (M : ChannelCrypto) (ks kr : WireBytes) (p : Proc α) (h : MemorySafe p) :
    MemorySafe (p.overAuth M ks kr) :=
  (overTags_calm (authCheck_quiet M kr) (calm_of_memorySafe h)).safe

example := C57_authenticated Witness.channel (Witness.bytes 1) (Witness.bytes 2) _
    (C57_base_ot Witness.curve (Witness.crypto true) (· + 3) [([1], [2])] []).1

/-- So does a signed one. -/
theorem C57_signed {α : Type} (S : SigScheme) (keypair : S.Keypair) (theirs : Bytes) (p : Proc α) (h : MemorySafe p) :
    MemorySafe (p.overSigned S keypair theirs) :=
  (overTags_calm (signedCheck_quiet S theirs) (calm_of_memorySafe h)).safe

example := C57_signed Witness.signatures (3 : Byte) [5] _
    (C57_base_ot Witness.curve (Witness.crypto true) (· + 3) [([1], [2])] []).1

/-! ### Evaluating parties: the only ways out of bounds -/

/-- The evaluating party of the two-party exchange, for passwords of any length.  It stays in bounds unless a
message is a garbled circuit that reads a wire before it is written. -/
theorem C57_evaluator_partial (C : Curve) (X : Crypto) (o : OTRecv) (ho : o.Valid) (password : Bytes) :
    MemorySafeUnless DisorderlyCircuit (HalfKey.evaluator C X o password) :=
  (halfEvaluator_calm X.toEnv (fun c => OTRecv.calm C X ho c) password).against

example := C57_evaluator_partial Witness.curve (Witness.crypto true) Witness.recv (by meets) Witness.password

/-- The evaluating client of the first one-of-many exchange, if its index is below the number of passwords. -/
theorem C57_client1_partial (C : Curve) (X : Crypto) (r : ClientDraws1) (hr : r.ot.Valid) (password : Bytes) (number index : Nat)
    (hn : number < 2 ^ 32) (hi : index < number) :
    MemorySafeUnless DisorderlyCircuit (evaluatorClientV1 C X r password number index) := by
  refine (evaluatorClientV1_calm C X r hr password number index fun d hd => ?_).against
  obtain ⟨k, h1, h2, -⟩ := C11_log2 X.dbg 32 number (by omega) hn
  obtain ⟨k', -, h3, h4⟩ := log2_same X.dbg (n := number) (by omega) hn
  rw [h1] at hd h3
  cases hd
  cases h3
  exact ⟨by omega, by omega⟩

example := C57_client1_partial Witness.curve (Witness.crypto true) Witness.clientDraws1 (by meets) Witness.password 4 1
    (by meets) (by meets)

/-- The evaluating server of the first one-of-many exchange. -/
theorem C57_server1_partial (C : Curve) (X : Crypto) (r : OTRecv) (hr : r.Valid) (passwords : List Bytes) :
    MemorySafeUnless DisorderlyCircuit (evaluatorServerV1 C X r passwords) := (evaluatorServerV1_calm C X r hr passwords).against

example := C57_server1_partial Witness.curve (Witness.crypto true) Witness.recv (by meets) Witness.passwords

/-- The evaluating server of the third one-of-many exchange: it stays in bounds unless a message is such a
circuit or is shorter than the labels of a password.  (Some messages of a normal run are short; the
theorem says that one of the two things must be among the messages.) -/
theorem C57_server3_partial (C : Curve) (X : Crypto) (o : OTRecv) (ho : o.Valid) (passwords : List Bytes) (mask : Bytes) (len : Nat)
    (hp : ∀ p ∈ passwords, p.length = len) :
    MemorySafeUnless (fun m => DisorderlyCircuit m ∨ m.length < 32 * (len * 8)) (evaluatorServerV3 C X o passwords mask) :=
  (evaluatorServerV3_calm C X o ho passwords mask len hp).against

example := C57_server3_partial Witness.curve (Witness.crypto true) Witness.recv (by meets) Witness.passwords [9, 8] 2
    (by meets)

/-! ### Where it fails -/

/-- C57 is false of the code.  A party that knows the length of the password makes the evaluating party read
uninitialised memory, on every schedule, in every build. -/
theorem C57_fails_evaluator (C : Curve) (X : Crypto) (s : OTSend) (o : OTRecv) (hs : s.Valid) (ho : o.Valid) (p : Bytes)
    (hp : 0 < p.length) (hfit : p.length < 2 ^ 58) (label : WireBytes) :
    RightFaults (saboteur (s.run C X) (8 * p.length) label) (HalfKey.evaluator C X o p) .ub ∧
      ¬ MemorySafe (HalfKey.evaluator C X o p) := by
  have := (saboteur_breaks X.toEnv p (8 * p.length) rfl (by omega)
    (ot_correct C X hs ho (n := 8 * p.length) (by omega) (by omega) (by omega)) label).faults
  exact ⟨this, not_memorySafe this⟩

example := C57_fails_evaluator Witness.curve (Witness.crypto true) Witness.send Witness.recv (by meets) (by meets)
    [3, 4] (by meets) (by meets) (Witness.bytes 1)

/-- The whole program: anyone to whom the two-party program connects makes it read uninitialised memory,
before any use of the password that the peer would have to know. -/
theorem C57_fails_program (C : Curve) (X : Crypto) (M : ChannelCrypto) (a b : M.Secret) (s : OTSend) (o : OTRecv) (g : GarblerDraws)
    (hs : s.Valid) (ho : o.Valid) (p : Bytes) (t : Nat) (hp : 0 < p.length) (hfit : p.length < 2 ^ 58) (label : WireBytes) :
    RightFaults (saboteurServer C X M a s (8 * p.length) label) (vanillaClient C X M b o g p t) .ub := by
  have h := saboteur_breaks X.toEnv p (8 * p.length) rfl (by omega)
    (ot_correct C X hs ho (n := 8 * p.length) (by omega) (by omega) (by omega)) label
  refine Breaks.faults (a := ()) ?_
  unfold saboteurServer vanillaClient
  have hk : Ends (serverHandshake M a) (clientHandshake M b) (M.dh a (M.pub b)) (M.dh b (M.pub a)) := by
    unfold serverHandshake clientHandshake
    rw [sendP_bind, recvP_bind, recvP_bind]
    refine .sendRecv ?_
    rw [toArray32_toList, liftM_ok, ret_bind, sendP_bind]
    refine .recvSend ?_
    rw [toArray32_toList, liftM_ok, ret_bind]
    exact .ret _ _
  refine .after hk ?_
  rw [M.dh_comm b a]
  have hc : ∀ k m, authCheck M k m (M.hmac k m).toList = .ok () := fun k m => by simp [authCheck]
  exact (h.bindR fun k2 => HalfKey.garbler C X g p t >>= fun k1 => pure (combine k1 k2)).overTags (hc _) (hc _)

example := C57_fails_program Witness.curve (Witness.crypto true) Witness.channel (3 : BitVec 8) (5 : BitVec 8)
    Witness.send Witness.recv Witness.g (by meets) (by meets) [3, 4] 1 (by meets) (by meets) (Witness.bytes 1)

/-- The evaluating client of the third and of the second one-of-many exchange reads past the end of a message
that is too short. -/
theorem C57_fails_client3 (C : Curve) (X : Crypto) (s s2 : OTSend) (many : ManySend) (c : ClientDraws) (hs : s.Valid) (hs2 : s2.Valid)
    (hc : c.ot.Valid) (hc2 : c.ot2.Valid) (password : Bytes) (count index : Nat) (hp : 0 < password.length)
    (hfit : password.length < 2 ^ 32) (hk : ∃ k, count = 2 ^ k) (hcount : count < 2 ^ 32) (hi : index < count)
    (hm : many.Valid X.dbg count) (label : WireBytes) :
    RightFaults (shortServer C X s many s2 password.length count label) (evaluatorClientV3 C X c password count index) .ub ∧
      RightFaults (shortServer C X s many s2 password.length count label) (evaluatorClientV2 C X c password count index) .ub := by
  have h1 := shortServer_breaks C X s s2 many c hs hs2 hc hc2 password count index hp hfit hk hcount hi hm label
    (f := fun k masked => pure (k, masked))
  have h2 := shortServer_breaks C X s s2 many c hs hs2 hc hc2 password count index hp hfit hk hcount hi hm label
    (f := fun k _ => Proc.ret k)
  refine ⟨h1.faults, ?_⟩
  have e : ∀ r : R WireBytes, ((liftM r : Proc WireBytes) >>= fun k => Proc.ret k) = liftM r := fun r => by cases r <;> rfl
  simp only [e] at h2
  exact h2.faults

example := C57_fails_client3 Witness.curve (Witness.crypto true) Witness.send Witness.send Witness.many
    Witness.clientDraws (by meets) (by meets) (by meets) (by meets) Witness.password 4 1 (by meets) (by meets)
    ⟨2, rfl⟩ (by meets) (by meets) (by meets) (Witness.bytes 1)

/-- So does the evaluating server of the third exchange. -/
theorem C57_fails_server3 (C : Curve) (X : Crypto) (s : OTSend) (o : OTRecv) (hs : s.Valid) (ho : o.Valid) (passwords : List Bytes)
    (mask : Bytes) (h0 : 0 < passwords.length) (hp : 0 < mask.length) (hfit : mask.length < 2 ^ 32)
    (hm : passwords[0].length = mask.length) (label : WireBytes) :
    RightFaults (shortClient C X s mask.length label) (evaluatorServerV3 C X o passwords mask) .ub :=
  (shortClient_breaks C X s o hs ho passwords mask h0 hp hfit hm label).faults

example := C57_fails_server3 Witness.curve (Witness.crypto true) Witness.send Witness.recv (by meets) (by meets)
    Witness.passwords [9, 8] (by meets) (by meets) (by meets) (by meets) (Witness.bytes 1)

/-- And of the second. -/
theorem C57_fails_server2 (C : Curve) (X : Crypto) (s : OTSend) (many : Nat → Nat) (r : ServerEvaluator2) (hs : s.Valid)
    (hr : r.ot.Valid) (passwords : List Bytes) (len : Nat) (hdb : Database passwords len) (hlen : 0 < len) (hfit : len < 2 ^ 32)
    (h0 : 0 < passwords.length) (hm : r.many.Valid X.dbg passwords.length) (label : WireBytes) :
    RightFaults (shortClient2 C X s many len passwords.length label) (evaluatorServerV2 C X r passwords) .ub :=
  (shortClient2_breaks C X s many r hs hr passwords len hdb hlen hfit h0 hm label).faults

example := C57_fails_server2 Witness.curve (Witness.crypto true) Witness.send (· + 3) Witness.serverEvaluator2
    (by meets) (by meets) Witness.passwords 2 (by meets) (by meets) (by meets) (by meets) (by meets) (Witness.bytes 1)

/-! ### The hypotheses can be met -/

/-- The circuits of the protocol are in order. -/
example : Ordered (thrCircuit 1 2 1) := by
  refine ⟨?_, ?_⟩
  · intro pre g post h i hi
    have hlen : pre.length < 6 := by
      have := congrArg List.length h
      have e : (thrCircuit 1 2 1).gates.length ≤ 6 := by decide
      simp at this
      omega
    have hpre : pre = (thrCircuit 1 2 1).gates.take pre.length := by rw [h]; simp
    have hg : (thrCircuit 1 2 1).gates[pre.length]? = some g := by rw [h]; simp
    generalize pre.length = k at *
    subst hpre
    have key : ∀ k : Fin 6, ∀ g ∈ (thrCircuit 1 2 1).gates[k.val]?, ∀ i ∈ gateReads g,
        i < (thrCircuit 1 2 1).numInputs ∨ ∃ g' ∈ (thrCircuit 1 2 1).gates.take k.val, g'.output = i := by decide +kernel
    exact key ⟨k, hlen⟩ g hg i hi
  · have key : ∀ i : Fin (thrCircuit 1 2 1).numWires, (thrCircuit 1 2 1).numWires - (thrCircuit 1 2 1).numOutputs ≤ i.val →
        i.val < (thrCircuit 1 2 1).numInputs ∨ ∃ g ∈ (thrCircuit 1 2 1).gates, g.output = i.val := by decide +kernel
    exact fun i h1 h2 => key ⟨i, h2⟩ h1

/-- A message that is a disorderly circuit. -/
example : DisorderlyCircuit (serializeGarbled ⟨selfReading 2, [], []⟩ [] []) := by
  refine ⟨_, oneGate_ok (n := 2) (i := 2) (by decide) (by decide), fun h => ?_⟩
  rcases h.1 [] ⟨2, 2, [2], .add⟩ [] rfl 2 (by decide) with h | ⟨g, hg, -⟩
  · exact absurd h (by decide)
  · simp at hg

/-- A transfer that satisfies the hypothesis of `C57_garbler`. -/
example (C : Curve) (X : Crypto) : ∀ m, MemorySafe (coSender C X (fun i => i) m) := fun m => (C57_base_ot C X _ m []).1

example : GoodLength 1 ∧ Database [[1], [2], [3], [4]] 1 ∧ (3 : Nat) < 2 ^ 2 :=
  ⟨by decide, ⟨⟨2, rfl⟩, by decide, by decide⟩, by decide⟩

end FP.Props
