import Verif.Proof.Dialogue
import Verif.Props.Crash
import Verif.Proof.Witness
/-
C87: who speaks when is fixed, so that no peer can keep a party busy and no exchange can hang.
-/
namespace FP.Props
open Spec

/-! ### One party and any peer -/

/-- What follows from a dialogue: given as many messages as it waits for, the party is done, and further messages change nothing;
given fewer, it returns no result; it never sends more messages than the dialogue says, and exactly as many if it returns. -/
theorem C87_one {α : Type} {p : Proc α} {D : List Turn} (h : Speaks p D) (inp : List Bytes) :
    (waits D ≤ inp.length → (p.against inp).2 ≠ none ∧ p.against inp = p.against (inp.take (waits D))) ∧
    (inp.length < waits D → ∀ a, (p.against inp).2 ≠ some (.ok a)) ∧
    (p.against inp).1.length ≤ D.count .send ∧
    (∀ a, (p.against inp).2 = some (.ok a) → (p.against inp).1.length = D.count .send) := follows_against h inp

section one
variable (C : Curve) (X : Crypto)

/-- Base transfer. -/
theorem C87_base (secrets : Nat → Nat) (msg : List (Bytes × Bytes)) (choices : List Bool) :
    Speaks (coSender C X secrets msg) (baseSends msg.length) ∧
    Speaks (coReceiver C X secrets choices) (baseReceives choices.length) :=
  ⟨(coSender_talks C X secrets msg).follows, (coReceiver_talks C X secrets choices).follows⟩

example := C87_one (C87_base Witness.curve (Witness.crypto true) (· + 3) Witness.messages Witness.choices).1 [[1], [2]]

/-- Extended transfer. -/
theorem C87_ext (s : OTSend) (r : OTRecv) (msg : List (Bytes × Bytes)) (choices : List Bool) :
    Speaks (s.run C X msg) extSends ∧ Speaks (r.run C X choices) extReceives :=
  ⟨(apricotSender_talks C X s msg).follows, (apricotReceiver_talks C X r choices).follows⟩

/-- The other extended transfer. -/
theorem C87_classic (arch : Arch) (base : Nat → Nat) (coin : WireBytes) (delta : Vector Byte 16) (bonus : Vector Bool 192)
    (seed0 seed1 : Vector WireBytes 128) (msg : List (Bytes × Bytes)) (choices : List Bool) :
    Speaks (classicSender X arch coin delta (coReceiver C X base) msg) classicSends ∧
    Speaks (classicReceiver X arch coin bonus seed0 seed1 (coSender C X base) choices) classicReceives :=
  ⟨(classicSender_talks C X arch base coin delta msg).follows,
    (classicReceiver_talks C X arch base coin bonus seed0 seed1 choices).follows⟩

/-- One of many. -/
theorem C87_many (s : ManySend) (base : Nat → Nat) (messages : List Bytes) (index d : Nat) :
    Speaks (s.run C X messages d) (manySends d) ∧ Speaks (manyRecv C X base index d) (manyReceives d) :=
  ⟨(manySend_talks C X s messages d).follows, (manyRecv_talks C X base index d).follows⟩

/-- The key exchange. -/
theorem C87_fpake (g : GarblerDraws) (o : OTRecv) (password : Bytes) (t : Nat) :
    Speaks (fpakeFirst C X g o password t) (garbles ++ evaluates) ∧
    Speaks (fpakeSecond C X o g password t) (evaluates ++ garbles) :=
  ⟨(first_talks C X g o password t).follows, (second_talks C X g o password t).follows⟩

/-- The key exchange with one of many. -/
theorem C87_v4 (r : ManyDraws) (s : SingleDraws) (passwords : List Bytes) (password : Bytes) (index number t : Nat) (h : 0 < number) :
    Speaks (mfpakeMany C X r passwords t) (manySends (Nat.clog 2 passwords.length) ++ (garbles ++ evaluates)) ∧
    Speaks (mfpakeSingle C X s password index number t) (manyReceives (Nat.clog 2 number) ++ (evaluates ++ garbles)) :=
  ⟨(mfpakeMany_talks C X r passwords t).follows, (mfpakeSingle_talks C X s password index number t h).follows⟩

example := C87_v4 Witness.curve (Witness.crypto true) Witness.manyDraws Witness.singleDraws Witness.passwords
    Witness.password 1 4 1 (by meets)

/-- The third implementation. -/
theorem C87_v3 (r : ServerDraws) (s : ClientDraws) (g : GarblerDraws) (o : OTRecv) (passwords : List Bytes)
    (password mask : Bytes) (index number t : Nat) (h : 0 < number) :
    Speaks (garblerServerV3 C X r passwords t) (serverGarbles (Nat.clog 2 passwords.length)) ∧
    Speaks (evaluatorClientV3 C X s password number index) (clientEvaluates (Nat.clog 2 number)) ∧
    Speaks (garblerClientV3 C X g password mask index number t) clientGarbles ∧
    Speaks (evaluatorServerV3 C X o passwords mask) serverEvaluates :=
  ⟨(garblerServerV3_talks C X r passwords t).follows, (evaluatorClientV3_talks C X s password number index h).follows,
    (garblerClientV3_talks C X g password mask index number t).follows, (evaluatorServerV3_talks C X o passwords mask).follows⟩

example := C87_v3 Witness.curve (Witness.crypto true) Witness.serverDraws Witness.clientDraws Witness.g Witness.recv
    Witness.passwords Witness.password [9, 8] 1 4 1 (by meets)

/-- The second implementation. -/
theorem C87_v2 (r : ServerDraws) (s : ClientDraws) (g : ClientGarbler2) (o : ServerEvaluator2) (passwords : List Bytes)
    (password : Bytes) (index number t : Nat) (h : 0 < number) :
    Speaks (garblerServerV2 C X r passwords t) (serverGarbles (Nat.clog 2 passwords.length)) ∧
    Speaks (evaluatorClientV2 C X s password number index) (clientEvaluates (Nat.clog 2 number)) ∧
    Speaks (garblerClientV2 C X g password index number t) (clientGarbles2 (Nat.clog 2 number)) ∧
    Speaks (evaluatorServerV2 C X o passwords) (serverEvaluates2 (Nat.clog 2 passwords.length)) :=
  ⟨(garblerServerV2_talks C X r passwords t).follows, (evaluatorClientV2_talks C X s password number index h).follows,
    (garblerClientV2_talks C X g password index number t h).follows, (evaluatorServerV2_talks C X o passwords).follows⟩

example := C87_v2 Witness.curve (Witness.crypto true) Witness.serverDraws Witness.clientDraws Witness.clientGarbler2
    Witness.serverEvaluator2 Witness.passwords Witness.password 1 4 1 (by meets)

/-- The first implementation. -/
theorem C87_v1 (r : ServerDraws1) (s : ClientDraws1) (g : ClientGarbler1) (o : OTRecv) (passwords : List Bytes)
    (password : Bytes) (index number t : Nat) (h : 0 < number) :
    Speaks (garblerServerV1 C X r passwords t) (.send :: (extSends ++ manySends (Nat.clog 2 passwords.length))) ∧
    Speaks (evaluatorClientV1 C X s password number index) (.receive :: (extReceives ++ manyReceives (Nat.clog 2 number))) ∧
    Speaks (garblerClientV1 C X g password index number t) (.send :: .send :: extSends) ∧
    Speaks (evaluatorServerV1 C X o passwords) (.receive :: .receive :: extReceives) :=
  ⟨(garblerServerV1_talks C X r passwords t).follows, (evaluatorClientV1_talks C X s password number index h).follows,
    (garblerClientV1_talks C X g password index number t).follows, (evaluatorServerV1_talks C X o passwords).follows⟩

example := C87_v1 Witness.curve (Witness.crypto true) Witness.serverDraws1 Witness.clientDraws1 Witness.clientGarbler1
    Witness.recv Witness.passwords Witness.password 1 4 1 (by meets)

/-- A party that follows a dialogue follows it with every message doubled on a channel with tags. -/
theorem C87_channel {α : Type} {p : Proc α} {D : List Turn} (h : Speaks p D) (M : ChannelCrypto) (ks kr : WireBytes)
    (S : SigScheme) (keypair : S.Keypair) (theirs : Bytes) :
    Speaks (p.overAuth M ks kr) (tagged D) ∧ Speaks (p.overSigned S keypair theirs) (tagged D) :=
  ⟨(overTags_talks _ _ (.of_follows h)).follows, (overTags_talks _ _ (.of_follows h)).follows⟩

example := C87_channel (C87_base Witness.curve (Witness.crypto true) (· + 3) Witness.messages Witness.choices).1 Witness.channel
    (Witness.bytes 1) (Witness.bytes 2) Witness.signatures (3 : Byte) [5]

end one

/-! ### Two parties -/

section two
variable (C : Curve) (X : Crypto)

theorem C87_base_never_hangs (secrets secrets' : Nat → Nat) (msg : List (Bytes × Bytes)) (choices : List Bool)
    (h : msg.length = choices.length) :
    NeverHangs (coSender C X secrets msg) (coReceiver C X secrets' choices) (4 * choices.length + 6) := by
  have := (Fits.base choices.length).neverHangs (h ▸ (C87_base C X secrets msg choices).1) (C87_base C X secrets' msg choices).2
  refine cast (congrArg _ ?_) this
  simp only [baseSends, baseReceives, hello, List.length_append, List.length_replicate, List.length_cons, List.length_nil]
  omega

example := C87_base_never_hangs Witness.curve (Witness.crypto true) (· + 3) (· + 3) Witness.messages Witness.choices
    (by meets)

theorem manySends_length (d : Nat) : (manySends d).length = 2 * d + 4 := by
  simp only [manySends, baseSends, hello, List.length_append, List.length_replicate, List.length_cons, List.length_nil]
  omega

theorem manyReceives_length (d : Nat) : (manyReceives d).length = 2 * d + 4 := by
  simp only [manyReceives, baseReceives, hello, List.length_append, List.length_replicate, List.length_cons, List.length_nil]
  omega

theorem extSends_length : extSends.length = 269 := by
  simp only [extSends, baseReceives, hello, List.length_append, List.length_replicate, List.length_cons, List.length_nil]

theorem extReceives_length : extReceives.length = 269 := by
  simp only [extReceives, baseSends, hello, List.length_append, List.length_replicate, List.length_cons, List.length_nil]

theorem classicSends_length : classicSends.length = 269 := by
  simp only [classicSends, baseReceives, hello, List.length_append, List.length_replicate, List.length_cons, List.length_nil]

theorem classicReceives_length : classicReceives.length = 269 := by
  simp only [classicReceives, baseSends, hello, List.length_append, List.length_replicate, List.length_cons, List.length_nil]

theorem C87_ext_never_hangs (s : OTSend) (r : OTRecv) (msg : List (Bytes × Bytes)) (choices : List Bool) :
    NeverHangs (s.run C X msg) (r.run C X choices) 538 :=
  cast (congrArg _ (by rw [extSends_length, extReceives_length]))
    (Fits.ext.neverHangs (C87_ext C X s r msg choices).1 (C87_ext C X s r msg choices).2)

theorem C87_classic_never_hangs (arch arch' : Arch) (base base' : Nat → Nat) (coin coin' : WireBytes) (delta : Vector Byte 16)
    (bonus : Vector Bool 192) (seed0 seed1 : Vector WireBytes 128) (msg : List (Bytes × Bytes)) (choices : List Bool) :
    NeverHangs (classicSender X arch coin delta (coReceiver C X base) msg)
      (classicReceiver X arch' coin' bonus seed0 seed1 (coSender C X base') choices) 538 :=
  cast (congrArg _ (by rw [classicSends_length, classicReceives_length]))
    (Fits.classic.neverHangs (C87_classic C X arch base coin delta bonus seed0 seed1 msg choices).1
      (C87_classic C X arch' base' coin' delta bonus seed0 seed1 msg choices).2)

theorem C87_many_never_hangs (s : ManySend) (base : Nat → Nat) (messages : List Bytes) (index d : Nat) :
    NeverHangs (s.run C X messages d) (manyRecv C X base index d) (4 * d + 8) := by
  refine cast (congrArg _ ?_)
    ((Fits.many d).neverHangs (C87_many C X s base messages index d).1 (C87_many C X s base messages index d).2)
  rw [manySends_length, manyReceives_length]
  omega

theorem C87_fpake_never_hangs (g g' : GarblerDraws) (o o' : OTRecv) (password password' : Bytes) (t t' : Nat) :
    NeverHangs (fpakeFirst C X g o password t) (fpakeSecond C X o' g' password' t') 1084 := by
  refine cast (congrArg _ ?_) ((Fits.half.append Fits.half.swap).neverHangs (C87_fpake C X g o password t).1
    (C87_fpake C X g' o' password' t').2)
  simp only [garbles, evaluates, List.length_append, extSends_length, extReceives_length, List.length_cons, List.length_nil]

theorem C87_v4_never_hangs (r : ManyDraws) (s : SingleDraws) (passwords : List Bytes) (password : Bytes) (index number t t' : Nat)
    (h0 : 0 < number) (h : Nat.clog 2 passwords.length = Nat.clog 2 number) :
    NeverHangs (mfpakeMany C X r passwords t) (mfpakeSingle C X s password index number t') (4 * Nat.clog 2 number + 1092) := by
  have h1 := (C87_v4 C X r s passwords password index number t h0).1
  rw [h] at h1
  refine cast (congrArg _ ?_) (((Fits.many _).append (Fits.half.append Fits.half.swap)).neverHangs h1
    (C87_v4 C X r s passwords password index number t' h0).2)
  simp only [garbles, evaluates, List.length_append, extSends_length, extReceives_length, List.length_cons, List.length_nil,
    manySends_length, manyReceives_length]
  omega

example := C87_v4_never_hangs Witness.curve (Witness.crypto true) Witness.manyDraws Witness.singleDraws
    Witness.passwords Witness.password 1 4 1 1 (by meets) (by meets)

theorem C87_v3_never_hangs (r : ServerDraws) (s : ClientDraws) (g : GarblerDraws) (o : OTRecv) (passwords : List Bytes)
    (password masked mask : Bytes) (index number t : Nat) (h0 : 0 < number) (h : Nat.clog 2 passwords.length = Nat.clog 2 number) :
    NeverHangs (garblerServerV3 C X r passwords t) (evaluatorClientV3 C X s password number index) (4 * Nat.clog 2 number + 1088) ∧
    NeverHangs (garblerClientV3 C X g password masked index number t) (evaluatorServerV3 C X o passwords mask) 544 := by
  obtain ⟨h1, h2, h3, -⟩ := C87_v3 C X r s g o passwords password masked index number t h0
  have h4 := (C87_v3 C X r s g o passwords password mask index number t h0).2.2.2
  rw [h] at h1
  constructor
  · refine cast (congrArg _ ?_) ((Fits.server _).neverHangs h1 h2)
    simp only [serverGarbles, clientEvaluates, List.length_append, extSends_length, extReceives_length, List.length_cons,
      manySends_length, manyReceives_length]
    omega
  · refine cast (congrArg _ ?_) (Fits.client.neverHangs h3 h4)
    simp only [clientGarbles, serverEvaluates, List.length_append, extSends_length, extReceives_length, List.length_cons,
      List.length_nil]

example := C87_v3_never_hangs Witness.curve (Witness.crypto true) Witness.serverDraws Witness.clientDraws Witness.g
    Witness.recv Witness.passwords Witness.password [3, 4] [9, 8] 1 4 1 (by meets) (by meets)

theorem C87_v2_never_hangs (r : ServerDraws) (s : ClientDraws) (g : ClientGarbler2) (o : ServerEvaluator2) (passwords : List Bytes)
    (password : Bytes) (index number t : Nat) (h0 : 0 < number) (h : Nat.clog 2 passwords.length = Nat.clog 2 number) :
    NeverHangs (garblerServerV2 C X r passwords t) (evaluatorClientV2 C X s password number index) (4 * Nat.clog 2 number + 1088) ∧
    NeverHangs (garblerClientV2 C X g password index number t) (evaluatorServerV2 C X o passwords) (4 * Nat.clog 2 number + 552) := by
  obtain ⟨h1, h2, h3, h4⟩ := C87_v2 C X r s g o passwords password index number t h0
  rw [h] at h1 h4
  constructor
  · refine cast (congrArg _ ?_) ((Fits.server _).neverHangs h1 h2)
    simp only [serverGarbles, clientEvaluates, List.length_append, extSends_length, extReceives_length, List.length_cons,
      manySends_length, manyReceives_length]
    omega
  · refine cast (congrArg _ ?_) ((Fits.client2 _).neverHangs h3 h4)
    simp only [clientGarbles2, serverEvaluates2, List.length_append, extSends_length, extReceives_length, List.length_cons,
      List.length_nil, manySends_length, manyReceives_length]
    omega

example := C87_v2_never_hangs Witness.curve (Witness.crypto true) Witness.serverDraws Witness.clientDraws
    Witness.clientGarbler2 Witness.serverEvaluator2 Witness.passwords Witness.password 1 4 1 (by meets) (by meets)

theorem C87_v1_never_hangs (r : ServerDraws1) (s : ClientDraws1) (g : ClientGarbler1) (o : OTRecv) (passwords : List Bytes)
    (password : Bytes) (index number t : Nat) (h0 : 0 < number) (h : Nat.clog 2 passwords.length = Nat.clog 2 number) :
    NeverHangs (garblerServerV1 C X r passwords t) (evaluatorClientV1 C X s password number index) (4 * Nat.clog 2 number + 548) ∧
    NeverHangs (garblerClientV1 C X g password index number t) (evaluatorServerV1 C X o passwords) 542 := by
  obtain ⟨h1, h2, h3, h4⟩ := C87_v1 C X r s g o passwords password index number t h0
  rw [h] at h1
  constructor
  · refine cast (congrArg _ ?_) ((Fits.msg (Fits.ext.append (Fits.many _))).neverHangs h1 h2)
    simp only [List.length_append, extSends_length, extReceives_length, List.length_cons, manySends_length, manyReceives_length]
    omega
  · refine cast (congrArg _ ?_) ((Fits.msg (Fits.msg Fits.ext)).neverHangs h3 h4)
    simp only [extSends_length, extReceives_length, List.length_cons]

example := C87_v1_never_hangs Witness.curve (Witness.crypto true) Witness.serverDraws1 Witness.clientDraws1
    Witness.clientGarbler1 Witness.recv Witness.passwords Witness.password 1 4 1 (by meets) (by meets)

/-- The two-party program. -/
theorem C87_program_never_hangs (M : ChannelCrypto) (secret secret' : M.Secret) (g g' : GarblerDraws) (o o' : OTRecv)
    (password password' : Bytes) (t t' : Nat) :
    NeverHangs (vanillaServer C X M secret g o password t) (vanillaClient C X M secret' o' g' password' t') 2172 := by
  have h1 : Says (vanillaServer C X M secret g o password t) ([.send, .receive] ++ tagged (garbles ++ evaluates)) := by
    unfold vanillaServer
    exact (serverHandshake_talks M secret).bind fun _ _ => overTags_talks _ _ (first_talks C X g o password t)
  have h2 : Says (vanillaClient C X M secret' o' g' password' t') ([.receive, .send] ++ tagged (evaluates ++ garbles)) := by
    unfold vanillaClient
    exact (clientHandshake_talks M secret').bind fun _ _ => overTags_talks _ _ (second_talks C X g' o' password' t')
  refine cast (congrArg _ ?_) ((Fits.append (Fits.msg (Fits.msg' .nil)) (Fits.half.append Fits.half.swap).tagged).neverHangs
    h1.follows h2.follows)
  simp only [garbles, evaluates, List.length_append, extSends_length, extReceives_length, List.length_cons, List.length_nil,
    tagged_length]

/-- The server and the client program. -/
theorem C87_programs_never_hang (M : ChannelCrypto) (secret secret' : M.Secret) (r : ManyDraws) (s : SingleDraws) (file : Bytes)
    (size : Nat) (password : Bytes) (index number t t' : Nat) (h0 : 0 < number)
    (h : ∀ passwords, loadPasswords file size = .ok passwords → Nat.clog 2 passwords.length = Nat.clog 2 number) :
    NeverHangs (serverMain C X M secret r file size t) (clientMain C X M secret' s password index number t')
      (8 * Nat.clog 2 number + 2188) := by
  have h1 : Says (serverMain C X M secret r file size t)
      ([.send, .receive] ++ tagged (manySends (Nat.clog 2 number) ++ (garbles ++ evaluates))) := by
    unfold serverMain
    refine Talks.step (P := fun l => Nat.clog 2 l.length = Nat.clog 2 number) ⟨fun l e => h l e⟩ fun l hl => ?_
    rw [← hl]
    exact (serverHandshake_talks M secret).bind fun _ _ => overTags_talks _ _ (mfpakeMany_talks C X r l t)
  have h2 : Says (clientMain C X M secret' s password index number t')
      ([.receive, .send] ++ tagged (manyReceives (Nat.clog 2 number) ++ (evaluates ++ garbles))) := by
    unfold clientMain
    exact (clientHandshake_talks M secret').bind fun _ _ => overTags_talks _ _ (mfpakeSingle_talks C X s password index number t' h0)
  refine cast (congrArg _ ?_) ((Fits.append (Fits.msg (Fits.msg' .nil))
    ((Fits.many _).append (Fits.half.append Fits.half.swap)).tagged).neverHangs h1.follows h2.follows)
  simp only [garbles, evaluates, List.length_append, extSends_length, extReceives_length, List.length_cons, List.length_nil,
    tagged_length, manySends_length, manyReceives_length]
  omega

example := C87_programs_never_hang Witness.curve (Witness.crypto true) Witness.channel (3 : BitVec 8) (5 : BitVec 8)
    Witness.manyDraws Witness.singleDraws [1, 2, 3, 4, 5, 6, 7, 8] 2 Witness.password 1 4 1 1 (by meets)
    (by intro passwords h; cases h; rfl)

end two

/-! ### Parties that disagree on the number of entries

The number of pairs in the base transfer is the one thing a dialogue depends on.  If it differs between the two sides, they
find out when they greet each other, so that such a run does not hang either: one of the two fails, whatever else happens. -/

section mismatch
variable (C : Curve) (X : Crypto)

theorem clog_small {number : Nat} (h : number < 2 ^ 64) : Nat.clog 2 number < 2 ^ 64 :=
  lt_of_le_of_lt (Nat.clog_le_of_le_pow (Nat.le_of_lt Nat.lt_two_pow_self)) h

theorem C87_base_mismatch (secrets secrets' : Nat → Nat) (msg : List (Bytes × Bytes)) (choices : List Bool)
    (h : msg.length ≠ choices.length) (hn : choices.length < 2 ^ 64) :
    OneFails (coSender C X secrets msg) (coReceiver C X secrets' choices) :=
  Fits.nil.oneFails (not_accepts h hn) (coSender_cut C X secrets msg) (coReceiver_cut C X secrets' choices)

example := C87_base_mismatch Witness.curve (Witness.crypto true) (· + 3) (· + 5) Witness.messages [true, false] (by meets)
    (by meets)

theorem C87_many_mismatch (s : ManySend) (base : Nat → Nat) (messages : List Bytes) (index d d' : Nat) (h : d ≠ d')
    (hn : d' < 2 ^ 64) : OneFails (s.run C X messages d) (manyRecv C X base index d') :=
  (Fits.msg .nil).oneFails (not_accepts h hn) (manySend_cut C X s messages d) (manyRecv_cut C X base index d')

example := C87_many_mismatch Witness.curve (Witness.crypto true) Witness.many (· + 3) Witness.passwords 1 2 3 (by meets)
    (by meets)

theorem C87_v4_mismatch (r : ManyDraws) (s : SingleDraws) (passwords : List Bytes) (password : Bytes) (index number t t' : Nat)
    (h0 : 0 < number) (hn : number < 2 ^ 64) (h : Nat.clog 2 passwords.length ≠ Nat.clog 2 number) :
    OneFails (mfpakeMany C X r passwords t) (mfpakeSingle C X s password index number t') :=
  (Fits.msg .nil).oneFails (not_accepts h (clog_small hn)) (mfpakeMany_cut C X r passwords t)
    (mfpakeSingle_cut C X s password index number t' h0)

example := C87_v4_mismatch Witness.curve (Witness.crypto true) Witness.manyDraws Witness.singleDraws Witness.passwords
    Witness.password 1 8 1 1 (by meets) (by meets) (by meets)

theorem C87_v3_mismatch (r : ServerDraws) (s : ClientDraws) (passwords : List Bytes) (password : Bytes) (index number t : Nat)
    (h0 : 0 < number) (hn : number < 2 ^ 64) (h : Nat.clog 2 passwords.length ≠ Nat.clog 2 number) :
    OneFails (garblerServerV3 C X r passwords t) (evaluatorClientV3 C X s password number index) :=
  Fits.oneFails (Fits.msg (Fits.ext.append (Fits.msg (Fits.msg .nil)))) (not_accepts h (clog_small hn))
    (garblerServerV3_cut C X r passwords t) (evaluatorClientV3_cut C X s password number index h0)

example := C87_v3_mismatch Witness.curve (Witness.crypto true) Witness.serverDraws Witness.clientDraws Witness.passwords
    Witness.password 1 8 1 (by meets) (by meets) (by meets)

theorem C87_v2_mismatch (r : ServerDraws) (s : ClientDraws) (g : ClientGarbler2) (o : ServerEvaluator2) (passwords : List Bytes)
    (password : Bytes) (index number t : Nat) (h0 : 0 < number) (hn : number < 2 ^ 64) (hp : passwords.length < 2 ^ 64)
    (h : Nat.clog 2 passwords.length ≠ Nat.clog 2 number) :
    OneFails (garblerServerV2 C X r passwords t) (evaluatorClientV2 C X s password number index) ∧
    OneFails (garblerClientV2 C X g password index number t) (evaluatorServerV2 C X o passwords) :=
  ⟨Fits.oneFails (Fits.msg (Fits.ext.append (Fits.msg (Fits.msg .nil)))) (not_accepts h (clog_small hn))
      (garblerServerV2_cut C X r passwords t) (evaluatorClientV2_cut C X s password number index h0),
    Fits.oneFails (Fits.msg (Fits.msg (Fits.ext.append (Fits.msg' .nil)))) (not_accepts h.symm (clog_small hp))
      (garblerClientV2_cut C X g password index number t h0) (evaluatorServerV2_cut C X o passwords)⟩

example := C87_v2_mismatch Witness.curve (Witness.crypto true) Witness.serverDraws Witness.clientDraws
    Witness.clientGarbler2 Witness.serverEvaluator2 Witness.passwords Witness.password 1 8 1 (by meets) (by meets)
    (by meets) (by meets)

theorem C87_v1_mismatch (r : ServerDraws1) (s : ClientDraws1) (passwords : List Bytes) (password : Bytes) (index number t : Nat)
    (h0 : 0 < number) (hn : number < 2 ^ 64) (h : Nat.clog 2 passwords.length ≠ Nat.clog 2 number) :
    OneFails (garblerServerV1 C X r passwords t) (evaluatorClientV1 C X s password number index) :=
  Fits.oneFails (Fits.msg (Fits.ext.append (Fits.msg .nil))) (not_accepts h (clog_small hn))
    (garblerServerV1_cut C X r passwords t) (evaluatorClientV1_cut C X s password number index h0)

example := C87_v1_mismatch Witness.curve (Witness.crypto true) Witness.serverDraws1 Witness.clientDraws1
    Witness.passwords Witness.password 1 8 1 (by meets) (by meets) (by meets)

end mismatch

/-- So the key exchange with one of many never hangs, whatever the two sides are given. -/
theorem C87_v4_any (C : Curve) (X : Crypto) (r : ManyDraws) (s : SingleDraws) (passwords : List Bytes) (password : Bytes)
    (index number t t' : Nat) (h0 : 0 < number) (hn : number < 2 ^ 64) :
    ∃ n, ∀ m c, StepsN m (start (mfpakeMany C X r passwords t) (mfpakeSingle C X s password index number t')) c →
      m ≤ n ∧ (Stuck c → (∃ a b, c.left = .ret a ∧ c.right = .ret b) ∨ (∃ e, c.left = .fail e) ∨ ∃ e, c.right = .fail e) := by
  by_cases h : Nat.clog 2 passwords.length = Nat.clog 2 number
  · have h1 := C87_v4_never_hangs C X r s passwords password index number t t' h0 h
    exact ⟨_, fun m c hm => ⟨(h1 m c hm).1, fun hs => ((h1 m c hm).2 hs).imp_left fun h => h.2.1⟩⟩
  · obtain ⟨n, h1⟩ := C87_v4_mismatch C X r s passwords password index number t t' h0 hn h
    exact ⟨n, fun m c hm => ⟨(h1 m c hm).1, fun hs => .inr ((h1 m c hm).2 hs)⟩⟩

example := C87_v4_any Witness.curve (Witness.crypto true) Witness.manyDraws Witness.singleDraws Witness.passwords Witness.password 1
    3 1 1 (by meets) (by meets)

/-- Nor if anything breaks at any point: whenever one of two parties that never hang has not ended, a party can go on or gets
an error from the closed channel. -/
theorem C87_faults {α β : Type} {p : Proc α} {q : Proc β} {n : Nat} (h : NeverHangs p q n) (c : Conf α β)
    (hc : FaultSteps (start p q) c) : ¬ Hangs c := by
  intro hh
  obtain ⟨k, l, m, hs⟩ := (C62_hangs_exactly p q).mp ⟨c, hc, hh⟩
  rcases (h m _ hs).2 fun _ h => nomatch h with ⟨-, ⟨a, b, e, -⟩, -⟩ | ⟨e, he⟩ | ⟨e, he⟩
  · cases e
  · cases he
  · cases he

/-! ### What is ruled out, and an example -/

/-- Two parties that both wait do hang, for every number of steps. -/
theorem C87_waiting_hangs (n : Nat) : ¬ NeverHangs (recvP >>= fun _ => sendP []) (recvP >>= fun _ => sendP []) n := by
  intro h
  have hs : Stuck (start (recvP >>= fun _ => sendP []) (recvP >>= fun _ => sendP [])) := by
    intro d hd
    cases hd
  rcases (h 0 _ (.refl _)).2 hs with ⟨-, ⟨a, b, e, -⟩, -⟩ | ⟨e, he⟩ | ⟨e, he⟩
  · cases e
  · cases he
  · cases he

/-- A party that asks for one message more than it is sent hangs too. -/
theorem C87_missing_hangs (n : Nat) : ¬ NeverHangs (sendP []) (recvP >>= fun _ => recvP) n := by
  intro h
  have hrun : StepsN 2 (start (sendP []) (recvP >>= fun _ => recvP)) ⟨.ret (), recvP, [], []⟩ :=
    .step (.sendL ..) (.step (.recvR ..) (.refl _))
  have hs : Stuck (⟨.ret (), recvP, [], []⟩ : Conf Unit Bytes) := by
    intro d hd
    cases hd
  rcases (h 2 _ hrun).2 hs with ⟨-, ⟨a, b, -, e⟩, -⟩ | ⟨e, he⟩ | ⟨e, he⟩
  · cases e
  · cases he
  · cases he

example : Nat.clog 2 [[1#8], [2#8], [3#8]].length = Nat.clog 2 4 ∧ 4 * Nat.clog 2 4 + 1092 = 1100 := by
  have : Nat.clog 2 4 = 2 := Nat.clog_pow 2 2 (by decide)
  refine ⟨?_, by rw [this]⟩
  show Nat.clog 2 3 = _
  rw [this, Nat.clog_of_two_le (by decide) (by decide), Nat.clog_of_two_le (by decide) (by decide)]
  rfl

/-- Three entries are not the five the client was told of. -/
example : Nat.clog 2 [[1#8], [2#8], [3#8]].length ≠ Nat.clog 2 5 := by
  show Nat.clog 2 3 ≠ _
  have h3 : Nat.clog 2 3 ≤ 2 := Nat.clog_le_of_le_pow (by decide)
  have h5 : ¬ Nat.clog 2 5 ≤ 2 := fun h => absurd ((Nat.clog_le_iff_le_pow (by decide)).mp h) (by decide)
  omega

end FP.Props
