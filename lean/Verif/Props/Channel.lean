import Verif.Proof.Channel
import Verif.Props.ManyFpake
import Verif.Proof.Witness
/-
C36-C38 channels, C42 password files, C47 the programs, C48 the network in the middle.
-/
namespace FP.Props
open Spec

variable {α β : Type}

/-! ### C36 -/

/-- C36: whatever two parties do on a plain channel they do on an authenticated one, on every schedule. -/
theorem C36_transparent (M : ChannelCrypto) (k k' : WireBytes) (p : Proc α) (q : Proc β) (a : α) (b : β)
    (h : Completes p q a b) : Completes (p.overAuth M k k') (q.overAuth M k' k) a b :=
  (h.ends.overTags (authCheck_ok M k) (authCheck_ok M k')).completes

example := C36_transparent Witness.channel (Witness.bytes 1) (Witness.bytes 2) (sendP [1, 2]) recvP () [1, 2]
    (Ends.completes (.sendRecv (.ret _ _)))

/-- C36: messages arrive complete and in order. -/
theorem C36_in_order (M : ChannelCrypto) (k k' : WireBytes) (messages : List Bytes) :
    Completes ((sendAll messages).overAuth M k k') ((recvN messages.length).overAuth M k' k) () messages :=
  C36_transparent M k k' _ _ _ _ (Ends.sendAll messages).completes

/-- C36: sending puts each message and then its code on the wire, and nothing else. -/
theorem C36_sends (M : ChannelCrypto) (ks kr : WireBytes) (messages : List Bytes) :
    ((sendAll messages).overAuth M ks kr).against [] =
      (frames (fun m => (M.hmac ks m).toList) messages, some (.ok ())) := by
  unfold Proc.overAuth
  rw [overTags_against _ _ _ _ (authCheck_eq M kr), sendAll_against]
  rfl

/-- C36: `n` receives succeed with `messages` exactly if the transport delivers these messages, each
followed by its code under the receiver's key. -/
theorem C36_receives_iff (M : ChannelCrypto) (ks kr : WireBytes) (n : Nat) (inp messages : List Bytes) :
    ((recvN n).overAuth M ks kr).against inp = ([], some (.ok messages)) ↔
      messages.length = n ∧ ∃ rest, inp = frames (fun m => (M.hmac kr m).toList) messages ++ rest := by
  unfold Proc.overAuth
  rw [overTags_against _ _ _ _ (authCheck_eq M kr), recvN_against]
  constructor
  · intro h
    obtain ⟨-, h⟩ := Prod.mk.inj h
    by_cases hn : n ≤ (accepted (fun d c => decide (c = (M.hmac kr d).toList)) inp).1.length
    · rw [if_pos hn] at h
      have h : List.take n (accepted (fun d c => decide (c = (M.hmac kr d).toList)) inp).1 = messages := by
        injection h with h
        injection h
      refine ⟨by rw [← h]; simpa using hn, ?_⟩
      rw [← h]
      exact take_accepted _ _ (fun m c hv => of_decide_eq_true hv) n inp
    · rw [if_neg hn] at h
      cases hx : (accepted (fun d c => decide (c = (M.hmac kr d).toList)) inp).2 <;> rw [hx] at h <;> simp [outcome] at h
  · rintro ⟨rfl, rest, rfl⟩
    rw [accepted_frames _ _ (by simp)]
    simp [frames, outcome]

/-- C36: a party on an authenticated channel, against a transport that delivers arbitrary frames, does
exactly what it would do on a plain channel with the messages up to the first wrong code; then it gets an
error.  What it sends carries codes. -/
theorem C36_only_authentic (M : ChannelCrypto) (ks kr : WireBytes) (p : Proc α) (inp : List Bytes) :
    let good := accepted (fun data code => decide (code = (M.hmac kr data).toList)) inp
    (p.overAuth M ks kr).against inp =
      (frames (fun m => (M.hmac ks m).toList) (p.against good.1).1,
        outcome (.err .authentication) good.2 (p.against good.1).2) :=
  overTags_against _ _ _ _ (authCheck_eq M kr) p inp

/-- C36: the `i`th message accepted out of arbitrary frames is the frame at `2 * i`, and the frame after
it is its code. -/
theorem C36_accepted (M : ChannelCrypto) (kr : WireBytes) (inp : List Bytes) (i : Nat) (m : Bytes)
    (h : (accepted (fun data code => decide (code = (M.hmac kr data).toList)) inp).1[i]? = some m) :
    inp[2 * i]? = some m ∧ inp[2 * i + 1]? = some (M.hmac kr m).toList := by
  obtain ⟨h1, c, h2, h3⟩ := accepted_take _ _ _ _ h
  have h3 := of_decide_eq_true h3
  exact ⟨h1, h3 ▸ h2⟩

example := C36_accepted Witness.channel (Witness.bytes 1) [[1, 2], (Witness.channel.hmac (Witness.bytes 1) [1, 2]).toList, [4]] 0
    [1, 2] (by decide)

/-- C36: a wrong code is an error. -/
theorem C36_rejects (M : ChannelCrypto) (ks kr : WireBytes) (data code : Bytes) (rest : List Bytes)
    (h : code ≠ (M.hmac kr data).toList) :
    (recvP.overAuth M ks kr).against (data :: code :: rest) = ([], some (.error (.err .authentication))) := by
  rw [C36_only_authentic]
  simp [accepted, h, recvP, Proc.against, frames, outcome]

example := C36_rejects Witness.channel (Witness.bytes 1) (Witness.bytes 1) [3, 4] [3, 4] Witness.passwords (by meets)

/-- C36 for signed channels. -/
theorem C36_signed_transparent (S : SigScheme) (k k' : S.Keypair) (p : Proc α) (q : Proc β) (a : α) (b : β)
    (h : Completes p q a b) :
    Completes (p.overSigned S k (S.publicKey k')) (q.overSigned S k' (S.publicKey k)) a b :=
  (h.ends.overTags (signedCheck_ok S k) (signedCheck_ok S k')).completes

example := C36_signed_transparent Witness.signatures (3 : Byte) (5 : Byte) (sendP [1, 2]) recvP () [1, 2]
    (Ends.completes (.sendRecv (.ret _ _)))

/-- C36 for signed channels: a receive returns data only if the next frame is a valid signature of it. -/
theorem C36_signed_receive_iff (S : SigScheme) (k : S.Keypair) (key data signature m : Bytes) (rest : List Bytes) :
    (recvP.overSigned S k key).against (data :: signature :: rest) = ([], some (.ok m)) ↔
      m = data ∧ S.parse signature = true ∧ S.verify key data signature = true := by
  unfold Proc.overSigned recvP
  rw [overTags_recv]
  simp only [Proc.against]
  unfold signedCheck
  cases hp : S.parse signature with
  | false => simp [assertR, panicR, errb, Proc.ofR, Proc.against]
  | true =>
    cases hv : S.verify key data signature with
    | false =>
      rw [show assertR true = .ok () from rfl, okb, if_neg (by simp)]
      simp [errR, Proc.ofR, Proc.against]
    | true =>
      rw [show assertR true = .ok () from rfl, okb, if_pos rfl]
      simp [Proc.ofR, Proc.against, Proc.overTags, eq_comm]

/-- C36 fails for signed channels in one way: a malformed signature is a panic, not an error. -/
theorem C36_signed_panics (S : SigScheme) (k : S.Keypair) (key data signature : Bytes) (rest : List Bytes)
    (h : S.parse signature = false) :
    (recvP.overSigned S k key).against (data :: signature :: rest) = ([], some (.error .panic)) := by
  unfold Proc.overSigned recvP
  rw [overTags_recv]
  simp only [Proc.against]
  unfold signedCheck
  rw [h]
  rfl

example := C36_signed_panics Witness.signatures (3 : Byte) [5] [1, 2] [] [] rfl

/-! ### C37 -/

/-- C37 is false: frames delivered a second time are accepted a second time. -/
theorem C37_replay (M : ChannelCrypto) (ks kr : WireBytes) (messages : List Bytes) :
    let sent := frames (fun m => (M.hmac kr m).toList) messages
    ((recvN (2 * messages.length)).overAuth M ks kr).against (sent ++ sent) = ([], some (.ok (messages ++ messages))) := by
  refine (C36_receives_iff M ks kr _ _ _).mpr ⟨by simp; omega, [], ?_⟩
  rw [frames_append, List.append_nil]

/-- C37 is false: messages delivered in another order, or only some of them, are accepted like that. -/
theorem C37_reorder (M : ChannelCrypto) (ks kr : WireBytes) (delivered : List Bytes) :
    ((recvN delivered.length).overAuth M ks kr).against
      (delivered.flatMap fun m => ((sendP m).overAuth M kr ks |>.against []).1) = ([], some (.ok delivered)) := by
  refine (C36_receives_iff M ks kr _ _ _).mpr ⟨rfl, [], ?_⟩
  rw [List.append_nil]
  rfl

/-- C37 is false: after a handshake both directions use one key, and a party accepts what it sent itself
when it is sent back. -/
theorem C37_reflection (M : ChannelCrypto) (key : WireBytes) (messages : List Bytes) :
    ((recvN messages.length).overAuth M key key).against (((sendAll messages).overAuth M key key).against []).1
      = ([], some (.ok messages)) := by
  rw [C36_sends]
  exact (C36_receives_iff M key key _ _ _).mpr ⟨rfl, [], by rw [List.append_nil]⟩

/-- C37, what does hold.  On a local channel pair each direction has its own key: a message that is
reflected is accepted only if its codes under the two keys agree. -/
theorem C37_local_reflection_partial (M : ChannelCrypto) (ks kr : WireBytes) (m : Bytes) :
    (recvP.overAuth M ks kr).against (((sendP m).overAuth M ks kr).against []).1 = ([], some (.ok m)) ↔
      M.hmac ks m = M.hmac kr m := by
  have h1 := C36_sends M ks kr [m]
  have hs : sendAll [m] = sendP m := rfl
  rw [hs] at h1
  rw [h1]
  have h2 := C36_receives_iff M ks kr 1 (frames (fun m => (M.hmac ks m).toList) [m]) [m]
  have hr : (recvP.overAuth M ks kr).against (frames (fun m => (M.hmac ks m).toList) [m]) = ([], some (.ok m)) ↔
      ((recvN 1).overAuth M ks kr).against (frames (fun m => (M.hmac ks m).toList) [m]) = ([], some (.ok [m])) := by
    rw [C36_only_authentic, C36_only_authentic, recvN_against]
    by_cases h : (M.hmac ks m).toList = (M.hmac kr m).toList <;>
      simp [accepted, frames, h, recvP, Proc.against, outcome]
  rw [hr, h2]
  constructor
  · rintro ⟨-, rest, h⟩
    simp only [frames, List.flatMap_cons, List.flatMap_nil, List.cons_append, List.nil_append, List.append_nil,
      List.cons.injEq] at h
    exact Vector.toList_inj.mp h.2.1
  · intro h
    exact ⟨rfl, [], by simp [frames, h]⟩

/-- C37, what does hold.  If the network does not forge codes - a pair of frames it delivers carries a
correct code only if this message was sent under the key - then every message accepted was sent. -/
theorem C37_unforged_partial (M : ChannelCrypto) (kr : WireBytes) (sent inp : List Bytes)
    (hnet : ∀ i m, inp[2 * i]? = some m → inp[2 * i + 1]? = some (M.hmac kr m).toList → m ∈ sent) (m : Bytes)
    (h : m ∈ (accepted (fun data code => decide (code = (M.hmac kr data).toList)) inp).1) : m ∈ sent := by
  obtain ⟨i, hi, rfl⟩ := List.getElem_of_mem h
  obtain ⟨h1, h2⟩ := C36_accepted M kr inp i _ (List.getElem?_eq_getElem hi)
  exact hnet i _ h1 h2

/-! ### C38 -/

/-- C38: both ends of the handshake finish, on every schedule, with the same key. -/
theorem C38_same_key (M : ChannelCrypto) (a b : M.Secret) :
    ∃ key, Completes (serverHandshake M a) (clientHandshake M b) key key :=
  ⟨_, (handshake_ends M a b).completes⟩

/-- C38: the key is the one of the Diffie-Hellman exchange. -/
theorem C38_key (M : ChannelCrypto) (a b : M.Secret) :
    Completes (serverHandshake M a) (clientHandshake M b) (M.dh a (M.pub b)) (M.dh b (M.pub a)) := by
  rw [M.dh_comm b a]
  exact (handshake_ends M a b).completes

/-- C38: a public key that does not have 32 bytes makes either end panic. -/
theorem C38_malformed (M : ChannelCrypto) (a : M.Secret) (theirs : Bytes) (rest : List Bytes) (h : theirs.length ≠ 32) :
    ((serverHandshake M a).against (theirs :: rest)).2 = some (.error .panic) ∧
    ((clientHandshake M a).against (theirs :: rest)).2 = some (.error .panic) := by
  have ht : toArray32 theirs = .error .panic := by
    unfold toArray32
    rw [dif_neg h]
    rfl
  constructor
  · unfold serverHandshake
    rw [sendP_bind, recvP_bind]
    simp only [Proc.against]
    rw [ht]
    rfl
  · unfold clientHandshake
    rw [recvP_bind]
    simp only [Proc.against]
    rw [ht]
    rfl

example := C38_malformed Witness.channel (3 : BitVec 8) [3, 4] Witness.passwords (by meets)

/-- C38 for signed channels: each end gets the other's public key. -/
theorem C38_signed (S : SigScheme) (a b : S.Keypair) :
    Completes (signedServerHandshake S a) (signedClientHandshake S b) (S.publicKey b) (S.publicKey a) :=
  (signedHandshake_ends S a b).completes

/-! ### C48 -/

/-- C48 is false: a network that runs the client's half of the handshake with the server and the
server's half with the client, with a secret of its own, ends up with both keys. -/
theorem C48_man_in_the_middle (M : ChannelCrypto) (server client network : M.Secret) :
    ∃ ks kc, Completes (serverHandshake M server) (clientHandshake M network) ks ks ∧
      Completes (serverHandshake M network) (clientHandshake M client) kc kc ∧
      ∀ messages : List Bytes,
        ((recvN messages.length).overAuth M kc kc).against (((sendAll messages).overAuth M kc kc).against []).1
          = ([], some (.ok messages)) ∧
        ((recvN messages.length).overAuth M ks ks).against (((sendAll messages).overAuth M ks ks).against []).1
          = ([], some (.ok messages)) :=
  ⟨_, _, (handshake_ends M server network).completes, (handshake_ends M network client).completes,
    fun messages => ⟨C37_reflection M _ messages, C37_reflection M _ messages⟩⟩

/-- C48 is false: a public key that gives one and the same shared secret with everyone is accepted by
both ends. -/
theorem C48_constant_key (M : ChannelCrypto) (point key : WireBytes) (h : ∀ s, M.dh s point = key) (a : M.Secret) :
    ((serverHandshake M a).against [point.toList]).2 = some (.ok key) ∧
    ((clientHandshake M a).against [point.toList]).2 = some (.ok key) := by
  constructor
  · unfold serverHandshake
    rw [sendP_bind, recvP_bind]
    simp only [Proc.against]
    rw [toArray32_toList, liftM_ok, ret_bind, h]
    rfl
  · unfold clientHandshake
    rw [recvP_bind]
    simp only [Proc.against]
    rw [toArray32_toList, liftM_ok, ret_bind, sendP_bind, h]
    rfl

example := C48_constant_key Witness.channel (Vector.replicate 32 0) (Vector.replicate 32 0)
    (by intro (s : BitVec 8); show Vector.replicate 32 (s * (Vector.replicate 32 (0 : BitVec 8))[0]) = _; simp) (3 : BitVec 8)

/-! ### C42 -/

/-- C42: there are as many passwords as fit into the file, and the `i`th is the `i`th block of `size`
bytes. -/
theorem C42_blocks (file : Bytes) (size : Nat) (hs : 0 < size) :
    ∃ passwords, loadPasswords file size = .ok passwords ∧ passwords.length = file.length / size ∧
      ∀ i < file.length / size, passwords[i]? = some ((file.drop (i * size)).take size) := by
  refine ⟨chunksExactAux size file.length file, ?_, chunksExactAux_spec size hs _ _ (Nat.le_refl _)⟩
  unfold loadPasswords
  rw [show assertR (decide (size ≠ 0)) = .ok () by unfold assertR; rw [if_pos (by simp; omega)], okb, purek]

example := C42_blocks [3, 4] 2 (by meets)

/-- C42: every password has `size` *bytes*, that is `8 * size` bits; so for no size is the configured size
the number of bits. -/
theorem C42_size_is_bytes (file : Bytes) (size : Nat) (hs : 0 < size) (passwords : List Bytes)
    (h : loadPasswords file size = .ok passwords) :
    ∀ p ∈ passwords, p.length = size ∧ (u8VecToBoolVec p).length = 8 * size ∧ (u8VecToBoolVec p).length ≠ size := by
  obtain ⟨ps, h1, h2, h3⟩ := C42_blocks file size hs
  have : ps = passwords := by rw [h1] at h; injection h
  subst this
  intro p hp
  obtain ⟨i, hi, rfl⟩ := List.getElem_of_mem hp
  have hi' : i < file.length / size := by omega
  have h4 := h3 i hi'
  rw [List.getElem?_eq_getElem hi] at h4
  have h4 := Option.some.inj h4
  have hmul : (i + 1) * size ≤ file.length :=
    Nat.le_trans (Nat.mul_le_mul_right _ hi') (Nat.div_mul_le_self _ _)
  have hl : ps[i].length = size := by
    rw [h4, List.length_take, List.length_drop]
    rw [Nat.add_mul] at hmul
    omega
  rw [unpack_length, hl]
  exact ⟨rfl, rfl, by omega⟩

example := C42_size_is_bytes [1, 2, 3, 4, 5] 2 (by meets) [[1, 2], [3, 4]] rfl

/-- C42: the passwords together are the file without its last `length % size` bytes; nothing is lost
exactly if the size divides the length. -/
theorem C42_lost_iff (file : Bytes) (size : Nat) (hs : 0 < size) (passwords : List Bytes)
    (h : loadPasswords file size = .ok passwords) :
    passwords.flatten = file.take (file.length - file.length % size) ∧ (passwords.flatten = file ↔ size ∣ file.length) := by
  have key : ∀ (n : Nat) (l : Bytes), l.length ≤ n → (chunksExactAux size n l).flatten = l.take (l.length - l.length % size) := by
    intro n
    induction n with
    | zero => intro l hl; have : l = [] := List.eq_nil_of_length_eq_zero (by omega); subst this; rfl
    | succ n ih =>
      intro l hl
      unfold chunksExactAux
      by_cases hlt : l.length < size
      · rw [if_pos hlt, Nat.mod_eq_of_lt hlt]
        simp
      · rw [if_neg hlt, List.flatten_cons, ih _ (by simp; omega), List.length_drop]
        have hm : (l.length - size) % size = l.length % size := (Nat.mod_eq_sub_mod (by omega)).symm
        rw [hm]
        have hle := Nat.mod_le (l.length - size) size
        rw [hm] at hle
        rw [show l.length - l.length % size = size + (l.length - size - l.length % size) by omega, List.take_add]
  have : passwords = chunksExactAux size file.length file := by
    unfold loadPasswords at h
    rw [show assertR (decide (size ≠ 0)) = .ok () by unfold assertR; rw [if_pos (by simp; omega)], okb, purek] at h
    injection h with h
    exact h.symm
  subst this
  rw [key _ _ (Nat.le_refl _)]
  refine ⟨rfl, ?_⟩
  rw [Nat.dvd_iff_mod_eq_zero]
  constructor
  · intro h
    have := congrArg List.length h
    rw [List.length_take] at this
    have := Nat.mod_le file.length size
    omega
  · intro h
    rw [h]
    exact List.take_length

example := C42_lost_iff [1, 2, 3, 4, 5] 2 (by meets) [[1, 2], [3, 4]] rfl

/-- C42: size zero panics. -/
theorem C42_zero (file : Bytes) : loadPasswords file 0 = .error .panic := rfl

/-! ### C47 -/

/-- C47: the server program, given a file of `2^k` passwords, and the client program derive the same key
if the client's password is within both thresholds of the block at its index. -/
theorem C47_programs_partial (C : Curve) (X : Crypto) (M : ChannelCrypto) (a b : M.Secret) (s : ManyDraws) (c : SingleDraws)
    (file password : Bytes) (size k index ts tc : Nat) (hfile : file.length = 2 ^ k * size) (hk : k < 32)
    (hsize : GoodLength size) (hpw : password.length = size) (hi : index < 2 ^ k) (hm : s.many.Valid X.dbg (2 ^ k))
    (hsg : s.g.Valid) (hso : s.ot.Valid) (hcg : c.g.Valid) (hco : c.ot.Valid) (hts : ts < 65535) (htc : tc < 65535)
    (h1 : bitDistance ((file.drop (index * size)).take size) password ≤ ts)
    (h2 : bitDistance ((file.drop (index * size)).take size) password ≤ tc) :
    ∃ key, Completes (serverMain C X M a s file size ts) (clientMain C X M b c password index (2 ^ k) tc) key key := by
  have hs0 : 0 < size := (good_fits hsize).1
  obtain ⟨passwords, hp, hl, hblocks⟩ := C42_blocks file size hs0
  have hdiv : file.length / size = 2 ^ k := by rw [hfile, Nat.mul_div_cancel _ hs0]
  rw [hdiv] at hl hblocks
  have hbytes := C42_size_is_bytes file size hs0 passwords hp
  have hat : passwords[index]'(by omega) = (file.drop (index * size)).take size := by
    have := hblocks index hi
    rw [List.getElem?_eq_getElem (by omega)] at this
    exact Option.some.inj this
  obtain ⟨key, h⟩ := C32_same_key_partial C X s c passwords password size index ts tc
    ⟨⟨k, hl⟩, by rw [hl]; exact Nat.pow_lt_pow_right (by omega) hk, fun p hp => (hbytes p hp).1⟩ hsize hpw (by omega)
    (by rw [hl]; exact hm) hsg hso hcg hco hts htc (by rw [hat]; exact h1) (by rw [hat]; exact h2)
  refine ⟨key, Ends.completes ?_⟩
  unfold serverMain clientMain
  rw [hp, liftM_ok, ret_bind]
  refine .bind (handshake_ends M a b) ?_
  rw [hl] at h
  exact (C36_transparent M _ _ _ _ _ _ h).ends

example := C47_programs_partial Witness.curve (Witness.crypto true) Witness.channel (3 : BitVec 8) (5 : BitVec 8)
    Witness.manyDraws Witness.singleDraws [1, 2, 3, 4, 5, 6, 7, 8] Witness.password 2 2 1 1 1 (by meets) (by meets)
    (by meets) (by meets) (by meets) (by meets) (by meets) (by meets) (by meets) (by meets) (by meets) (by meets)
    (by meets) (by meets)

/-- C47: the two-party program run twice, once as server, derives the same key on both sides if the
passwords are within both thresholds of each other. -/
theorem C47_vanilla_partial (C : Curve) (X : Crypto) (M : ChannelCrypto) (a b : M.Secret) (g1 g2 : GarblerDraws)
    (o1 o2 : OTRecv) (hg1 : g1.Valid) (hg2 : g2.Valid) (ho1 : o1.Valid) (ho2 : o2.Valid) (p q : Bytes) (t1 t2 : Nat)
    (hl : q.length = p.length) (hlen : GoodLength p.length) (ht1 : t1 < 65535) (ht2 : t2 < 65535)
    (h1 : bitDistance p q ≤ t1) (h2 : bitDistance p q ≤ t2) :
    ∃ key, Completes (vanillaServer C X M a g1 o1 p t1) (vanillaClient C X M b o2 g2 q t2) key key := by
  obtain ⟨key, h⟩ := C30_same_key_partial C X g1 g2 o1 o2 hg1 hg2 ho1 ho2 p q t1 t2 hl hlen ht1 ht2 h1 h2
  refine ⟨key, Ends.completes ?_⟩
  unfold vanillaServer vanillaClient
  exact .bind (handshake_ends M a b) (C36_transparent M _ _ _ _ _ _ h).ends

example := C47_vanilla_partial Witness.curve (Witness.crypto true) Witness.channel (3 : BitVec 8) (5 : BitVec 8)
    Witness.g Witness.g' Witness.recv Witness.recv (by meets) (by meets) (by meets) (by meets) [3, 4] Witness.password 1
    2 (by meets) (by meets) (by meets) (by meets) (by meets) (by meets)

/-- C47: a password file shorter than one password makes the server panic after the handshake, whatever
the client does. -/
theorem C47_short_file (C : Curve) (X : Crypto) (M : ChannelCrypto) (a : M.Secret) (s : ManyDraws) (file : Bytes)
    (size ts : Nat) (theirs : WireBytes) (inp : List Bytes) (h : file.length < size) :
    ((serverMain C X M a s file size ts).against (theirs.toList :: inp)).2 = some (.error .panic) := by
  obtain ⟨passwords, hp, hl, -⟩ := C42_blocks file size (by omega)
  rw [Nat.div_eq_of_lt h] at hl
  have : passwords = [] := List.eq_nil_of_length_eq_zero hl
  subst this
  unfold serverMain serverHandshake
  rw [hp, liftM_ok, ret_bind, sendP_bind, recvP_bind, send_bind, recv_bind]
  simp only [Proc.against]
  rw [toArray32_toList, liftM_ok, ret_bind]
  rfl

example := C47_short_file Witness.curve (Witness.crypto true) Witness.channel (3 : BitVec 8) Witness.manyDraws [1, 2, 3] 4 1
    (Witness.bytes 1) [] (by meets)

/-! ### The hypotheses can be met -/

/-- A toy channel: products of bytes for the key exchange, and a code that depends on the key and the message. -/
def toyChannel : ChannelCrypto where
  hmac key m := key.set 0 (key[0] + m.headD 0)
  Secret := BitVec 8
  pub s := Vector.replicate 32 s
  dh s p := Vector.replicate 32 (s * p[0])
  dh_comm a b := by simp [BitVec.mul_comm]

/-- In it a message with a wrong code is rejected and one with the right code accepted. -/
example : ∃ key c c' : WireBytes,
    (accepted (fun data code => decide (code = (toyChannel.hmac key data).toList)) [[1], c.toList]).1 = [[1]] ∧
    (accepted (fun data code => decide (code = (toyChannel.hmac key data).toList)) [[1], c'.toList]).1 = [] :=
  ⟨Vector.replicate 32 0, (Vector.replicate 32 0).set 0 1, Vector.replicate 32 0, by decide, by decide⟩

/-- A public key with a constant shared secret. -/
example : ∀ s, toyChannel.dh s (Vector.replicate 32 0) = Vector.replicate 32 0 := by
  intro (s : BitVec 8)
  show Vector.replicate 32 (s * (Vector.replicate 32 (0 : BitVec 8))[0]) = _
  simp

/-- Codes that differ under the two keys of a local channel pair. -/
example : ∃ (ks kr : WireBytes) (m : Bytes), toyChannel.hmac ks m ≠ toyChannel.hmac kr m :=
  ⟨Vector.replicate 32 0, Vector.replicate 32 1, [], by decide⟩

/-- A signature scheme, in which the empty string is malformed. -/
def toySig : SigScheme where
  Keypair := Byte
  publicKey k := [k]
  sign k m := k :: m
  parse s := !s.isEmpty
  parseKey k := k.length == 1
  verify key m s := s == key ++ m
  sign_parse _ _ := rfl
  key_parse _ := rfl
  sign_verify _ _ := by simp

example : toySig.parse [] = false := rfl

/-- A file of four passwords of two bytes, and one with a byte too many. -/
example : loadPasswords [1, 2, 3, 4, 5, 6, 7, 8] 2 = .ok [[1, 2], [3, 4], [5, 6], [7, 8]] ∧
    loadPasswords [1, 2, 3, 4, 5] 2 = .ok [[1, 2], [3, 4]] := ⟨rfl, rfl⟩

end FP.Props
