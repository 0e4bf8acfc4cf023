import Verif.Proof.Transparent
import Verif.Props.Misfit
import Verif.Props.OverflowMany
import Verif.Props.Dialogue
import Verif.Proof.Witness
/-
C35, C36, C47, C82, C87: runs on authenticated channels, and so the programs, end exactly as the protocols on plain channels do.
-/
namespace FP.Props
open Spec

variable {α β : Type}

/-- C35: two parties have exactly one outcome: whatever the scheduler does, each returns the same result, fails with the same
error, or is left waiting. -/
theorem C35_one_outcome (p : Proc α) (q : Proc β) :
    ∃ a b, Outcome p q a b ∧ ∀ a' b', Outcome p q a' b' → a' = a ∧ b' = b := by
  obtain ⟨a, b, h⟩ := outcome_exists p q
  exact ⟨a, b, h, fun a' b' h' => outcome_unique h' h⟩

/-- C36: on an authenticated channel two parties, whatever they do, end exactly as on a plain one: with the same results, the
same errors, or waiting. -/
theorem C36_outcome (M : ChannelCrypto) (k k' : WireBytes) (p : Proc α) (q : Proc β) (a : End α) (b : End β) :
    Outcome (p.overAuth M k k') (q.overAuth M k' k) a b ↔ Outcome p q a b :=
  outcome_tags (authCheck_ok M k) (authCheck_ok M k') p q a b

/-- C36: and on a signed channel. -/
theorem C36_signed_outcome (S : SigScheme) (k k' : S.Keypair) (p : Proc α) (q : Proc β) (a : End α) (b : End β) :
    Outcome (p.overSigned S k (S.publicKey k')) (q.overSigned S k' (S.publicKey k)) a b ↔ Outcome p q a b :=
  outcome_tags (signedCheck_ok S k) (signedCheck_ok S k') p q a b

/-- C36: in particular they complete on an authenticated channel only if they do on a plain one. -/
theorem C36_completes_iff (M : ChannelCrypto) (k k' : WireBytes) (p : Proc α) (q : Proc β) (a : α) (b : β) :
    Completes (p.overAuth M k k') (q.overAuth M k' k) a b ↔ Completes p q a b :=
  completes_tags (authCheck_ok M k) (authCheck_ok M k') p q a b

/-- C36: and on a signed channel. -/
theorem C36_signed_completes_iff (S : SigScheme) (k k' : S.Keypair) (p : Proc α) (q : Proc β) (a : α) (b : β) :
    Completes (p.overSigned S k (S.publicKey k')) (q.overSigned S k' (S.publicKey k)) a b ↔ Completes p q a b :=
  completes_tags (signedCheck_ok S k) (signedCheck_ok S k') p q a b

/-! ### The programs -/

/-- C47: the server and the client program end exactly as the two sides of the exchange do on the blocks of the file. -/
theorem C47_programs_outcome (C : Curve) (X : Crypto) (M : ChannelCrypto) (a b : M.Secret) (s : ManyDraws) (c : SingleDraws)
    (file password : Bytes) (size index number ts tc : Nat) (passwords : List Bytes) (hp : loadPasswords file size = .ok passwords) :
    (∀ x y, Outcome (serverMain C X M a s file size ts) (clientMain C X M b c password index number tc) x y ↔
      Outcome (mfpakeMany C X s passwords ts) (mfpakeSingle C X c password index number tc) x y) ∧
    (∀ x y, Completes (serverMain C X M a s file size ts) (clientMain C X M b c password index number tc) x y ↔
      Completes (mfpakeMany C X s passwords ts) (mfpakeSingle C X c password index number tc) x y) := by
  unfold serverMain clientMain
  rw [hp, liftM_ok, ret_bind]
  exact ⟨fun x y => (outcome_after (handshake_ends M a b) _ _ x y).trans (C36_outcome ..),
    fun x y => (completes_after (handshake_ends M a b) _ _ x y).trans (C36_completes_iff ..)⟩

example := C47_programs_outcome Witness.curve (Witness.crypto true) Witness.channel (3 : BitVec 8) (5 : BitVec 8)
    Witness.manyDraws Witness.singleDraws [1, 2, 3, 4, 5, 6, 7, 8] Witness.password 2 1 4 1 1 Witness.passwords rfl

/-- C47: the two-party program run twice ends exactly as the key exchange does. -/
theorem C47_vanilla_outcome (C : Curve) (X : Crypto) (M : ChannelCrypto) (a b : M.Secret) (g1 g2 : GarblerDraws)
    (o1 o2 : OTRecv) (p q : Bytes) (t1 t2 : Nat) :
    (∀ x y, Outcome (vanillaServer C X M a g1 o1 p t1) (vanillaClient C X M b o2 g2 q t2) x y ↔
      Outcome (fpakeFirst C X g1 o1 p t1) (fpakeSecond C X o2 g2 q t2) x y) ∧
    (∀ x y, Completes (vanillaServer C X M a g1 o1 p t1) (vanillaClient C X M b o2 g2 q t2) x y ↔
      Completes (fpakeFirst C X g1 o1 p t1) (fpakeSecond C X o2 g2 q t2) x y) := by
  unfold vanillaServer vanillaClient
  exact ⟨fun x y => (outcome_after (handshake_ends M a b) _ _ x y).trans (C36_outcome ..),
    fun x y => (completes_after (handshake_ends M a b) _ _ x y).trans (C36_completes_iff ..)⟩

/-- C47: the two-party program always gives two runs with close passwords the same key for exactly these lengths and
thresholds. -/
theorem C47_vanilla_exact (C : Curve) (M : ChannelCrypto) (a b : M.Secret) (len t1 t2 : Nat) (hlen : len < 2 ^ 58)
    (ht1 : t1 ≤ 65535) (ht2 : t2 ≤ 65535) :
    (∀ (X : Crypto) (g1 g2 : GarblerDraws) (o1 o2 : OTRecv), g1.Valid → g2.Valid → o1.Valid → o2.Valid →
      ∀ p q : Bytes, p.length = len → q.length = len → bitDistance p q ≤ t1 → bitDistance p q ≤ t2 →
      ∃ key, Completes (vanillaServer C X M a g1 o1 p t1) (vanillaClient C X M b o2 g2 q t2) key key) ↔
    0 < len ∧ GoodDomain (8 * len % 65536 + 1) ∧ t1 < 65535 ∧ t2 < 65535 := by
  rw [← C30_exact C len t1 t2 hlen ht1 ht2]
  unfold SameKeyOK
  simp only [(C47_vanilla_outcome C _ M a b _ _ _ _ _ _ t1 t2).2]

example := C47_vanilla_exact Witness.curve Witness.channel (3 : BitVec 8) (5 : BitVec 8) 2 1 2 (by meets) (by meets)
    (by meets)

/-- A file made of the passwords is read as the passwords. -/
theorem C42_reads_back {len : Nat} (h0 : 0 < len) (passwords : List Bytes) (hl : ∀ p ∈ passwords, p.length = len) :
    loadPasswords passwords.flatten len = .ok passwords := by
  have hlen : ∀ l : List Bytes, (∀ p ∈ l, p.length = len) → l.flatten.length = l.length * len := by
    intro l
    induction l with
    | nil => intro _; simp
    | cons p l ih =>
      intro h
      rw [List.flatten_cons, List.length_append, ih fun q hq => h q (List.mem_cons_of_mem _ hq), h p List.mem_cons_self,
        List.length_cons, Nat.succ_mul]
      omega
  have key : ∀ (n : Nat) (l : List Bytes), (∀ p ∈ l, p.length = len) → l.length ≤ n → chunksExactAux len n l.flatten = l := by
    intro n
    induction n with
    | zero =>
      intro l _ hn
      rw [List.eq_nil_of_length_eq_zero (Nat.le_zero.mp hn)]
      rfl
    | succ n ih =>
      intro l h hn
      cases l with
      | nil => simp [chunksExactAux, h0]
      | cons p l =>
        have hp := h p List.mem_cons_self
        rw [List.flatten_cons]
        unfold chunksExactAux
        rw [if_neg (by rw [List.length_append]; omega), ← hp, List.take_left, List.drop_left, hp,
          ih l (fun q hq => h q (List.mem_cons_of_mem _ hq)) (by simpa using hn)]
  unfold loadPasswords
  rw [show assertR (decide (len ≠ 0)) = .ok () by unfold assertR; rw [if_pos (by simp; omega)], okb, purek,
    key _ passwords hl (by rw [hlen _ hl]; exact Nat.le_mul_of_pos_right _ h0)]

example := C42_reads_back (len := 2) (by meets) Witness.passwords (by meets)

/-- C47: the server and the client program always end with the same key, for files of `2^k` passwords of `size` bytes and a
password close to the block at the client's index, for exactly these sizes. -/
theorem C47_programs_exact (C : Curve) (M : ChannelCrypto) (a b : M.Secret) (size ts tc : Nat) (h0 : 0 < size)
    (hl32 : size < 2 ^ 32) (hts : ts < 65535) (htc : tc < 65535) :
    (∀ (X : Crypto) (s : ManyDraws) (c : SingleDraws) (file password : Bytes) (k index : Nat), file.length = 2 ^ k * size →
      k < 32 → index < 2 ^ k → password.length = size → s.many.Valid X.dbg (2 ^ k) → s.g.Valid → s.ot.Valid → c.g.Valid →
      c.ot.Valid → bitDistance ((file.drop (index * size)).take size) password ≤ ts →
      bitDistance ((file.drop (index * size)).take size) password ≤ tc →
      ∃ key, Completes (serverMain C X M a s file size ts) (clientMain C X M b c password index (2 ^ k) tc) key key) ↔
    GoodDomain (8 * size % 65536 + 1) := by
  rw [← C32_exact C size ts tc h0 hl32 hts htc]
  have blocks : ∀ (file : Bytes) (k index : Nat) (passwords : List Bytes), file.length = 2 ^ k * size → index < 2 ^ k →
      loadPasswords file size = .ok passwords → passwords.length = 2 ^ k ∧
        ∀ hi : index < passwords.length, passwords[index] = (file.drop (index * size)).take size := by
    intro file k index passwords hf hi hp
    obtain ⟨ps, hp', hl, hb⟩ := C42_blocks file size h0
    rw [hp] at hp'
    cases hp'
    rw [hf, Nat.mul_div_cancel _ h0] at hl hb
    refine ⟨hl, fun hi' => ?_⟩
    have := hb index hi
    rw [List.getElem?_eq_getElem hi'] at this
    exact Option.some.inj this
  constructor
  · intro h X s c passwords password index hdb hi hpw hm hsg hso hcg hco h1 h2
    obtain ⟨k, hk⟩ := hdb.power
    have hp := C42_reads_back h0 passwords hdb.lengths
    have hf : passwords.flatten.length = 2 ^ k * size := by
      rw [List.length_flatten, ← hk, List.map_congr_left hdb.lengths, List.map_const', List.sum_replicate, smul_eq_mul]
    have hat := (blocks _ k index _ hf (hk ▸ hi) hp).2 hi
    have hk32 : k < 32 := by
      have := hdb.count
      rw [hk] at this
      exact (Nat.pow_lt_pow_iff_right (by decide)).mp this
    obtain ⟨key, hkey⟩ := h X s c passwords.flatten password k index hf hk32 (hk ▸ hi) hpw (hk ▸ hm) hsg hso hcg hco
      (hat ▸ h1) (hat ▸ h2)
    refine ⟨key, ?_⟩
    rw [hk]
    exact ((C47_programs_outcome C X M a b s c _ password size index _ ts tc _ hp).2 _ _).mp hkey
  · intro h X s c file password k index hf hk hi hpw hm hsg hso hcg hco h1 h2
    obtain ⟨passwords, hp, -⟩ := C42_blocks file size h0
    obtain ⟨hl, hat⟩ := blocks file k index passwords hf hi hp
    have hbytes := C42_size_is_bytes file size h0 passwords hp
    have hi' : index < passwords.length := by omega
    obtain ⟨key, hkey⟩ := h X s c passwords password index
      ⟨⟨k, hl⟩, by rw [hl]; exact Nat.pow_lt_pow_right (by omega) hk, fun p hp => (hbytes p hp).1⟩ hi' hpw (hl ▸ hm) hsg hso hcg hco
      ((hat hi').symm ▸ h1) ((hat hi').symm ▸ h2)
    refine ⟨key, ((C47_programs_outcome C X M a b s c _ password size index _ ts tc _ hp).2 _ _).mpr ?_⟩
    rwa [hl] at hkey

example := C47_programs_exact Witness.curve Witness.channel (3 : BitVec 8) (5 : BitVec 8) 1 1 1 (by meets) (by meets)
    (by meets) (by meets)

/-- C82 for the programs: a server with a file of `2^k` passwords and a client complete exactly if the client's number of
entries, rounded up to a power of two, and its index fit the file. -/
theorem C82_programs_exact (C : Curve) (X : Crypto) (M : ChannelCrypto) (a b : M.Secret) (s : ManyDraws) (c : SingleDraws)
    (file password : Bytes) (size k index number ts tc : Nat) (hfile : file.length = 2 ^ k * size) (hk : k < 32)
    (hsize : GoodLength size) (hpw : password.length = size) (hm : s.many.Valid X.dbg (2 ^ k)) (hsg : s.g.Valid)
    (hso : s.ot.Valid) (hcg : c.g.Valid) (hco : c.ot.Valid) (hts : ts < 65535) (htc : tc < 65535) (hn : number < 2 ^ 32)
    (hz : X.dbg = true → 0 < number) :
    (∃ x y, Completes (serverMain C X M a s file size ts) (clientMain C X M b c password index number tc) x y) ↔
      prepared number = 2 ^ k ∧ index < 2 ^ k := by
  have h0 : 0 < size := (good_fits hsize).1
  obtain ⟨passwords, hp, hl, -⟩ := C42_blocks file size h0
  rw [hfile, Nat.mul_div_cancel _ h0] at hl
  have hbytes := C42_size_is_bytes file size h0 passwords hp
  simp only [(C47_programs_outcome C X M a b s c file password size index number ts tc passwords hp).2]
  rw [C82_v4_exact C X s c passwords password size index number ts tc
    ⟨⟨k, hl⟩, by rw [hl]; exact Nat.pow_lt_pow_right (by omega) hk, fun p hp => (hbytes p hp).1⟩ hsize hpw (hl ▸ hm) hsg hso hcg
    hco hts htc hn hz, hl]

example := C82_programs_exact Witness.curve (Witness.crypto true) Witness.channel (3 : BitVec 8) (5 : BitVec 8)
    Witness.manyDraws Witness.singleDraws [1, 2, 3, 4, 5, 6, 7, 8] Witness.password 2 2 1 3 1 1 (by meets) (by meets)
    (by meets) (by meets) (by meets) (by meets) (by meets) (by meets) (by meets) (by meets) (by meets) (by meets) (by meets)

/-- C87 for the programs: whatever the file, the passwords, the thresholds and the draws are, if the number of entries the client
was told of needs another number of bits than that of the file, one of the programs fails in every run. -/
theorem C87_programs_mismatch (C : Curve) (X : Crypto) (M : ChannelCrypto) (a b : M.Secret) (s : ManyDraws) (c : SingleDraws)
    (file password : Bytes) (size index number ts tc : Nat) (h0 : 0 < number) (hn : number < 2 ^ 64)
    (h : Nat.clog 2 (file.length / size) ≠ Nat.clog 2 number) :
    OneFails (serverMain C X M a s file size ts) (clientMain C X M b c password index number tc) := by
  by_cases hs : size = 0
  · subst hs
    obtain ⟨x, y, hxy⟩ := outcome_exists (serverMain C X M a s file 0 ts) (clientMain C X M b c password index number tc)
    refine (oneFails_iff hxy).mpr (.inl ⟨.panic, ?_⟩)
    obtain ⟨d, ⟨n, hd⟩, hst⟩ := exists_stuck (start (serverMain C X M a s file 0 ts) (clientMain C X M b c password index number tc))
    have hl : d.left = .fail .panic := Steps.left_failed ⟨n, hd⟩ rfl
    exact at_unique ((outcome_iff ⟨n, hd⟩ hst).mp hxy).1 (show At (.fails .panic) d.left from hl)
  · obtain ⟨passwords, hp, hl, -⟩ := C42_blocks file size (Nat.pos_of_ne_zero hs)
    have h1 := C87_v4_mismatch C X s c passwords password index number ts tc h0 hn (hl ▸ h)
    obtain ⟨x, y, hxy⟩ := outcome_exists (mfpakeMany C X s passwords ts) (mfpakeSingle C X c password index number tc)
    rw [oneFails_iff hxy] at h1
    exact (oneFails_iff (((C47_programs_outcome C X M a b s c file password size index number ts tc passwords hp).1 x y).mpr
      hxy)).mpr h1

example := C87_programs_mismatch Witness.curve (Witness.crypto true) Witness.channel (3 : BitVec 8) (5 : BitVec 8)
    Witness.manyDraws Witness.singleDraws [3, 4] Witness.password 1 1 4 1 1 (by meets) (by meets) (by meets)

/-! ### Examples -/

/-- A party that waits for a message its peer never sends waits for it on every authenticated channel too, and the peer ends. -/
example (M : ChannelCrypto) (k k' : WireBytes) :
    Outcome ((sendP [1]).overAuth M k k') ((recvP >>= fun _ => recvP).overAuth M k' k) (.returns ()) .waits := by
  refine (C36_outcome M k k' _ _ _ _).mpr (Outcome.of_steps (d := ⟨.ret (), recvP, [], []⟩) ?_ ?_ rfl ⟨_, rfl⟩)
  · exact .head (.sendL ..) (.head (.recvR ..) (.refl _))
  · intro d hd
    cases hd

/-- Sizes for which the programs work, and for which they do not. -/
example : GoodDomain (8 * 8 % 65536 + 1) ∧ GoodDomain (8 * 2048 % 65536 + 1) ∧ ¬ GoodDomain (8 * 16 % 65536 + 1) := by
  unfold GoodDomain
  omega

end FP.Props
