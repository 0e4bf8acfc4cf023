import Verif.Model.Args
import Verif.Proof.Text
import Verif.Props.Transparent
/-
C96 passwords on the command line.
-/
namespace FP.Props
open Spec

/-- C96: a bit string written with digits takes one byte for each bit, and two of them are as far apart as the bit strings. -/
theorem C96_digits (a b : List Bool) (h : b.length = a.length) :
    (stringBytes (bitText a)).length = a.length ∧ bitDistance (stringBytes (bitText a)) (stringBytes (bitText b)) = hamming a b := by
  rw [stringBytes_bitText, stringBytes_bitText]
  exact ⟨List.length_map _, bitDistance_digits a b h⟩

example := C96_digits [true, false, true] [true, true, false] (by meets)

/-- C96: the two-party program run twice with bit strings of 1 to 15 or 32 to 4095 digits: the keys are equal if the bit
strings are within both thresholds, and differ if exactly one threshold is exceeded, unless output labels collide. -/
theorem C96_two_party_partial (C : Curve) (X : Crypto) (M : ChannelCrypto) (s s' : M.Secret) (g1 g2 : GarblerDraws)
    (o1 o2 : OTRecv) (hg1 : g1.Valid) (hg2 : g2.Valid) (ho1 : o1.Valid) (ho2 : o2.Valid) (a b : List Bool) (t1 t2 : Nat)
    (hl : b.length = a.length) (hlen : (0 < a.length ∧ a.length ≤ 15) ∨ (32 ≤ a.length ∧ a.length ≤ 4095)) (ht1 : t1 < 65535)
    (ht2 : t2 < 65535) :
    ∃ key key', Completes (vanillaServerText C X M s g1 o1 (bitText a) t1) (vanillaClientText C X M s' o2 g2 (bitText b) t2) key key' ∧
      (hamming a b ≤ t1 → hamming a b ≤ t2 → key = key') ∧
      (t1 < hamming a b → hamming a b ≤ t2 → NoOutputCollision X.toEnv g1.rnd (buildCircuit X.dbg (8 * a.length) t1) → key ≠ key') ∧
      (hamming a b ≤ t1 → t2 < hamming a b → NoOutputCollision X.toEnv g2.rnd (buildCircuit X.dbg (8 * a.length) t2) → key ≠ key') := by
  obtain ⟨hla, hd⟩ := C96_digits a b hl
  obtain ⟨hlb, -⟩ := C96_digits b b rfl
  have hlq : (stringBytes (bitText b)).length = (stringBytes (bitText a)).length := by omega
  have hgood : GoodLength (stringBytes (bitText a)).length := by rw [hla]; exact hlen
  obtain ⟨key, key', _, _, _, _, h, -, -, -, h1, h2⟩ := C31_distant_partial C X g1 g2 o1 o2 hg1 hg2 ho1 ho2 (stringBytes (bitText a))
    (stringBytes (bitText b)) t1 t2 hlq hgood ht1 ht2
  rw [hd, hla] at h1 h2
  refine ⟨key, key', ((C47_vanilla_outcome C X M s s' g1 g2 o1 o2 _ _ t1 t2).2 _ _).mpr h, fun c1 c2 => ?_, h1, h2⟩
  obtain ⟨k, hk⟩ := C30_same_key_partial C X g1 g2 o1 o2 hg1 hg2 ho1 ho2 (stringBytes (bitText a)) (stringBytes (bitText b)) t1 t2
    hlq hgood ht1 ht2 (by rw [hd]; exact c1) (by rw [hd]; exact c2)
  obtain ⟨rfl, rfl⟩ := h.unique hk
  rfl

example := C96_two_party_partial Witness.curve (Witness.crypto true) Witness.channel (3 : BitVec 8) (5 : BitVec 8) Witness.g Witness.g'
    Witness.recv Witness.recv (by meets) (by meets) (by meets) (by meets) [true, false, true] [true, true, false] 1 2 (by meets)
    (by meets) (by meets) (by meets)

/-- C96: the numbers of digits for which the two-party program always gives close bit strings the same key are exactly these. -/
theorem C96_two_party_exact (C : Curve) (M : ChannelCrypto) (s s' : M.Secret) (n t1 t2 : Nat) (h0 : 0 < n) (hn : n < 2 ^ 58)
    (ht1 : t1 < 65535) (ht2 : t2 < 65535) :
    (∀ (X : Crypto) (g1 g2 : GarblerDraws) (o1 o2 : OTRecv), g1.Valid → g2.Valid → o1.Valid → o2.Valid →
      ∀ a b : List Bool, a.length = n → b.length = n → hamming a b ≤ t1 → hamming a b ≤ t2 →
      ∃ key, Completes (vanillaServerText C X M s g1 o1 (bitText a) t1) (vanillaClientText C X M s' o2 g2 (bitText b) t2) key key) ↔
    GoodDomain (8 * n % 65536 + 1) := by
  constructor
  · intro h
    refine Decidable.by_contra fun hc => ?_
    have hl : (stringBytes (bitText (List.replicate n false))).length = n := by
      rw [(C96_digits _ _ rfl).1, List.length_replicate]
    have hz : hamming (List.replicate n false) (List.replicate n false) = 0 := by
      rw [← (C96_digits _ _ rfl).2]; simp [bitDistance]
    obtain ⟨sha, rnd1, rnd2, k, k', hk, hne⟩ := C30_fails_bad_length C (someCrypto (toyEnv false)) someOrder someOrder
      someSend someSend someRecv someRecv someOrder_valid someOrder_valid someSend_valid someSend_valid someRecv_valid
      someRecv_valid (stringBytes (bitText (List.replicate n false))) t1 t2 (by omega) (by omega) (by rw [hl]; exact hc) ht1 ht2
    obtain ⟨j, hj⟩ := h _ (someDraws rnd1) (someDraws rnd2) someRecv someRecv (someDraws_valid _) (someDraws_valid _)
      someRecv_valid someRecv_valid _ _ List.length_replicate List.length_replicate (by rw [hz]; omega) (by rw [hz]; omega)
    have hj := ((C47_vanilla_outcome C _ M s s' _ _ _ _ _ _ t1 t2).2 _ _).mp hj
    obtain ⟨rfl, rfl⟩ := hk.unique hj
    exact hne rfl
  · intro hgood X g1 g2 o1 o2 hg1 hg2 ho1 ho2 a b ha hb h1 h2
    have hd := (C96_digits a b (by omega)).2
    exact (C47_vanilla_exact C M s s' n t1 t2 hn (by omega) (by omega)).mpr ⟨h0, hgood, ht1, ht2⟩ X g1 g2 o1 o2 hg1 hg2 ho1 ho2 _ _
      (by rw [(C96_digits a a rfl).1, ha]) (by rw [(C96_digits b b rfl).1, hb]) (by rw [hd]; exact h1) (by rw [hd]; exact h2)

example := C96_two_party_exact Witness.curve Witness.channel (3 : BitVec 8) (5 : BitVec 8) 20 1 2 (by meets) (by meets)
    (by meets) (by meets)

/-- C96: a server whose file holds `2^k` bit strings of `n` digits one after the other (no line ends) and a client given a
bit string: the keys are equal if it is within both thresholds of the one at the client's index. -/
theorem C96_one_of_many_partial (C : Curve) (X : Crypto) (M : ChannelCrypto) (s s' : M.Secret) (d : ManyDraws) (c : SingleDraws)
    (rows : List (List Bool)) (bits : List Bool) (n k index ts tc : Nat) (hrows : rows.length = 2 ^ k) (hk : k < 32)
    (hrow : ∀ r ∈ rows, r.length = n) (hn : (0 < n ∧ n ≤ 15) ∨ (32 ≤ n ∧ n ≤ 4095)) (hb : bits.length = n)
    (hi : index < rows.length) (hm : d.many.Valid X.dbg (2 ^ k)) (hsg : d.g.Valid) (hso : d.ot.Valid) (hcg : c.g.Valid)
    (hco : c.ot.Valid) (hts : ts < 65535) (htc : tc < 65535) (h1 : hamming rows[index] bits ≤ ts)
    (h2 : hamming rows[index] bits ≤ tc) :
    ∃ key, Completes (serverMain C X M s d (stringBytes (bitText rows.flatten)) n ts)
      (clientMainText C X M s' c (bitText bits) index (2 ^ k) tc) key key := by
  have hfl : stringBytes (bitText rows.flatten) = (rows.map fun r => stringBytes (bitText r)).flatten := by
    rw [stringBytes_bitText, List.map_flatten]
    congr 1
    exact List.map_congr_left fun r _ => (stringBytes_bitText r).symm
  have hlens : ∀ p ∈ rows.map fun r => stringBytes (bitText r), p.length = n := by
    intro p hp
    obtain ⟨r, hr, rfl⟩ := List.mem_map.mp hp
    rw [(C96_digits r r rfl).1, hrow r hr]
  have hp := C42_reads_back (len := n) (by omega) _ hlens
  have hat : (rows.map fun r => stringBytes (bitText r))[index]'(by simpa using hi) = stringBytes (bitText rows[index]) := by simp
  have hdist : bitDistance (stringBytes (bitText rows[index])) (stringBytes (bitText bits)) = hamming rows[index] bits :=
    (C96_digits _ _ (by rw [hb, hrow _ (List.getElem_mem hi)])).2
  obtain ⟨key, h⟩ := C32_same_key_partial C X d c (rows.map fun r => stringBytes (bitText r)) (stringBytes (bitText bits)) n index ts
    tc ⟨⟨k, by simpa using hrows⟩, by rw [List.length_map, hrows]; exact Nat.pow_lt_pow_right (by omega) hk, hlens⟩ hn
    (by rw [(C96_digits bits bits rfl).1, hb]) (by simpa using hi) (by rw [List.length_map, hrows]; exact hm) hsg hso hcg hco hts
    htc (by rw [hat, hdist]; exact h1) (by rw [hat, hdist]; exact h2)
  rw [List.length_map, hrows] at h
  refine ⟨key, ?_⟩
  rw [hfl]
  exact ((C47_programs_outcome C X M s s' d c _ _ n index _ ts tc _ hp).2 _ _).mpr h

example := C96_one_of_many_partial Witness.curve (Witness.crypto true) Witness.channel (3 : BitVec 8) (5 : BitVec 8) Witness.manyDraws
    Witness.singleDraws [[true, false], [true, true], [false, false], [false, true]] [true, false] 2 2 1 1 1 (by meets) (by meets)
    (by meets) (by meets) (by meets) (by meets) (by meets) (by meets) (by meets) (by meets) (by meets) (by meets) (by meets) (by meets)
    (by meets)

/-- C96: the byte strings that some text on the command line presents are exactly the valid UTF-8 ones. -/
theorem C96_presentable (p : Bytes) :
    (∃ text, stringBytes text = p) ↔ ByteArray.IsValidUTF8 ⟨(p.map UInt8.ofBitVec).toArray⟩ := by
  have key : ∀ text : String, (stringBytes text).map UInt8.ofBitVec = text.toByteArray.data.toList := by
    intro text
    unfold stringBytes
    rw [List.map_map]
    exact List.map_id _
  constructor
  · rintro ⟨text, rfl⟩
    rw [key]
    exact text.isValidUTF8
  · intro h
    refine ⟨⟨⟨(p.map UInt8.ofBitVec).toArray⟩, h⟩, ?_⟩
    unfold stringBytes
    show List.map UInt8.toBitVec (p.map UInt8.ofBitVec).toArray.toList = p
    rw [List.map_map]
    exact List.map_id _

example : (∃ text, stringBytes text = [0xc3, 0xa9]) := ⟨"é", rfl⟩

example : ¬ ∃ text, stringBytes text = [0xff, 0x41] := fun ⟨_, h⟩ => by
  have := stringBytes_lt _ 0xff (by rw [h]; exact List.mem_cons_self)
  revert this
  decide

/-- C96: how close a text comes to a stored password: at least one bit is wrong for each byte of `0xf8` or more, and
some text is wrong in no more than one bit for each byte of `0x80` or more. -/
theorem C96_distance (p : Bytes) :
    (∀ text, (stringBytes text).length = p.length → p.countP (fun b => decide (0xf8 ≤ b.toNat)) ≤ bitDistance p (stringBytes text)) ∧
    ∃ text, (stringBytes text).length = p.length ∧
      bitDistance p (stringBytes text) = p.countP (fun b => decide (0x80 ≤ b.toNat)) := by
  refine ⟨fun text h => bitDistance_ge p _ h (stringBytes_lt text), ?_⟩
  have h : ∀ b ∈ p.map (· &&& 0x7f), b.toNat < 0x80 := by
    intro b hb
    obtain ⟨x, -, rfl⟩ := List.mem_map.mp hb
    have : ∀ x : BitVec 8, (x &&& 0x7f).toNat < 0x80 := by decide +kernel
    exact this x
  refine ⟨_, ?_, by rw [ascii_text _ h]; exact bitDistance_mask p⟩
  rw [ascii_text _ h, List.length_map]

example := (C96_distance [0xff, 0x41, 0x80]).2

/-- C96 is false of passwords stored as bytes: if the password at the client's index has more bytes of `0xf8` or more than
the server's threshold, then no text lets the client derive the server's key, however large the client's threshold, unless
output labels collide. -/
theorem C96_fails_bytes (C : Curve) (X : Crypto) (M : ChannelCrypto) (s s' : M.Secret) (d : ManyDraws) (c : SingleDraws)
    (passwords : List Bytes) (len index ts tc : Nat) (hdb : Database passwords len) (hlen : GoodLength len)
    (hi : index < passwords.length) (hm : d.many.Valid X.dbg passwords.length) (hsg : d.g.Valid) (hso : d.ot.Valid)
    (hcg : c.g.Valid) (hco : c.ot.Valid) (hts : ts < 65535) (htc : 8 * len ≤ tc) (htc' : tc < 65535)
    (hbytes : ts < passwords[index].countP fun b => decide (0xf8 ≤ b.toNat))
    (hnc : NoOutputCollision X.toEnv d.g.rnd (buildCircuit X.dbg (8 * len) ts)) (text : String)
    (htext : (stringBytes text).length = len) :
    ∃ key key', Completes (serverMain C X M s d passwords.flatten len ts)
      (clientMainText C X M s' c text index passwords.length tc) key key' ∧ key ≠ key' := by
  have h0 : 0 < len := (good_fits hlen).1
  have hpl : passwords[index].length = len := hdb.lengths _ (List.getElem_mem hi)
  have hge := (C96_distance passwords[index]).1 text (by omega)
  have hle : bitDistance passwords[index] (stringBytes text) ≤ 8 * len := by
    rw [← hpl]
    unfold bitDistance
    exact List.countP_le_length.trans (by rw [List.length_range])
  obtain ⟨key, key', h, h1, -⟩ := C32_distant_partial C X d c passwords (stringBytes text) len index ts tc hdb hlen htext hi hm hsg
    hso hcg hco hts htc'
  exact ⟨key, key', ((C47_programs_outcome C X M s s' d c _ _ len index _ ts tc _ (C42_reads_back h0 passwords hdb.lengths)).2 _ _).mpr
    h, h1 (by omega) (by omega) hnc⟩

example := C96_fails_bytes Witness.curve (Witness.crypto true) Witness.channel (3 : BitVec 8) (5 : BitVec 8) Witness.manyDraws
    Witness.singleDraws [[0xff, 0xfe], [0xff, 0xff], [1, 2], [3, 4]] 2 1 1 16 ⟨⟨2, rfl⟩, by meets, by meets⟩ (by meets) (by meets)
    (by meets) (by meets) (by meets) (by meets) (by meets) (by meets) (by meets) (by meets) (by decide +kernel)
    (fun _ run _ _ => toy_noCollision true run) "ab" (by decide +kernel)

end FP.Props
