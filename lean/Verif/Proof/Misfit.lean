import Verif.Spec.Misfit
import Verif.Proof.Sizes
import Verif.Proof.Served
import Verif.Props.Apricot
/-
1-out-of-n transfers in which the receiver's index or domain does not fit.
-/
namespace FP
open Spec

variable {α β γ δ : Type}

/-! ### Runs -/

theorem Steps.swap {c d : Conf α β} (h : Steps c d) :
    Steps (⟨c.right, c.left, c.toLeft, c.toRight⟩ : Conf β α) ⟨d.right, d.left, d.toLeft, d.toRight⟩ := by
  obtain ⟨n, h⟩ := h
  refine ⟨n, ?_⟩
  induction h with
  | refl c => exact .refl _
  | step hs _ ih => exact .step hs.swap ih

theorem Gets.swap {p p' : Proc α} {q q' : Proc β} (h : Gets p q p' q') : Gets q p q' p' := Steps.swap h

theorem Gets.trans {p p' p'' : Proc α} {q q' q'' : Proc β} (h : Gets p q p' q') (h' : Gets p' q' p'' q'') :
    Gets p q p'' q'' := Steps.trans h h'

theorem EndsErr.gets {p p' : Proc α} {q q' : Proc β} {e e' : Fault} (h : Gets p q p' q') (h' : EndsErr p' q' e e') :
    EndsErr p q e e' := Steps.trans h h'

theorem EndsErr.swap {p : Proc α} {q : Proc β} {e e' : Fault} (h : EndsErr p q e e') : EndsErr q p e' e := Steps.swap h

/-- The right party has failed; the left one goes on alone and returns. -/
theorem Outcome.left_returns {p : Proc α} {q : Proc β} {a : α} {e : Fault} (h : Gets p q (.ret a) (.fail e)) :
    Outcome p q (.returns a) (.fails e) :=
  Outcome.of_steps h (stuck_ret_fail a e) rfl rfl

/-- The right party has failed; the left one waits for it. -/
theorem Outcome.left_waits {p : Proc α} {q : Proc β} {k : Bytes → Proc α} {e : Fault} (h : Gets p q (.recv k) (.fail e)) :
    Outcome p q .waits (.fails e) :=
  Outcome.of_steps h (fun _ h => nomatch h) ⟨k, rfl⟩ rfl

/-- The right party has failed; the left one sends a message and waits for the answer. -/
theorem Outcome.left_asks {p : Proc α} {q : Proc β} {m : Bytes} {k : Bytes → Proc α} {e : Fault}
    (h : Gets p q (.send m (.recv k)) (.fail e)) : Outcome p q .waits (.fails e) :=
  Outcome.of_steps (Steps.trans h (.head (.sendL _ _ _ [] []) (.refl _))) (fun _ h => nomatch h) ⟨k, rfl⟩ rfl

/-! ### Domains -/

theorem prepared_eq (dbg : Bool) {number : Nat} (h32 : number < 2 ^ 32) (hn : dbg = true → 0 < number) :
    ∃ d, log2R dbg 32 number = .ok d ∧ 2 ^ d = prepared number ∧ d ≤ 32 := by
  unfold prepared
  rcases Nat.eq_zero_or_pos number with rfl | h0
  · cases dbg with
    | true => exact absurd (hn rfl) (by decide)
    | false =>
      refine ⟨32, ?_, by simp, le_rfl⟩
      unfold log2R subR
      rw [if_neg (by decide)]
      decide
  · obtain ⟨d, h1, h2, h3⟩ := Props.C11_log2 dbg 32 number h0 h32
    have hclog : Nat.clog 2 number = d := le_antisymm (Nat.clog_le_of_le_pow h2) (h3 _ (Nat.le_pow_clog (by decide) _))
    refine ⟨d, h1, ?_, h3 _ (by omega)⟩
    rw [if_neg (by omega)]
    unfold roundedUp
    rw [hclog]

theorem count_domain (dbg : Bool) {count : Nat} (h32 : count < 2 ^ 32) (hpow : ∃ k, count = 2 ^ k) :
    ∃ d, log2R dbg 64 count = .ok d ∧ 2 ^ d = count ∧ d ≤ 32 := by
  obtain ⟨k, hk⟩ := hpow
  have h0 : 0 < count := by rw [hk]; positivity
  obtain ⟨d, h1, h2, h3⟩ := log2_same dbg h0 h32
  exact ⟨d, h1, ((Props.log2R_pow dbg _ d h0 (by omega) h1).mp ⟨k, hk⟩).symm, h3⟩

/-! ### The 1-out-of-n transfer -/

/-- What the sender does with a database it can serve. -/
theorem manyRun_sends (C : Curve) (X : Crypto) {o : ManySend} {messages : List Bytes} {len d : Nat}
    (hdb : Database messages len) (ho : o.Valid X.dbg messages.length) (hd : 2 ^ d = messages.length) (hd32 : d ≤ 32)
    (hlen : 0 < len) (hfit : len < 2 ^ 32) :
    o.run C X messages d = .send ((List.range (2 ^ d)).flatMap (yRow X messages o.keys d len))
      (coSender C X o.base (keyList o.keys d)) := by
  have hsize : 2 ^ d * len < 2 ^ 64 := by
    have h1 := hdb.count
    rw [hd]
    calc messages.length * len ≤ 2 ^ 32 * len := Nat.mul_le_mul_right _ (by omega)
      _ < 2 ^ 32 * 2 ^ 32 := Nat.mul_lt_mul_of_pos_left hfit (by decide)
      _ = 2 ^ 64 := by decide
  have hy := manyY_ok X o.cores o.order messages o.keys d len (by omega) ho.cores hdb.lengths (by omega) hsize (fun h2 => by
      have hs : CleanSplit X.dbg o.cores (2 ^ d) := by
        rcases ho.split with h4 | hs
        · have : 2 ^ 3 ≤ 2 ^ d := Nat.pow_le_pow_right (by decide) (by omega)
          omega
        · rw [hd]; exact hs
      exact ⟨hlen, fun h => by rw [Props.threads_eq]; exact hs.2 h, by rw [Props.rows_eq]; exact hs.1,
        by rw [Props.jobs_eq _ _ _ hlen ho.cores, hd]; exact ho.order⟩)
  unfold ManySend.run manySender
  have hk : ((List.range d).map fun j => ((o.keys j).1.toList, (o.keys j).2.toList)) = keyList o.keys d := rfl
  simp only [hk]
  rw [hy, liftM_ok, ret_bind, sendP_bind]

/-- A receiver with another domain: both parties stop with an error. -/
theorem manyRun_mismatch (C : Curve) (X : Crypto) {o : ManySend} {base : Nat → Nat} {messages : List Bytes}
    {len index d d' : Nat} (hdb : Database messages len) (ho : o.Valid X.dbg messages.length) (hd : 2 ^ d = messages.length)
    (hd32 : d ≤ 32) (hd' : d' ≤ 32) (hne : d ≠ d') (hlen : 0 < len) (hfit : len < 2 ^ 32) :
    EndsErr (o.run C X messages d) (manyRecv C X base index d') (.err .badProperties) (.err .badProperties) := by
  rw [manyRun_sends C X hdb ho hd hd32 hlen hfit]
  unfold manyRecv manyReceiver
  rw [manyChoices_ok _ _ _ hd', liftM_ok, ret_bind, recvP_bind]
  refine EndsErr.gets (Gets.sendRecv (Gets.refl _ _)) ?_
  unfold coSender coReceiver
  simp only [bindP_assoc]
  have hname : ("Chou-Orlandi" : String).utf8ByteSize < 2 ^ 64 := by decide
  refine (validate_fails ⟨?_, hname⟩ ⟨?_, hname⟩ ?_).bind _ _
  · simp [keyList]; omega
  · simp; omega
  · simpa [keyList] using hne

/-- A receiver with the right domain and an index outside of it: it reads outside of the buffer. -/
theorem manyRun_outside (C : Curve) (X : Crypto) {o : ManySend} {base : Nat → Nat} {messages : List Bytes}
    {len index d : Nat} (hdb : Database messages len) (ho : o.Valid X.dbg messages.length) (hd : 2 ^ d = messages.length)
    (hd32 : d ≤ 32) (hi : messages.length ≤ index) (hlen : 0 < len) (hfit : len < 2 ^ 32) (k : Unit → Proc α)
    (l : Bytes → Proc β) :
    Gets (o.run C X messages d >>= k) (manyRecv C X base index d >>= l) (k ()) (.fail .ub) := by
  rw [manyRun_sends C X hdb ho hd hd32 hlen hfit]
  unfold manyRecv manyReceiver
  rw [manyChoices_ok _ _ _ hd32, liftM_ok, ret_bind, recvP_bind]
  refine Gets.sendRecv ?_
  show Gets (coSender C X o.base (keyList o.keys d) >>= k) ((coReceiver C X base _ >>= _) >>= l) _ _
  rw [bindP_assoc]
  have hot := Props.C20_base_ot C X o.base base (keyList o.keys d) ((List.range d).map fun i => (index >>> i) % 2 == 1)
    (by simp [keyList]) (by simp [keyList]; omega) (by
      intro m hm
      obtain ⟨j, -, rfl⟩ := List.mem_map.mp hm
      simp)
  rw [chosen_keys _ _ _ (by omega)] at hot
  refine Gets.after hot.ends ?_
  rw [manyKeys_ok, liftM_ok, ret_bind]
  have hyl : ((List.range (2 ^ d)).flatMap (yRow X messages o.keys d len)).length = len * 2 ^ d :=
    flatMap_const_length _ (fun i hi => yRow_length X messages o.keys d len i (by rw [← hd]; simpa using hi) hdb.lengths)
      (by simp)
  have hu : manyUnmask X ((List.range d).map (selKey o.keys index)) index d
      ((List.range (2 ^ d)).flatMap (yRow X messages o.keys d len)) = .error .ub := by
    unfold manyUnmask
    rw [show shlOneR X.dbg 64 d = .ok (2 ^ d) by simp only [shlOneR]; rw [if_pos (by omega)], okb, hyl,
      Nat.mul_div_cancel _ (by positivity)]
    unfold vectorRow
    dsimp only
    rw [if_neg (by
      rw [hyl]
      have : len * 2 ^ d ≤ len * index := Nat.mul_le_mul_left _ (by omega)
      omega)]
    rfl
  rw [hu]
  exact Gets.refl _ _

/-! ### What follows the transfer -/

/-- The sender of the extension sends its parameters and waits for those of the receiver. -/
theorem otRun_asks (C : Curve) (X : Crypto) (o : OTSend) {msg : List (Bytes × Bytes)} (h8 : msg.length % 8 = 0)
    (k : Unit → Proc α) : ∃ m r, (o.run C X msg >>= k) = .send m (.recv r) := by
  unfold OTSend.run apricotSender
  rw [debugAssertR_true (by simpa using h8), liftM_ok, ret_bind]
  exact ⟨_, _, rfl⟩

theorem garbler_asks (C : Curve) (X : Crypto) (g : GarblerDraws) {p : Bytes} {t : Nat} (hg : g.Valid)
    (hlen : GoodLength p.length) (ht : t < 65535) (k : WireBytes → Proc α) :
    ∃ m r, (HalfKey.garbler C X g p t >>= k) = .send m (.recv r) := by
  obtain ⟨h0, hn', hD⟩ := goodLength hlen
  obtain ⟨z, K, gc, gc', d, H, -⟩ := half2 X.toEnv g.rnd g.ord hg.ord (n := 8 * p.length) (t := t) (by omega)
    (by omega) (buildCircuit_ok X.dbg hn' ht) hD ht
  have hz := H.length
  unfold HalfKey.garbler halfGarbler
  dsimp only
  rw [unpack_length, H.built, liftM_ok, ret_bind, H.garbled, liftM_ok, ret_bind]
  dsimp only
  rw [sliceR_ok (by omega) (by omega), liftM_ok, ret_bind, sliceR_ok (by omega) (by omega), liftM_ok, ret_bind, bindP_assoc]
  exact otRun_asks C X g.ot (by simp [bytePairs]; omega) _

/-! ### The four implementations up to the transfer -/

open Props

theorem many_prefix (C : Curve) (X : Crypto) (s : ManyDraws) (c : SingleDraws) (passwords : List Bytes) (password : Bytes)
    (len index number ts tc : Nat) (hdb : Database passwords len) (hlen : GoodLength len) (hg : s.g.Valid) (hts : ts < 65535)
    {d d' : Nat} (hd : log2R X.dbg 64 passwords.length = .ok d) (hd' : log2R X.dbg 32 number = .ok d') :
    ∃ K : Unit → Proc WireBytes, ∃ L : Bytes → Proc WireBytes,
      Gets (mfpakeMany C X s passwords ts) (mfpakeSingle C X c password index number tc)
        (s.many.run C X (passwords.map (xorB (drawMask s.mask len))) d >>= K) (manyRecv C X c.many index d' >>= L) ∧
      ∃ m k, K () = .send m (.recv k) := by
  have hmask := drawMask_length s.mask len
  generalize hmm : drawMask s.mask len = mask at hmask
  have hpos : 0 < passwords.length := by obtain ⟨k, hk⟩ := hdb.power; rw [hk]; positivity
  unfold mfpakeMany mfpakeSingle
  have h00 : passwords[0].length = len := hdb.lengths _ (List.getElem_mem (by omega))
  rw [idxR_ok (a := passwords[0]) (List.getElem?_eq_getElem (by omega)), liftM_ok, ret_bind]
  dsimp only
  rw [h00, hmm, maskPasswords_ok X.dbg hmask hdb.lengths, liftM_ok, ret_bind, hd, liftM_ok, ret_bind, hd', liftM_ok, ret_bind]
  exact ⟨_, _, Gets.refl _ _, garbler_asks C X s.g hg (by rw [hmask]; exact hlen) hts _⟩

theorem serverV3_prefix (C : Curve) (X : Crypto) (s : ServerDraws) (c : ClientDraws) (passwords : List Bytes) (password : Bytes)
    (len index number t : Nat) (hdb : Database passwords len) (hlen : GoodLength len) (hpw : password.length = len)
    (hg : s.g.Valid) (hco : c.ot.Valid) (ht : t < 65535)
    {d d' : Nat} (hd : log2R X.dbg 64 passwords.length = .ok d) (hd' : log2R X.dbg 32 number = .ok d') :
    ∃ K : Unit → Proc (WireBytes × Bytes), ∃ L : Bytes → Proc (WireBytes × Bytes),
      Gets (garblerServerV3 C X s passwords t) (evaluatorClientV3 C X c password number index)
        (s.many.run C X (passwords.map (xorB (drawMask s.mask len))) d >>= K) (manyRecv C X c.many index d' >>= L) ∧
      ∃ m k, K () = .send m (.recv k) := by
  obtain ⟨h0, hl32⟩ := good_fits hlen
  obtain ⟨-, hn', hD⟩ := goodLength hlen
  have hmask := drawMask_length s.mask len
  generalize hmm : drawMask s.mask len = mask at hmask
  rw [Nat.mul_comm 8] at hn' hD
  obtain ⟨z, K, gc, gc', dk, H, -⟩ := half3 X.toEnv s.g.rnd s.g.ord hg.ord (n := len * 8) (t := t) (by omega)
    (by omega) (buildCircuitV2_ok X.dbg hn' ht) hD ht
  have hz := H.length
  have hpos : 0 < passwords.length := by obtain ⟨k, hk⟩ := hdb.power; rw [hk]; positivity
  have ul : ∀ p : Bytes, p.length = len → (u8VecToBoolVec p).length = len * 8 := fun p h => by rw [unpack_length, h, Nat.mul_comm]
  unfold garblerServerV3 evaluatorClientV3
  have h00 : passwords[0].length = len := hdb.lengths _ (List.getElem_mem (by omega))
  rw [idxR_ok (a := passwords[0]) (List.getElem?_eq_getElem (by omega)), liftM_ok, ret_bind]
  dsimp only
  rw [h00, hmm, hpw, H.built, liftM_ok, ret_bind, H.garbled, liftM_ok, ret_bind]
  dsimp only
  apply Exists.intro
  apply Exists.intro
  apply And.intro
  · rw [sendP_bind, recvP_bind]
    refine .sendRecv ?_
    rw [labelPairs_ok (by omega), liftM_ok, ret_bind, H.sent, liftM_ok, ret_bind, bitsUpTo_ok hpw, liftM_ok, ret_bind]
    refine .after (otChosen C X hg.ot hco h0 (by omega) (by simp; omega) (ul _ hpw)) ?_
    rw [encodeRows_ok X.dbg (by omega) (by omega), liftM_ok, ret_bind, sendP_bind, recvP_bind]
    refine .sendRecv ?_
    rw [hd, liftM_ok, ret_bind, maskPasswords_ok X.dbg hmask hdb.lengths, liftM_ok, ret_bind, hd', liftM_ok, ret_bind]
    exact Gets.refl _ _
  · rw [labelPairs_ok (by omega), liftM_ok, ret_bind]
    exact otRun_asks C X s.ot2 (by simp [bytePairs]; omega) _

theorem serverV1_prefix (C : Curve) (X : Crypto) (s : ServerDraws1) (c : ClientDraws1) (passwords : List Bytes) (password : Bytes)
    (len index number t : Nat) (hdb : Database passwords len) (hlen : GoodLength len) (hpw : password.length = len)
    (hg : s.g.Valid) (hco : c.ot.Valid) (ht : t < 65535)
    {d d' : Nat} (hd : log2R X.dbg 64 passwords.length = .ok d) (hd' : log2R X.dbg 32 number = .ok d') :
    ∃ (K : Unit → Proc WireBytes) (L : Bytes → Proc WireBytes) (messages : List Bytes),
      Database messages (32 * (len * 8)) ∧ messages.length = passwords.length ∧
      Gets (garblerServerV1 C X s passwords t) (evaluatorClientV1 C X c password number index)
        (s.many.run C X messages d >>= K) (manyRecv C X c.many index d' >>= L) ∧
      ∃ key, K () = .ret key := by
  obtain ⟨h0, hl32⟩ := good_fits hlen
  obtain ⟨-, hn', hD⟩ := goodLength hlen
  rw [Nat.mul_comm 8] at hn' hD
  obtain ⟨z, K, gc, gc', dk, H, -⟩ := half2 X.toEnv s.g.rnd s.g.ord hg.ord (n := len * 8) (t := t) (by omega)
    (by omega) (buildCircuit_ok X.dbg hn' ht) hD ht
  have hz := H.length
  have hpos : 0 < passwords.length := by obtain ⟨k, hk⟩ := hdb.power; rw [hk]; positivity
  have ul : ∀ p : Bytes, p.length = len → (u8VecToBoolVec p).length = len * 8 := fun p h => by rw [unpack_length, h, Nat.mul_comm]
  have pl : ∀ (off : Nat) (p : Bytes), off + len * 8 ≤ z.length → p.length = len →
      (pick ((z.drop off).take (len * 8)) (u8VecToBoolVec p)).length = len * 8 := by
    intro off p ho hp
    rw [pick_length (by rw [ul p hp]; simp; omega)]; simp; omega
  have hdb' : Database (passwords.map fun p => (pick ((z.drop (len * 8)).take (len * 8)) (u8VecToBoolVec p)).flatMap Wire.bytes)
      (32 * (len * 8)) := database_map hdb fun p hp => by rw [flatMap_bytes_length, pl _ _ (by omega) hp]
  unfold garblerServerV1 evaluatorClientV1
  have h00 : passwords[0].length = len := hdb.lengths _ (List.getElem_mem (by omega))
  rw [idxR_ok (a := passwords[0]) (List.getElem?_eq_getElem (by omega)), liftM_ok, ret_bind]
  dsimp only
  rw [h00, hpw, H.built, liftM_ok, ret_bind, H.garbled, liftM_ok, ret_bind]
  dsimp only
  apply Exists.intro
  apply Exists.intro
  refine ⟨_, hdb', by simp, ?_⟩
  apply And.intro
  · rw [sendP_bind, recvP_bind]
    refine .sendRecv ?_
    rw [labelPairs_ok (by omega), liftM_ok, ret_bind, H.sent, liftM_ok, ret_bind, bitsUpTo_ok hpw, liftM_ok, ret_bind]
    refine .after (otChosen C X hg.ot hco h0 (by omega) (by simp; omega) (ul _ hpw)) ?_
    rw [hd, liftM_ok, ret_bind, encodeAll_ok rfl hdb.lengths (by omega), liftM_ok, ret_bind, hd', liftM_ok, ret_bind]
    exact Gets.refl _ _
  · rw [H.key]
    exact ⟨_, rfl⟩

theorem clientV2_prefix (C : Curve) (X : Crypto) (s : ServerEvaluator2) (g : ClientGarbler2) (passwords : List Bytes) (password : Bytes)
    (len index number t : Nat) (hdb : Database passwords len) (hlen : GoodLength len) (hpw : password.length = len)
    (hg : g.g.Valid) (ho : s.ot.Valid) (ht : t < 65535)
    {d d' : Nat} (hd : log2R X.dbg 64 passwords.length = .ok d) (hd' : log2R X.dbg 32 number = .ok d') :
    ∃ (K : Unit → Proc WireBytes) (L : Bytes → Proc WireBytes),
      Gets (evaluatorServerV2 C X s passwords) (garblerClientV2 C X g password index number t)
        (s.many.run C X (passwords.map (xorB (drawMask s.mask len))) d >>= K) (manyRecv C X g.many index d' >>= L) ∧
      ∃ k, K () = .recv k := by
  obtain ⟨h0, hl32⟩ := good_fits hlen
  obtain ⟨-, hn', hD⟩ := goodLength hlen
  have hmask := drawMask_length s.mask len
  generalize hmm : drawMask s.mask len = mask at hmask
  rw [Nat.mul_comm 8] at hn' hD
  obtain ⟨z, K, gc, gc', dk, H, -⟩ := half3 X.toEnv g.g.rnd g.g.ord hg.ord (n := len * 8) (t := t) (by omega)
    (by omega) (buildCircuitV2_ok X.dbg hn' ht) hD ht
  have hz := H.length
  have hpos : 0 < passwords.length := by obtain ⟨k, hk⟩ := hdb.power; rw [hk]; positivity
  have ul : ∀ p : Bytes, p.length = len → (u8VecToBoolVec p).length = len * 8 := fun p h => by rw [unpack_length, h, Nat.mul_comm]
  have pl : ∀ (off : Nat) (p : Bytes), off + len * 8 ≤ z.length → p.length = len →
      (pick ((z.drop off).take (len * 8)) (u8VecToBoolVec p)).length = len * 8 := by
    intro off p ho hp
    rw [pick_length (by rw [ul p hp]; simp; omega)]; simp; omega
  unfold garblerClientV2 evaluatorServerV2
  have h00 : passwords[0].length = len := hdb.lengths _ (List.getElem_mem (by omega))
  rw [idxR_ok (a := passwords[0]) (List.getElem?_eq_getElem (by omega)), liftM_ok, ret_bind]
  dsimp only
  rw [h00, hpw, hmm, H.built, liftM_ok, ret_bind, H.garbled, liftM_ok, ret_bind, bitsUpTo_ok hpw, liftM_ok, ret_bind]
  dsimp only
  apply Exists.intro
  apply Exists.intro
  apply And.intro
  · apply Gets.swap
    rw [labelsAt_ok (by rw [ul _ hpw]; omega), liftM_ok, ret_bind, ul _ hpw, sendP_bind, recvP_bind]
    refine .sendRecv ?_
    rw [H.sent, liftM_ok, ret_bind, sendP_bind, recvP_bind]
    refine .sendRecv ?_
    rw [deserialize_ok wires_rt ⟨by rw [pl _ _ (by omega) hpw]; omega, fun w hw => binary_fits (pick_mem H.binary _ w hw)⟩, liftM_ok,
      ret_bind, labelPairs_ok (by omega), liftM_ok, ret_bind, bitsUpTo_ok hmask, liftM_ok, ret_bind,
      maskPasswords_ok X.dbg hmask hdb.lengths, liftM_ok, ret_bind]
    refine .after (otChosen C X hg.ot ho h0 (by omega) (by simp; omega) (ul _ hmask)) ?_
    rw [hd, liftM_ok, ret_bind, hd', liftM_ok, ret_bind]
    exact Gets.refl _ _
  · rw [recvP_bind]
    exact ⟨_, rfl⟩

/-- The first implementation with the client garbling: number of transferred labels. -/
theorem clientV1_mismatch (C : Curve) (X : Crypto) (g : ClientGarbler1) (o : OTRecv) (passwords : List Bytes)
    (password : Bytes) (len index number t : Nat) (hdb : ∀ p ∈ passwords, p.length = len) (hlen : GoodLength len)
    (hcount : 0 < passwords.length) (hcount' : passwords.length < 2 ^ 32) (h2 : 2 ≤ number) (h32 : number < 2 ^ 32)
    (hne : number ≠ passwords.length) (hi : index < number) (hpw : password.length = len) (hg : g.g.Valid) (ht : t < 65535) :
    EndsErr (evaluatorServerV1 C X o passwords) (garblerClientV1 C X g password index number t)
      (.err .badProperties) (.err .badProperties) := by
  obtain ⟨h0, hl32⟩ := good_fits hlen
  obtain ⟨-, hn', hD⟩ := goodLength hlen
  rw [Nat.mul_comm 8] at hn' hD
  obtain ⟨z, K, gc, gc', dk, H, -⟩ := half2 X.toEnv g.g.rnd g.g.ord hg.ord (n := len * 8) (t := t) (by omega)
    (by omega) (buildCircuit_ok X.dbg hn' ht) hD ht
  have hz := H.length
  have ul : ∀ p : Bytes, p.length = len → (u8VecToBoolVec p).length = len * 8 := fun p h => by rw [unpack_length, h, Nat.mul_comm]
  have pl : ∀ (off : Nat) (p : Bytes), off + len * 8 ≤ z.length → p.length = len →
      (pick ((z.drop off).take (len * 8)) (u8VecToBoolVec p)).length = len * 8 := by
    intro off p ho hp
    rw [pick_length (by rw [ul p hp]; simp; omega)]; simp; omega
  unfold garblerClientV1 evaluatorServerV1
  have h00 : passwords[0].length = len := hdb _ (List.getElem_mem (by omega))
  rw [idxR_ok (a := passwords[0]) (List.getElem?_eq_getElem (by omega)), liftM_ok, ret_bind]
  dsimp only
  rw [h00, hpw, H.built, liftM_ok, ret_bind, H.garbled, liftM_ok, ret_bind]
  dsimp only
  refine EndsErr.swap ?_
  rw [labelPairs_ok (by omega), liftM_ok, ret_bind, bitsUpTo_ok hpw, liftM_ok, ret_bind,
    labelsAt_ok (by rw [ul _ hpw]; omega), liftM_ok, ret_bind, ul _ hpw, sendP_bind, recvP_bind]
  refine EndsErr.gets (Gets.sendRecv (Gets.refl _ _)) ?_
  rw [H.sent, liftM_ok, ret_bind, sendP_bind, recvP_bind]
  refine EndsErr.gets (Gets.sendRecv (Gets.refl _ _)) ?_
  rw [deserialize_ok wires_rt ⟨by rw [pl _ _ (by omega) hpw]; omega, fun w hw => binary_fits (pick_mem H.binary _ w hw)⟩, liftM_ok,
    ret_bind]
  obtain ⟨rows, hb1, hb2, hb3, -⟩ := blindingKeys_ok X.dbg g.keys (bits := len * 8) h2 h32
  have hreal : (bytePairs ((z.drop (len * 8)).take (len * 8))).length = len * 8 := by simp [bytePairs]; omega
  have hreal' : ∀ m ∈ bytePairs ((z.drop (len * 8)).take (len * 8)), m.1.length = 32 ∧ m.2.length = 32 := by
    intro m hm
    obtain ⟨w, -, rfl⟩ := List.mem_map.mp hm
    simp [Wire.bytes]
  rw [hb1, liftM_ok, ret_bind, selectKeys_ok hreal hb2 hb3 hi, liftM_ok, ret_bind, allBits_ok hdb, liftM_ok, ret_bind]
  have e1 := (blinded_pairs (passwords := List.replicate number (List.replicate len 0)) (index := index) hreal hreal'
    (by simpa using hb2) hb3 (by intro p hp; rw [List.eq_of_mem_replicate hp]; simp) (by simpa using hi)).1
  rw [List.length_replicate] at e1
  have e2 : (passwords.flatMap u8VecToBoolVec).length = passwords.length * (len * 8) := by
    rw [List.length_flatMap, List.map_congr_left (g := fun _ => len * 8) fun p hp => ul p (hdb p hp)]
    simp
  have hb : ∀ n : Nat, n < 2 ^ 32 → n * (len * 8) < 2 ^ 64 := by
    intro n hn
    have h1 : n * (len * 8) ≤ 2 ^ 32 * (len * 8) := Nat.mul_le_mul_right _ (by omega)
    have h2 : 2 ^ 32 * (len * 8) < 2 ^ 32 * 2 ^ 32 := Nat.mul_lt_mul_of_pos_left (by omega) (by decide)
    omega
  unfold OTSend.run OTRecv.run
  refine (apricot_mismatch X _ _ _ _ _ _ _ _ _ _ _ _ _ _ _ _ _ ?_ ?_ ?_ ?_ ?_).bind _ _
  · rw [e1, e2]
    intro h
    exact hne (Nat.eq_of_mul_eq_mul_right (by omega) h)
  · rw [e1, ← Nat.mul_assoc]; exact Nat.mul_mod_left _ _
  · rw [e2, ← Nat.mul_assoc]; exact Nat.mul_mod_left _ _
  · rw [e1]; exact hb _ h32
  · rw [e2]; exact hb _ hcount'

end FP
