import Verif.Proof.Broadcast
import Verif.Props.ManyOT
/-
C49: the 1-out-of-n broadcast hides the messages that were not chosen.
-/
namespace FP.Props
open FP

/-- When the sender gets as far as sending, the buffer is the sequence of the rows. -/
private theorem manyY_defined (X : Crypto) (cores : Nat) (order : List Nat)
    (keys : Nat → WireBytes × WireBytes) (messages : List Bytes) (domain len : Nat)
    (hdom : log2R X.dbg 64 messages.length = .ok domain) (hd : domain ≤ 32)
    (hlen : ∀ m ∈ messages, m.length = len) (hn : 0 < messages.length)
    (hsize : 2 * messages.length * len < 2 ^ 64) (hcores : 0 < cores) (hl : 0 < len)
    (horder : Spec.IsOrder (Spec.workers cores (2 ^ domain)) order) (y : Bytes)
    (hy : manyY X cores order messages (keyList keys domain) domain = .ok y) :
    messages.length = 2 ^ domain ∧
      (2 < domain → Spec.CleanSplit X.dbg cores (2 ^ domain)) := by
  have h64 : messages.length < 2 ^ 64 := by
    have : messages.length * 1 ≤ messages.length * len := Nat.mul_le_mul_left _ hl
    rw [Nat.mul_assoc] at hsize
    omega
  obtain ⟨h1, h2⟩ := log2R_le X.dbg _ domain hn h64 hdom
  have hsmall : 2 ^ domain ≤ 2 * messages.length := by
    rcases Nat.eq_zero_or_pos domain with rfl | hd0
    · simp; omega
    · by_contra hlt
      have := h2 (domain - 1) (by
        have : 2 ^ domain = 2 * 2 ^ (domain - 1) := by
          rw [← Nat.pow_succ', Nat.succ_eq_add_one, Nat.sub_add_cancel (by omega)]
        omega)
      omega
  have hsz : 2 ^ domain * len < 2 ^ 64 := by
    have : 2 ^ domain * len ≤ 2 * messages.length * len := Nat.mul_le_mul_right _ hsmall
    omega
  have he : messages.length = 2 ^ domain := by
    by_contra hne
    have hd0 : domain ≠ 0 := by
      rintro rfl
      simp at h1 hne
      omega
    exact manyY_short X cores order messages _ domain len (by omega) hcores hlen (by omega) hsz
      (by rw [jobs_eq _ _ _ hl hcores]; exact horder) y hy
  refine ⟨he, fun h2d => ?_⟩
  by_contra hs
  exact bad_split X cores order messages keys domain len (by omega) h2d hcores hl hlen (by omega) hsz hs
    horder y hy

/-- What the sender does, when it does not fail at once. -/
private theorem sender_rows (X : Crypto) (cores : Nat) (order : List Nat)
    (keys : Nat → WireBytes × WireBytes) (S : List (Bytes × Bytes) → Proc Unit)
    (messages : List Bytes) (domain len : Nat) (hd : domain ≤ 32)
    (hlen : ∀ m ∈ messages, m.length = len) (hn : messages.length = 2 ^ domain)
    (hsize : messages.length * len < 2 ^ 64) (hcores : 0 < cores) (hl : 0 < len)
    (horder : Spec.IsOrder (Spec.workers cores (2 ^ domain)) order)
    (hs : 2 < domain → Spec.CleanSplit X.dbg cores (2 ^ domain)) :
    manySender X cores order keys S messages domain =
      (sendP ((List.range messages.length).flatMap fun i =>
        Spec.broadcastRow X keys domain (messages.getD i []) i) >>= fun _ =>
      S ((List.range domain).map fun j => (Spec.keyOf keys j false, Spec.keyOf keys j true))) := by
  have hk : ((List.range domain).map fun j => ((keys j).1.toList, (keys j).2.toList)) =
    keyList keys domain := rfl
  have hk' : ((List.range domain).map fun j => (Spec.keyOf keys j false, Spec.keyOf keys j true)) =
    keyList keys domain := rfl
  have h1 := manyY_ok X cores order messages keys domain len (by omega) hcores hlen (by omega) (by rw [← hn]; exact hsize)
    (fun h2 => ⟨hl, fun h => by rw [threads_eq]; exact (hs h2).2 h,
      by rw [rows_eq]; exact (hs h2).1, by rw [jobs_eq _ _ _ hl hcores]; exact horder⟩)
  unfold manySender
  simp only [hk, hk']
  rw [h1, liftM_ok, ret_bind, hn]
  refine congrArg (fun y => sendP y >>= fun _ => S (keyList keys domain)) ?_
  apply List.flatMap_congr
  intro i hi
  rw [List.mem_range] at hi
  refine yRow_eq X messages keys domain len i hd hi ?_
  have : messages.getD i [] = messages[i]'(by omega) := by simp [show i < messages.length by omega]
  rw [this]
  exact hlen _ (by simp)

/-- The broadcast exactly: a sender that does not fail before it sends anything first sends the
rows of the specification, one for each message, and then offers the two keys of every position in
the bootstrap transfer; it does nothing else. -/
theorem C49_broadcast (X : Crypto) (cores : Nat) (order : List Nat)
    (keys : Nat → WireBytes × WireBytes) (S : List (Bytes × Bytes) → Proc Unit)
    (messages : List Bytes) (domain len : Nat)
    (hdom : log2R X.dbg 64 messages.length = .ok domain) (hd : domain ≤ 32)
    (hlen : ∀ m ∈ messages, m.length = len) (hn : 0 < messages.length)
    (hsize : 2 * messages.length * len < 2 ^ 64) (hcores : 0 < cores) (hl : 0 < len)
    (horder : Spec.IsOrder (Spec.workers cores (2 ^ domain)) order)
    (hok : ∀ e, manySender X cores order keys S messages domain ≠ .fail e) :
    manySender X cores order keys S messages domain =
      (sendP ((List.range messages.length).flatMap fun i =>
        Spec.broadcastRow X keys domain (messages.getD i []) i) >>= fun _ =>
      S ((List.range domain).map fun j => (Spec.keyOf keys j false, Spec.keyOf keys j true))) := by
  have hk : ((List.range domain).map fun j => ((keys j).1.toList, (keys j).2.toList)) =
    keyList keys domain := rfl
  cases hy : manyY X cores order messages (keyList keys domain) domain with
  | error e =>
    exfalso
    apply hok e
    unfold manySender
    simp only [hk]
    rw [hy]
    rfl
  | ok y =>
    obtain ⟨h1, h2⟩ := manyY_defined X cores order keys messages domain len hdom hd hlen hn hsize hcores hl
      horder y hy
    exact sender_rows X cores order keys S messages domain len hd hlen h1
      (by rw [Nat.mul_assoc] at hsize; omega) hcores hl horder h2

/-- C49: the broadcast hides every message but the one at `choice`.  Take two lists of messages
that agree at `choice`.  There is a bijection (an involution) of stream generators which changes
no stream except those whose seed is made from a key the receiver did not choose, and under which
a sender holding the first list behaves exactly as a sender holding the second.  So for a receiver
that has only its own keys, every broadcast is equally likely for both lists, if the stream of each
unknown seed is random.  The seeds used in the transfer must be different from each other. -/
theorem C49_hidden (X : Crypto) (cores : Nat) (order : List Nat)
    (keys : Nat → WireBytes × WireBytes) (S : List (Bytes × Bytes) → Proc Unit)
    (messages messages' : List Bytes) (domain len choice : Nat)
    (hdom : log2R X.dbg 64 messages.length = .ok domain) (hd : domain ≤ 32)
    (hlen : ∀ m ∈ messages, m.length = len) (hn : choice < messages.length)
    (hsize : 2 * messages.length * len < 2 ^ 64) (hcores : 0 < cores)
    (horder : Spec.IsOrder (Spec.workers cores (2 ^ domain)) order)
    (hn' : messages'.length = messages.length) (hlen' : ∀ m ∈ messages', m.length = len)
    (hagree : messages'[choice]? = messages[choice]?)
    (hseeds : Spec.DistinctSeeds X.sha256 keys domain) :
    ∃ Φ : (WireBytes → Nat → Byte) → (WireBytes → Nat → Byte),
      (∀ f, Φ (Φ f) = f) ∧
      (∀ f s, ¬ Spec.Unopened X.sha256 keys domain choice s → Φ f s = f s) ∧
      ∀ f, (∀ e, manySender { X with chacha20 := f } cores order keys S messages domain ≠ .fail e) →
        manySender { X with chacha20 := Φ f } cores order keys S messages' domain =
          manySender { X with chacha20 := f } cores order keys S messages domain := by
  classical
  rcases Nat.eq_zero_or_pos len with rfl | hl
  · refine ⟨id, fun _ => rfl, fun _ _ _ => rfl, fun f _ => ?_⟩
    have : messages' = messages := by
      apply List.ext_getElem hn'
      intro i h1 h2
      rw [List.eq_nil_of_length_eq_zero (hlen' _ (List.getElem_mem h1)),
        List.eq_nil_of_length_eq_zero (hlen _ (List.getElem_mem h2))]
    rw [this]; rfl
  have hpos : ∀ i, ∃ j, (i < 2 ^ domain → choice < 2 ^ domain → i ≠ choice →
      j < domain ∧ i.testBit j ≠ choice.testBit j) := by
    intro i
    by_cases h : i < 2 ^ domain ∧ choice < 2 ^ domain ∧ i ≠ choice
    · obtain ⟨j, h1, h2⟩ := exists_testBit_ne h.1 h.2.1 h.2.2
      exact ⟨j, fun _ _ _ => ⟨h1, h2⟩⟩
    · exact ⟨0, fun a b c => absurd ⟨a, b, c⟩ h⟩
  choose pos hpos using hpos
  let σ : Nat → WireBytes := fun i => Spec.maskSeed X.sha256 keys i (pos i) (i.testBit (pos i))
  let diff : Nat → Nat → Byte := fun i k => (messages.getD i []).getD k 0 ^^^ (messages'.getD i []).getD k 0
  let is := (List.range (2 ^ domain)).filter (fun i => i ≠ choice)
  have hcd : choice < 2 ^ domain := by
    have h64 : messages.length < 2 ^ 64 := by
      have : messages.length * 1 ≤ messages.length * len := Nat.mul_le_mul_left _ hl
      rw [Nat.mul_assoc] at hsize
      omega
    have := (log2R_le X.dbg _ domain (by omega) h64 hdom).1
    omega
  have his : ∀ i ∈ is, i < 2 ^ domain ∧ i ≠ choice := by
    intro i hi
    simp only [is, List.mem_filter, List.mem_range, decide_eq_true_eq] at hi
    exact hi
  refine ⟨reprogram σ diff is, reprogram_invol σ diff is, fun f s hs => ?_, fun f hok => ?_⟩
  · refine reprogram_other σ diff is f s fun i hi he => hs ?_
    obtain ⟨h1, h2⟩ := his i hi
    obtain ⟨h3, h4⟩ := hpos i h1 hcd h2
    refine ⟨i, h1, pos i, h3, ?_⟩
    rw [← he]
    show Spec.maskSeed X.sha256 keys i (pos i) _ = _
    refine congrArg (Spec.maskSeed X.sha256 keys i (pos i)) ?_
    revert h4
    cases i.testBit (pos i) <;> cases choice.testBit (pos i) <;> simp
  · set X1 : Crypto := { X with chacha20 := f } with hX1
    set X2 : Crypto := { X with chacha20 := reprogram σ diff is f } with hX2
    have hk : ((List.range domain).map fun j => ((keys j).1.toList, (keys j).2.toList)) =
      keyList keys domain := rfl
    cases hy : manyY X1 cores order messages (keyList keys domain) domain with
    | error e =>
      exfalso
      apply hok e
      unfold manySender
      simp only [hk]
      rw [hy]
      rfl
    | ok y =>
      obtain ⟨hN, hs⟩ := manyY_defined X1 cores order keys messages domain len hdom hd hlen (by omega) hsize
        hcores hl horder y hy
      have hsz : messages.length * len < 2 ^ 64 := by rw [Nat.mul_assoc] at hsize; omega
      rw [sender_rows X1 cores order keys S messages domain len hd hlen hN hsz hcores hl horder hs,
        sender_rows X2 cores order keys S messages' domain len hd hlen' (by omega) (by rw [hn']; exact hsz)
          hcores hl horder hs, hn']
      refine congrArg (fun y => sendP y >>= fun _ => S _) ?_
      apply List.flatMap_congr
      intro i hi
      rw [List.mem_range] at hi
      have hm : (messages.getD i []).length = len := by
        rw [show messages.getD i [] = messages[i] by simp [hi]]
        exact hlen _ (by simp)
      have hm' : (messages'.getD i []).length = len := by
        rw [show messages'.getD i [] = messages'[i]'(by omega) by simp [show i < messages'.length by omega]]
        exact hlen' _ (by simp)
      unfold Spec.broadcastRow
      rw [hm, hm']
      apply List.map_congr_left
      intro k _
      unfold Spec.broadcastByte
      have hsha1 : X1.sha256 = X.sha256 := rfl
      have hsha2 : X2.sha256 = X.sha256 := rfl
      rw [hsha1, hsha2]
      by_cases hic : i = choice
      · subst hic
        have h0 : messages'.getD i [] = messages.getD i [] := by
          rw [List.getD_eq_getElem?_getD, List.getD_eq_getElem?_getD, hagree]
        rw [h0]
        have : ∀ (l : List Nat) (a : Byte), (∀ j ∈ l, j < domain) →
            l.foldl (fun byte j => byte ^^^ X2.chacha20 (Spec.maskSeed X.sha256 keys i j (i.testBit j)) k) a =
            l.foldl (fun byte j => byte ^^^ X1.chacha20 (Spec.maskSeed X.sha256 keys i j (i.testBit j)) k) a := by
          intro l
          induction l with
          | nil => intro a _; rfl
          | cons j l ih =>
            intro a h
            simp only [List.foldl_cons]
            have e : X2.chacha20 (Spec.maskSeed X.sha256 keys i j (i.testBit j)) =
                X1.chacha20 (Spec.maskSeed X.sha256 keys i j (i.testBit j)) := by
              refine reprogram_other σ diff is f _ fun i' hi' he => ?_
              obtain ⟨g1, g2⟩ := his i' hi'
              obtain ⟨g3, g4⟩ := hpos i' g1 hcd g2
              exact g2 (hseeds i' g1 (pos i') g3 i hcd j (h j (by simp)) _ _ he).1
            rw [e]
            exact ih _ fun x hx => h x (by simp [hx])
        exact this _ _ fun j hj => List.mem_range.mp hj
      · have hid : i < 2 ^ domain := by omega
        obtain ⟨h3, h4⟩ := hpos i hid hcd hic
        have hmem : i ∈ is := by
          simp only [is, List.mem_filter, List.mem_range, decide_eq_true_eq]
          exact ⟨hid, hic⟩
        have key := foldl_xor_change
          (fun j => X1.chacha20 (Spec.maskSeed X.sha256 keys i j (i.testBit j)) k)
          (fun j => X2.chacha20 (Spec.maskSeed X.sha256 keys i j (i.testBit j)) k)
          (pos i) (diff i k) (List.range domain) List.nodup_range (List.mem_range.mpr h3)
          (reprogram_at σ diff is f i hmem (fun i' hi' he => by
            obtain ⟨g1, g2⟩ := his i' hi'
            obtain ⟨g3, g4⟩ := hpos i' g1 hcd g2
            exact (hseeds i' g1 (pos i') g3 i hid (pos i) h3 _ _ he).1) k)
          (fun j hj hne => by
            rw [List.mem_range] at hj
            refine congrFun (reprogram_other σ diff is f _ fun i' hi' he => ?_) k
            obtain ⟨g1, g2⟩ := his i' hi'
            obtain ⟨g3, g4⟩ := hpos i' g1 hcd g2
            obtain ⟨e1, e2, -⟩ := hseeds i' g1 (pos i') g3 i hid j hj _ _ he
            subst e1
            exact hne e2.symm)
          ((messages'.getD i []).getD k 0)
        rw [key, ← foldl_xor_init]
        refine congrArg (fun a => List.foldl _ a (List.range domain)) ?_
        show (messages'.getD i []).getD k 0 ^^^ ((messages.getD i []).getD k 0 ^^^ (messages'.getD i []).getD k 0) = _
        rw [BitVec.xor_comm, BitVec.xor_assoc, BitVec.xor_self, BitVec.xor_zero]

/-! ### The hypotheses can be met -/

/-- A hash that keeps the first 32 bytes, and keys that differ in every byte: all seeds of a
transfer of four messages are different. -/
example : Spec.DistinctSeeds (fun b => Vector.ofFn fun k => b.getD k 0)
    (fun j => (Vector.replicate 32 (BitVec.ofNat 8 (2 * j)), Vector.replicate 32 (BitVec.ofNat 8 (2 * j + 1)))) 2 := by
  have key : ∀ (x y : Fin 4 × Fin 2 × Bool),
      Spec.maskSeed (fun b => Vector.ofFn fun k => b.getD k 0)
        (fun j => (Vector.replicate 32 (BitVec.ofNat 8 (2 * j)), Vector.replicate 32 (BitVec.ofNat 8 (2 * j + 1))))
        x.1 x.2.1 x.2.2 =
      Spec.maskSeed (fun b => Vector.ofFn fun k => b.getD k 0)
        (fun j => (Vector.replicate 32 (BitVec.ofNat 8 (2 * j)), Vector.replicate 32 (BitVec.ofNat 8 (2 * j + 1))))
        y.1 y.2.1 y.2.2 → x = y := by decide +kernel
  intro i hi j hj i' hi' j' hj' b b' h
  have := key (⟨i, hi⟩, ⟨j, hj⟩, b) (⟨i', hi'⟩, ⟨j', hj'⟩, b') h
  simpa using this

/-- Four messages on four cores: the sender does not fail. -/
example (X : Crypto) (keys : Nat → WireBytes × WireBytes) (S : List (Bytes × Bytes) → Proc Unit) :
    log2R X.dbg 64 4 = .ok 2 ∧
    ∀ e, manySender X 4 [2, 0, 1, 3] keys S [[1, 2], [3, 4], [5, 6], [7, 8]] 2 ≠ .fail e := by
  refine ⟨by cases X.dbg <;> decide, ?_⟩
  rw [sender_rows X 4 _ keys S _ 2 2 (by decide) (by simp) (by simp) (by simp) (by decide) (by decide)
    (by unfold Spec.IsOrder; decide) (fun h => absurd h (by decide)), sendP_bind]
  intro e h
  cases h

end FP.Props
