import Verif.Proof.Secrecy
import Verif.Proof.Keys
/-
The sender of a transfer with other messages where the receiver did not choose them, and other streams
of the seeds the receiver cannot compute, sends the same.
-/
namespace FP
open Spec

attribute [local irreducible] Spec.modulus

theorem xor_absorb {m m' g : Bytes} (h : m'.length = m.length) (hg : g.length = m.length) :
    (List.zipWith (· ^^^ ·) m' (List.zipWith (· ^^^ ·) g (List.zipWith (· ^^^ ·) m m')) : Bytes) =
      List.zipWith (· ^^^ ·) m g := by
  apply List.ext_getElem
  · simp [h, hg]
  · intro k h1 h2
    simp only [List.getElem_zipWith]
    rw [BitVec.xor_comm (m[k]'_) (m'[k]'_), ← BitVec.xor_assoc (g[k]'_), BitVec.xor_comm (g[k]'_) (m'[k]'_),
      BitVec.xor_assoc, ← BitVec.xor_assoc (m'[k]'_), BitVec.xor_self, BitVec.zero_xor, BitVec.xor_comm]

theorem zipXor_comm (a b : Bytes) : (List.zipWith (· ^^^ ·) a b : Bytes) = List.zipWith (· ^^^ ·) b a := by
  rw [List.zipWith_comm]
  simp only [BitVec.xor_comm]

theorem rowBytes_eq (j : Nat) : beBytes 8 j = rowBytes j := by
  unfold beBytes rowBytes
  simp only [Nat.shiftRight_eq_div_pow, show 8 - 1 = 7 from rfl]

theorem rowBytesLE_eq (j : Nat) : leBytes 8 j = rowBytesLE j := by
  unfold leBytes rowBytesLE
  simp only [Nat.shiftRight_eq_div_pow]

theorem rows_flat {a b : Bytes} {l : Nat} (ha : a.length = 16 * l) (hb : b.length = 16 * l)
    (h : ∀ j < l, row a 16 j = row b 16 j) : a = b := by
  apply List.ext_getElem?
  intro k
  by_cases hk : k < 16 * l
  · have := congrArg (fun r : Bytes => r[k % 16]?) (h (k / 16) (by omega))
    simp only [row, List.getElem?_take, List.getElem?_drop, if_pos (show k % 16 < 16 by omega),
      show 16 * (k / 16) + k % 16 = k by omega] at this
    exact this
  · rw [List.getElem?_eq_none (by omega), List.getElem?_eq_none (by omega)]

/-- The message that is not chosen. -/
def other (c : Bool) (m : Bytes × Bytes) : Bytes := if c then m.1 else m.2

/-- The difference of the messages that are not chosen. -/
def otherDiff (c : Nat → Bool) (msg msg' : List (Bytes × Bytes)) (j : Nat) : Bytes :=
  List.zipWith (· ^^^ ·) (other (c j) (msg.getD j ([], []))) (other (c j) (msg'.getD j ([], [])))

theorem otherDiff_length {c : Nat → Bool} {msg msg' : List (Bytes × Bytes)} (h : SameChosenAll c msg msg') {j : Nat}
    (hj : j < msg.length) : (otherDiff c msg msg' j).length = (other (c j) (msg.getD j ([], []))).length := by
  obtain ⟨h1, h2, -⟩ := h.2 j hj
  unfold otherDiff other
  rw [List.length_zipWith]
  cases c j <;> simp only [Bool.false_eq_true, if_false, if_true] <;> omega

/-- Reprogramming the masks of the messages that are not chosen. -/
def repad (σ : Nat → WireBytes) (D : Nat → Nat → Byte) (n : Nat) (f : WireBytes → Nat → Byte) : WireBytes → Nat → Byte :=
  reprogram σ D (List.range n) f

theorem repad_at {σ : Nat → WireBytes} {D : Nat → Nat → Byte} {n : Nat} (hinj : ∀ j < n, ∀ k < n, σ j = σ k → j = k)
    (f : WireBytes → Nat → Byte) {j : Nat} (hj : j < n) (k : Nat) :
    repad σ D n f (σ j) k = f (σ j) k ^^^ D j k :=
  reprogram_at _ _ _ f j (by simpa using hj) (fun i hi he => hinj i (by simpa using hi) j hj he) k

theorem repad_other {σ : Nat → WireBytes} {D : Nat → Nat → Byte} {n : Nat} (f : WireBytes → Nat → Byte) {s : WireBytes}
    (h : ∀ j < n, σ j ≠ s) : repad σ D n f s = f s :=
  reprogram_other _ _ _ f s fun i hi => h i (by simpa using hi)

theorem apCipher_same {X : Crypto} {f g : WireBytes → Nat → Byte} {key : Bytes} {j : Nat} {m : Bytes}
    (h : g (X.sha256 (beBytes 8 j ++ key)) = f (X.sha256 (beBytes 8 j ++ key))) :
    apCipher { X with chacha20 := g } key j m = apCipher { X with chacha20 := f } key j m := by
  unfold apCipher
  rw [fill_same (X := X) h]

theorem apCipher_repad {X : Crypto} {f g : WireBytes → Nat → Byte} {key : Bytes} {j : Nat} {m m' : Bytes}
    (hm : m'.length = m.length)
    (h : ∀ k, g (X.sha256 (beBytes 8 j ++ key)) k =
      f (X.sha256 (beBytes 8 j ++ key)) k ^^^ (List.zipWith (· ^^^ ·) m m' : Bytes).getD k 0) :
    apCipher { X with chacha20 := g } key j m' = apCipher { X with chacha20 := f } key j m := by
  unfold apCipher
  have := fill_shift (X := X) (w := m'.length) (by simp [hm]) h
  rw [this, zipXor_comm, xor_absorb hm (by rw [fill_length, hm]), hm, zipXor_comm]

/-- The sender's rows from the keys of the selected messages. -/
theorem sender_rows {delta u : Bytes} {w n : Nat} {T t : Nat → Bytes} {c : Nat → Bool} {qT : Bytes}
    (hd : delta.length = 16) (hu : w * 128 ≤ u.length) (hT : ∀ i < 128, (T i).length = w) (hn : n ≤ 8 * w)
    (ht : KeysOf t delta T (flatBit u w) c n) (hq : qT.length = 16 * (8 * w))
    (hb : ∀ j < 8 * w, ∀ i < 128, bitAt (row qT 16 j) i = bitAt (qRow delta u w T i) j) (j : Nat) (hj : j < n) :
    row qT 16 j = if c j then bytesXor (t j) delta else t j := by
  obtain ⟨tl, tb⟩ := ht j hj
  have ql := row_length (n := 8 * w) (v := qT) (w := 16) (by omega) (show j < 8 * w by omega)
  apply bytes_ext
  · rw [ql]; split
    · simp [bytesXor, tl, hd]
    · exact tl.symm
  · intro i hi
    have hi : i < 128 := by omega
    rw [hb j (by omega) i hi, qRow_bit hu hT i hi j (by omega)]
    cases hc : c j with
    | false =>
      simp only [Bool.false_eq_true, if_false]
      rw [tb i hi, hc, Bool.xor_false]
    | true =>
      simp only [if_true]
      rw [bytesXor, bitAt_xor _ _ (by omega), tb i hi, hc]
      cases bitAt delta i <;> cases bitAt (T i) j <;> cases flatBit u w i j <;> rfl

theorem xor_twice {a b : Bytes} (h : b.length = a.length) : bytesXor (bytesXor a b) b = a := by
  unfold bytesXor
  exact zipWith_xor_cancel h.symm

/-- `g` is `f` with the masks of the messages that are not chosen changed by the difference of the messages. -/
structure Repadded (σ κ : Nat → WireBytes) (D : Nat → Nat → Byte) (n : Nat) (f g : WireBytes → Nat → Byte) : Prop where
  hidden : ∀ j < n, ∀ k, g (σ j) k = f (σ j) k ^^^ D j k
  known : ∀ j < n, g (κ j) = f (κ j)

/-- One pair of ciphertexts with other messages and other streams. -/
theorem apPair_same {X : Crypto} {delta qT : Bytes} {t : Nat → Bytes} {c : Nat → Bool} {msg msg' : List (Bytes × Bytes)}
    (hd : delta.length = 16) (hm : SameChosenAll c msg msg')
    (hrow : ∀ j < msg.length, row qT 16 j = if c j then bytesXor (t j) delta else t j)
    (htl : ∀ j < msg.length, (t j).length = 16) {f g : WireBytes → Nat → Byte}
    (hg : Repadded (fun j => padSeed X.sha256 j (bytesXor (t j) delta)) (fun j => padSeed X.sha256 j (t j))
      (fun j k => (otherDiff c msg msg' j).getD k 0) msg.length f g) (j : Nat) (hj : j < msg.length) :
    apPair { X with chacha20 := g } delta qT msg' j = apPair { X with chacha20 := f } delta qT msg j := by
  obtain ⟨h1, h2, h3⟩ := hm.2 j hj
  have hat := hg.hidden j hj
  have hoth := hg.known j hj
  have hx := xor_twice (a := t j) (b := delta) (by rw [hd, htl j hj])
  unfold padSeed at hat hoth
  rw [← rowBytes_eq] at hat hoth
  unfold apPair
  rw [hrow j hj]
  unfold otherDiff other at hat
  cases hc : c j with
  | false =>
    rw [hc] at h3 hat
    simp only [Bool.false_eq_true, if_false] at h3 hat ⊢
    rw [apCipher_same hoth, h3]
    exact congrArg _ (apCipher_repad h2 hat)
  | true =>
    rw [hc] at h3 hat
    simp only [if_true] at h3 hat ⊢
    rw [show (List.zipWith (· ^^^ ·) (bytesXor (t j) delta) delta : Bytes) = t j from hx]
    rw [apCipher_same hoth, h3, apCipher_repad h1 hat]

theorem sizes_same {c : Nat → Bool} {msg msg' : List (Bytes × Bytes)} {ms : Nat} (hm : SameChosenAll c msg msg')
    (h : ∀ m ∈ msg, m.1.length = ms ∧ m.2.length = ms) : ∀ m ∈ msg', m.1.length = ms ∧ m.2.length = ms := by
  intro m hmem
  obtain ⟨j, hj, rfl⟩ := List.getElem_of_mem hmem
  have hj' : j < msg.length := by rw [← hm.1]; exact hj
  obtain ⟨h1, h2, -⟩ := hm.2 j hj'
  obtain ⟨a, b⟩ := h _ (List.getElem_mem hj')
  simp only [List.getD_eq_getElem?_getD, List.getElem?_eq_getElem hj, List.getElem?_eq_getElem hj', Option.getD_some] at h1 h2
  omega

/-- The end of the newer sender with other messages and other streams. -/
theorem apFinish_same {X : Crypto} {arm : Bool} {cores : Nat} {sched : Nat → List Nat} {delta qT qSum : Bytes}
    {t : Nat → Bytes} {c : Nat → Bool} {msg msg' : List (Bytes × Bytes)} {ms : Nat} (hc : 0 < cores)
    (hs : ∀ n, IsOrder n (sched n)) (hn : 0 < msg.length) (hms : 0 < ms) (hd : delta.length = 16)
    (hq : 16 * msg.length ≤ qT.length) (hsz : ∀ m ∈ msg, m.1.length = ms ∧ m.2.length = ms)
    (hm : SameChosenAll c msg msg') (hrow : ∀ j < msg.length, row qT 16 j = if c j then bytesXor (t j) delta else t j)
    (htl : ∀ j < msg.length, (t j).length = 16) {f g : WireBytes → Nat → Byte}
    (hg : Repadded (fun j => padSeed X.sha256 j (bytesXor (t j) delta)) (fun j => padSeed X.sha256 j (t j))
      (fun j k => (otherDiff c msg msg' j).getD k 0) msg.length f g) (x y : Bytes) :
    apFinish { X with chacha20 := g } arm cores sched delta qT qSum msg' ms x y =
      apFinish { X with chacha20 := f } arm cores sched delta qT qSum msg ms x y := by
  have hr : apRandomize { X with chacha20 := g } cores sched delta qT msg' ms =
      apRandomize { X with chacha20 := f } cores sched delta qT msg ms := by
    rw [apRandomize_ok _ cores sched delta qT msg ms hc hs hn hms hd hq hsz,
      apRandomize_ok _ cores sched delta qT msg' ms hc hs (by rw [hm.1]; exact hn) hms hd (by rw [hm.1]; exact hq)
        (sizes_same hm hsz), hm.1]
    refine congrArg Except.ok ?_
    exact List.flatMap_congr fun j hj => apPair_same hd hm hrow htl hg j (by simpa using hj)
  unfold apFinish
  rw [hr]

/-- The newer sender with other messages and other streams, after the bootstrap. -/
theorem sender_same (X : Crypto) (arm : Bool) (cores : Nat) (sched : Nat → List Nat) (delta : Bytes)
    (seed : WireBytes) (msg msg' : List (Bytes × Bytes)) (ms : Nat) (payloads : List Bytes) (s : Nat → WireBytes)
    (w : Nat) (hw : msg.length + 256 = 8 * w) (hd : delta.length = 16)
    (hp : ∀ i < 128, payloads[i]? = some (s i).toList) (u : Bytes) (hu : w * 128 ≤ u.length) (hc : 0 < cores)
    (hs : ∀ n, IsOrder n (sched n)) (hn : 0 < msg.length) (hms : 0 < ms)
    (hsz : ∀ m ∈ msg, m.1.length = ms ∧ m.2.length = ms) (c : Nat → Bool) (hm : SameChosenAll c msg msg')
    (t : Nat → Bytes) {f g : WireBytes → Nat → Byte}
    (ht : KeysOf t delta (fun i => ({ X with chacha20 := f } : Crypto).fill (s i) w) (flatBit u w) c msg.length)
    (hg : Repadded (fun j => padSeed X.sha256 j (bytesXor (t j) delta)) (fun j => padSeed X.sha256 j (t j))
      (fun j k => (otherDiff c msg msg' j).getD k 0) msg.length f g) (hseed : g seed = f seed) (hcol : ∀ i < 128, g (s i) = f (s i))
    (rest : List Bytes) :
    (apricotSenderExtend { X with chacha20 := g } arm cores sched delta seed msg' ms payloads).against (u :: rest) =
      (apricotSenderExtend { X with chacha20 := f } arm cores sched delta seed msg ms payloads).against (u :: rest) := by
  obtain ⟨K, e, h⟩ := senderExtend_eq { X with chacha20 := f } arm cores sched delta seed msg ms payloads s w hw hd hp
  obtain ⟨K', e', h'⟩ := senderExtend_eq { X with chacha20 := g } arm cores sched delta seed msg' ms payloads s w
    (by rw [hm.1]; exact hw) hd hp
  obtain ⟨qT, qSum, a1, a2, a3, a4, a5⟩ := h u hu
  obtain ⟨qT', qSum', b1, b2, b3, b4, b5⟩ := h' u hu
  have hfill : ∀ i < 128, ({ X with chacha20 := g } : Crypto).fill (s i) w = ({ X with chacha20 := f } : Crypto).fill (s i) w :=
    fun i hi => fill_same (X := X) (hcol i hi)
  have hT : ∀ g : WireBytes → Nat → Byte, ∀ i < 128, ((fun i => ({ X with chacha20 := g } : Crypto).fill (s i) w) i).length = w :=
    fun g i _ => fill_length ..
  obtain rfl : qT' = qT := by
    apply rows_flat b1 a1
    intro j hj
    apply bytes_ext
    · rw [row_length (n := 8 * w) (by omega) hj, row_length (n := 8 * w) (by omega) hj]
    · intro i hi
      rw [row_length (n := 8 * w) (by omega) hj] at hi
      have hi : i < 128 := by omega
      rw [b3 j hj i hi, a3 j hj i hi, qRow_bit hu (hT g) i hi j hj, qRow_bit hu (hT f) i hi j hj]
      simp only [hfill i hi]
  obtain rfl : qSum' = qSum := by
    apply elt_inj b2 a2
    rw [a4, b4, fill_same (X := X) (f := f) hseed]
  rw [e, e']
  show (K' u).against rest = (K u).against rest
  rw [a5, b5]
  have hfin := fun x y => apFinish_same (arm := arm) (qSum := qSum') hc hs hn hms hd (by omega) hsz hm
    (sender_rows hd hu (hT f) (by omega) ht a1 a3) (fun j hj => (ht j hj).1) hg x y
  simp only [hfin]


/-- What a newer sender sends before the extension, and the seed and the payloads it goes on with, do not
depend on the messages. -/
theorem sender_reach (X : Crypto) (arm : Bool) (cores : Nat) (sched : Nat → List Nat) (coin : WireBytes)
    (delta : Vector Byte 16) (inner : List Bool → Proc (List Bytes)) (n ms : Nat) (h8 : n % 8 = 0) (hn : 0 < n)
    (inp : List Bytes) :
    (∃ pre seed payloads r, ∀ (f : WireBytes → Nat → Byte) (msg : List (Bytes × Bytes)), msg.length = n →
      (∀ m ∈ msg, m.1.length = ms ∧ m.2.length = ms) →
      ((apricotSender { X with chacha20 := f } arm cores sched coin delta inner msg).against inp).1 =
        pre ++ ((apricotSenderExtend { X with chacha20 := f } arm cores sched delta.toList seed msg ms payloads).against
          (inp.drop r)).1) ∨
    (∃ pre, ∀ (f : WireBytes → Nat → Byte) (msg : List (Bytes × Bytes)), msg.length = n →
      (∀ m ∈ msg, m.1.length = ms ∧ m.2.length = ms) →
      ((apricotSender { X with chacha20 := f } arm cores sched coin delta inner msg).against inp).1 = pre) := by
  unfold apricotSender
  have hdbg : ∀ msg : List (Bytes × Bytes), msg.length = n → debugAssertR X.dbg (msg.length % 8 = 0) = .ok () :=
    fun msg h => debugAssertR_true (by simp [h, h8])
  have hidx : ∀ msg : List (Bytes × Bytes), msg.length = n → (∀ m ∈ msg, m.1.length = ms ∧ m.2.length = ms) →
      ∃ m0, idxR msg 0 = .ok m0 ∧ m0.1.length = ms := by
    intro msg h hm
    have h0 : 0 < msg.length := by omega
    exact ⟨msg[0], idxR_ok (by simp [h0]), (hm _ (List.getElem_mem h0)).1⟩
  rcases against_bind (do
      validateProperties ⟨n, "Apricot"⟩
      let seed ← coinflipReceiver X.toEnv coin.toList
      let seed ← toArray32 seed
      sendP (beBytes 2 (ms % 2 ^ 16))
      let payloads ← inner (u8VecToBoolVec delta.toList)
      return (seed, payloads)) inp with ⟨pre, ⟨seed, payloads⟩, r, h⟩ | ⟨pre, h⟩
  · refine .inl ⟨pre, seed, payloads, r, fun f msg hl hm => ?_⟩
    obtain ⟨m0, e, hs⟩ := hidx msg hl hm
    have := h _ (fun a => apricotSenderExtend { X with chacha20 := f } arm cores sched delta.toList a.1 msg ms a.2)
    simp only [bind_assocP] at this
    rw [hdbg msg hl, liftM_ok, ret_bind, hl, e]
    simp only [liftM_ok, ret_bind, hs]
    exact this
  · refine .inr ⟨pre, fun f msg hl hm => ?_⟩
    obtain ⟨m0, e, hs⟩ := hidx msg hl hm
    have := h _ (fun a => apricotSenderExtend { X with chacha20 := f } arm cores sched delta.toList a.1 msg ms a.2)
    simp only [bind_assocP] at this
    rw [hdbg msg hl, liftM_ok, ret_bind, hl, e]
    simp only [liftM_ok, ret_bind, hs]
    exact this

/-! ### The older extension -/

theorem clCipher_same {X : Crypto} {f g : WireBytes → Nat → Byte} {key : Bytes} {j : Nat} {m : Bytes}
    (h : g (X.sha256 (leBytes 8 j ++ key)) = f (X.sha256 (leBytes 8 j ++ key))) :
    clCipher { X with chacha8 := g } key j m = clCipher { X with chacha8 := f } key j m := by
  unfold clCipher Crypto.gen8
  simp only [h]

theorem clCipher_repad {X : Crypto} {f g : WireBytes → Nat → Byte} {key : Bytes} {j : Nat} {m m' : Bytes}
    (hm : m'.length = m.length)
    (h : ∀ k, g (X.sha256 (leBytes 8 j ++ key)) k =
      f (X.sha256 (leBytes 8 j ++ key)) k ^^^ spread (List.zipWith (· ^^^ ·) m m') k) :
    clCipher { X with chacha8 := g } key j m' = clCipher { X with chacha8 := f } key j m := by
  unfold clCipher
  have : ({ X with chacha8 := g } : Crypto).gen8 (X.sha256 (leBytes 8 j ++ key)) m'.length =
      List.zipWith (· ^^^ ·) (({ X with chacha8 := f } : Crypto).gen8 (X.sha256 (leBytes 8 j ++ key)) m.length)
        (List.zipWith (· ^^^ ·) m m') := by
    apply List.ext_getElem
    · simp [gen8_length, hm]
    · intro k h1 h2
      have hk : k < m.length := by rw [gen8_length] at h1; omega
      simp only [Crypto.gen8, List.getElem_map, List.getElem_range, List.getElem_zipWith]
      rw [h (4 * k)]
      simp [spread, hk, hm]
  rw [this, xor_absorb hm (gen8_length ..)]


/-- One pair of ciphertexts of the older sender with other messages and other streams. -/
theorem clPair_same {X : Crypto} {delta : Bytes} {q : BitMatrix} {t : Nat → Bytes} {c : Nat → Bool}
    {msg msg' : List (Bytes × Bytes)} (hd : delta.length = 16) (hm : SameChosenAll c msg msg')
    (hrow : ∀ j < msg.length, q.getD j [] = if c j then bytesXor (t j) delta else t j)
    (htl : ∀ j < msg.length, (t j).length = 16) {f g : WireBytes → Nat → Byte}
    (hg : Repadded (fun j => padSeedLE X.sha256 j (bytesXor (t j) delta)) (fun j => padSeedLE X.sha256 j (t j))
      (fun j => spread (otherDiff c msg msg' j)) msg.length f g) (j : Nat) (hj : j < msg.length) :
    clCipher { X with chacha8 := g } (q.getD j []) j (msg'.getD j ([], [])).1 =
      clCipher { X with chacha8 := f } (q.getD j []) j (msg.getD j ([], [])).1 ∧
    clCipher { X with chacha8 := g } (List.zipWith (· ^^^ ·) (q.getD j []) delta) j (msg'.getD j ([], [])).2 =
      clCipher { X with chacha8 := f } (List.zipWith (· ^^^ ·) (q.getD j []) delta) j (msg.getD j ([], [])).2 := by
  obtain ⟨h1, h2, h3⟩ := hm.2 j hj
  have hat := hg.hidden j hj
  have hoth := hg.known j hj
  have hx := xor_twice (a := t j) (b := delta) (by rw [hd, htl j hj])
  unfold padSeedLE at hat hoth
  rw [← rowBytesLE_eq] at hat hoth
  rw [hrow j hj]
  unfold otherDiff other at hat
  cases hc : c j with
  | false =>
    rw [hc] at h3 hat
    simp only [Bool.false_eq_true, if_false] at h3 hat ⊢
    rw [clCipher_same hoth, h3]
    exact ⟨rfl, clCipher_repad h2 hat⟩
  | true =>
    rw [hc] at h3 hat
    simp only [if_true] at h3 hat ⊢
    rw [show (List.zipWith (· ^^^ ·) (bytesXor (t j) delta) delta : Bytes) = t j from hx]
    rw [clCipher_same hoth, h3]
    exact ⟨clCipher_repad h1 hat, rfl⟩

/-- The older sender with other messages and other streams, after the bootstrap. -/
theorem clSender_same (X : Crypto) (arch : Arch) (coin : WireBytes) (delta : Bytes) (msg msg' : List (Bytes × Bytes))
    (s : Nat → WireBytes) (w : Nat) (hw : msg.length + 192 = 8 * w) (hd : delta.length = 16) (m : Bytes) (u : List Bytes)
    (hu : Codec.bytesList.deserialize m = .ok u) (huse : Usable delta u w) (c : Nat → Bool)
    (hm : SameChosenAll c msg msg') (t : Nat → Bytes)
    (ht : KeysOf t delta (fun i => X.genBytes (s i) w) (rowsBit u) c msg.length) {f g : WireBytes → Nat → Byte}
    (hg : Repadded (fun j => padSeedLE X.sha256 j (bytesXor (t j) delta)) (fun j => padSeedLE X.sha256 j (t j))
      (fun j => spread (otherDiff c msg msg' j)) msg.length f g) (rest : List Bytes) :
    (classicSenderExtend { X with chacha8 := g } arch coin delta msg' ((List.range 128).map fun i => (s i).toList)).against
        (m :: rest) =
      (classicSenderExtend { X with chacha8 := f } arch coin delta msg ((List.range 128).map fun i => (s i).toList)).against
        (m :: rest) := by
  obtain ⟨K, e, -, h⟩ := clSenderExtend_eq { X with chacha8 := f } arch coin delta msg s w hw hd
  obtain ⟨K', e', -, h'⟩ := clSenderExtend_eq { X with chacha8 := g } arch coin delta msg' s w (by rw [hm.1]; exact hw) hd
  obtain ⟨q, a1, a2, a3, a4⟩ := h m u hu huse
  obtain ⟨q', b1, b2, b3, b4⟩ := h' m u hu huse
  have hlen : ∀ (q : BitMatrix), q.length = 8 * w → Rectangular q 16 → ∀ j < 8 * w, (q.getD j []).length = 16 := by
    intro q h1 h2 j hj
    exact rect_getD h2 (by omega)
  obtain rfl : q' = q := by
    apply List.ext_getElem (by omega)
    intro j h1 h2
    have hj : j < 8 * w := by omega
    have l1 := hlen q' b1 b2 j hj
    have l2 := hlen q a1 a2 j hj
    have hb : ∀ i < 128, rowsBit q' j i = rowsBit q j i := fun i hi => by rw [a3 j hj i hi, b3 j hj i hi]; rfl
    have : q'.getD j [] = q.getD j [] := bytes_ext (by omega) fun i hi => hb i (by omega)
    simpa [List.getD_eq_getElem?_getD, h1, h2] using this
  have hrow : ∀ j < msg.length, q'.getD j [] = if c j then bytesXor (t j) delta else t j := by
    intro j hj
    obtain ⟨tl, tb⟩ := ht j hj
    have ql := hlen q' b1 b2 j (by omega)
    apply bytes_ext
    · rw [ql]; split
      · simp [bytesXor, tl, hd]
      · exact tl.symm
    · intro i hi
      have hi : i < 128 := by omega
      have := a3 j (by omega) i hi
      unfold rowsBit at this
      rw [this]
      cases hc : c j with
      | false =>
        simp only [Bool.false_eq_true, if_false]
        rw [tb i hi, hc, Bool.xor_false]; rfl
      | true =>
        simp only [if_true]
        rw [bytesXor, bitAt_xor _ _ (by omega), tb i hi, hc]
        show (bitAt (X.genBytes (s i) w) j ^^ (bitAt delta i && rowsBit u i j)) = _
        cases bitAt delta i <;> cases bitAt (X.genBytes (s i) w) j <;> cases rowsBit u i j <;> rfl
  rw [e, e']
  show (K' m).against rest = (K m).against rest
  have hrot : clSenderDeRot { X with chacha8 := g } delta q' msg' = clSenderDeRot { X with chacha8 := f } delta q' msg := by
    have hp := clPair_same hd hm hrow (fun j hj => (ht j hj).1) hg
    rw [clSenderDeRot_eq _ _ _ _ (by rw [hm.1]; omega), clSenderDeRot_eq _ _ _ _ (by omega)]
    have e0 : clD0 { X with chacha8 := g } q' msg' = clD0 { X with chacha8 := f } q' msg := by
      unfold clD0
      rw [hm.1]
      exact List.map_congr_left fun j hj => (hp j (by simpa using hj)).1
    have e1 : clD1 { X with chacha8 := g } delta q' msg' = clD1 { X with chacha8 := f } delta q' msg := by
      unfold clD1
      rw [hm.1]
      exact List.map_congr_left fun j hj => (hp j (by simpa using hj)).2
    rw [e0, e1]
  have hfin : ∀ seed, clFinish { X with chacha8 := g } arch seed (8 * w) q' delta msg' =
      clFinish { X with chacha8 := f } arch seed (8 * w) q' delta msg := by
    intro seed
    unfold clFinish
    rw [hrot]
    rfl
  rw [a4, b4]
  simp only [hfin]

/-- What an older sender sends before the extension, and the payloads it goes on with, do not depend on the
messages. -/
theorem clSender_reach (X : Crypto) (arch : Arch) (coin : WireBytes) (delta : Vector Byte 16)
    (inner : List Bool → Proc (List Bytes)) (n : Nat) (h8 : n % 8 = 0) (hn8 : 8 ≤ n) (inp : List Bytes) :
    (∃ pre payloads r, ∀ (f : WireBytes → Nat → Byte) (msg : List (Bytes × Bytes)), msg.length = n →
      ((classicSender { X with chacha8 := f } arch coin delta inner msg).against inp).1 =
        pre ++ ((classicSenderExtend { X with chacha8 := f } arch coin delta.toList msg payloads).against
          (inp.drop r)).1) ∨
    (∃ pre, ∀ (f : WireBytes → Nat → Byte) (msg : List (Bytes × Bytes)), msg.length = n →
      ((classicSender { X with chacha8 := f } arch coin delta inner msg).against inp).1 = pre) := by
  unfold classicSender
  have ha : ∀ p : Prop, ∀ [Decidable p], p → assertR (decide p) = .ok () := fun p _ h => by simp [assertR, h]
  rcases against_bind (do
      validateProperties ⟨n, "Apricot"⟩
      inner (u8VecToBoolVec delta.toList)) inp with ⟨pre, payloads, r, h⟩ | ⟨pre, h⟩
  · refine .inl ⟨pre, payloads, r, fun f msg hl => ?_⟩
    have := h _ (fun a => classicSenderExtend { X with chacha8 := f } arch coin delta.toList msg a)
    simp only [bind_assocP] at this
    rw [ha _ (by omega), liftM_ok, ret_bind, ha _ (by omega), liftM_ok, ret_bind, hl]
    exact this
  · refine .inr ⟨pre, fun f msg hl => ?_⟩
    have := h _ (fun a => classicSenderExtend { X with chacha8 := f } arch coin delta.toList msg a)
    simp only [bind_assocP] at this
    rw [ha _ (by omega), liftM_ok, ret_bind, ha _ (by omega), liftM_ok, ret_bind, hl]
    exact this

/-! ### The base transfer -/

theorem coCrypt_same {C : Curve} {X : Crypto} {f g : WireBytes → Nat → Byte} {P : C.Pt} {m : Bytes}
    (h : g (X.sha256 (C.compress P).toList) = f (X.sha256 (C.compress P).toList)) :
    coCrypt C { X with chacha20 := g } P m = coCrypt C { X with chacha20 := f } P m := by
  unfold coCrypt
  rw [gen_same (X := X) h]

theorem coCrypt_repad {C : Curve} {X : Crypto} {f g : WireBytes → Nat → Byte} {P : C.Pt} {m m' : Bytes}
    (hm : m'.length = m.length)
    (h : ∀ k, g (X.sha256 (C.compress P).toList) k =
      f (X.sha256 (C.compress P).toList) k ^^^ spread (List.zipWith (· ^^^ ·) m m') k) :
    coCrypt C { X with chacha20 := g } P m' = coCrypt C { X with chacha20 := f } P m := by
  rw [coCrypt_ok, coCrypt_ok]
  unfold coCipher
  have := gen_shift (X := X) (w := m'.length) (by simp [hm]) h
  rw [this, xor_absorb hm (by rw [genBytes_length, hm]), hm]

theorem zipIdx_range (msg : List (Bytes × Bytes)) :
    msg.zipIdx = (List.range msg.length).map fun j => (msg.getD j ([], []), j) := by
  apply List.ext_getElem
  · simp
  · intro j h1 h2
    have hj : j < msg.length := by simpa using h2
    simp [hj]

/-- The base sender with other messages and other streams. -/
theorem coSender_same (C : Curve) (X : Crypto) (a : Nat → Nat) (msg msg' : List (Bytes × Bytes)) (c : Nat → Bool)
    (hm : SameChosenAll c msg msg') (B : Nat → C.Pt) (inp : List Bytes)
    (hB : ∀ i < msg.length, ∀ p P, inp[i + 1]? = some p.toList → C.decompress p = some P → B i = P)
    {f g : WireBytes → Nat → Byte}
    (hg : Repadded (fun i => baseSeed C X.sha256 (a i) (B i) (!c i)) (fun i => baseSeed C X.sha256 (a i) (B i) (c i))
      (fun j => spread (otherDiff c msg msg' j)) msg.length f g) :
    (coSender C { X with chacha20 := g } a msg').against inp = (coSender C { X with chacha20 := f } a msg).against inp := by
  unfold coSender
  rw [hm.1]
  rcases against_validate ⟨msg.length, "Chou-Orlandi"⟩ Unit inp with ⟨m, rest, rfl, -, hv⟩ | ⟨r, -, hv⟩
  rotate_left
  · rw [hv, hv]
  rw [hv, hv]
  dsimp only
  rw [against_sendAll, against_sendAll]
  rcases against_recvEach msg.length fromSlice Unit rest with ⟨as, hl, has, hk⟩ | ⟨r, hk⟩
  rotate_left
  · rw [hk, hk]
  rw [hk, hk]
  have henc : coEncrypt C { X with chacha20 := g } ((List.range msg.length).map fun i => C.compress (a i • C.base)) as a msg' =
      coEncrypt C { X with chacha20 := f } ((List.range msg.length).map fun i => C.compress (a i • C.base)) as a msg := by
    unfold coEncrypt
    rw [zipIdx_range, zipIdx_range, hm.1, List.mapM_map, List.mapM_map]
    refine mapM_congr_mem fun i hi => ?_
    have hi : i < msg.length := by simpa using hi
    unfold coEncryptPair
    simp only [Function.comp]
    cases hp : idxR as i with
    | error e => rfl
    | ok p =>
      rw [okb, okb]
      cases hP : C.decompress p with
      | none => rfl
      | some P =>
        have hpi : rest[i]? = some p.toList := by
          have hir : i < rest.length := by omega
          obtain ⟨b, hb, hfb⟩ := mapM_getElem? has i rest[i] (by simp [hi, hir])
          have hb' : as[i]? = some p := by
            unfold idxR at hp
            cases h : as[i]? with
            | none => rw [h] at hp; cases hp
            | some q => rw [h] at hp; injection hp with hp; rw [hp]
          rw [hb] at hb'
          injection hb' with hb'
          subst hb'
          rw [List.getElem?_eq_getElem hir]
          unfold fromSlice at hfb
          split at hfb
          · injection hfb with hfb
            rw [← hfb]
            simp [Vector.toList]
          · cases hfb
        have hBi : B i = P := hB i hi p P (by simpa using hpi) hP
        obtain ⟨h1, h2, h3⟩ := hm.2 i hi
        have hat := hg.hidden i hi
        have hoth := hg.known i hi
        rw [unwrapR, okb, okb, idxR_ok (a := C.compress (a i • C.base)) (by simp [hi]), okb, okb, C.decompress_compress,
          unwrapR, okb, okb]
        unfold baseSeed at hat hoth
        unfold otherDiff other at hat
        rw [hBi] at hat hoth
        cases hc : c i with
        | false =>
          rw [hc] at h3 hat hoth
          simp only [Bool.false_eq_true, if_false, Bool.not_false, if_true] at h3 hat hoth
          rw [coCrypt_same hoth, h3, coCrypt_repad h2 hat]
        | true =>
          rw [hc] at h3 hat hoth
          simp only [Bool.false_eq_true, if_false, Bool.not_true, if_true] at h3 hat hoth
          rw [coCrypt_same hoth, h3, coCrypt_repad h1 hat]
  rw [henc]


/-- From seeds that are apart to a bijection of the streams. -/
theorem repad_exists {hidden known : Nat → WireBytes} {used : WireBytes → Prop} {n : Nat}
    (h : PadsApart hidden known used n) (D : Nat → Nat → Byte) :
    (∀ f, repad hidden D n (repad hidden D n f) = f) ∧ (∀ f, SameBut hidden n f (repad hidden D n f)) ∧
      (∀ f, Repadded hidden known D n f (repad hidden D n f)) ∧ ∀ f s, used s → repad hidden D n f s = f s := by
  refine ⟨fun f => reprogram_invol .., fun f s hs => repad_other f fun j hj he => hs j hj he.symm, fun f => ⟨?_, ?_⟩,
    fun f s hs => repad_other f fun j hj he => h.used j hj (he.symm ▸ hs)⟩
  · intro j hj k
    exact repad_at h.apart f hj k
  · intro j hj
    exact repad_other f fun k hk => h.known k hk j hj

end FP
