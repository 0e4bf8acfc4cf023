import Verif.Proof.Served
import Verif.Proof.Shape
import Verif.Proof.Witness
/-
C81: which databases the one-of-many servers can serve.
-/
namespace FP.Props
open Spec

theorem possible_valid {dbg : Bool} {count : Nat} {o : ManySend} (ho : o.Possible count) (h : Servable dbg o.cores count) :
    o.Valid dbg count := by
  obtain ⟨⟨k, rfl⟩, hs⟩ := h
  have ho2 := ho.order
  unfold roundedUp at ho2
  rw [Nat.clog_pow 2 k (by decide)] at ho2
  exact ⟨ho.cores, ho2, hs⟩

theorem masked_lengths {mask : Bytes} {passwords : List Bytes} {len : Nat} (hm : mask.length = len)
    (hlen : ∀ p ∈ passwords, p.length = len) : ∀ p ∈ passwords.map (xorB mask), p.length = len := by
  intro p hp
  obtain ⟨q, hq, rfl⟩ := List.mem_map.mp hp
  rw [xorB_length (by rw [hm, hlen q hq]), hlen q hq]

theorem first_length {passwords : List Bytes} {len : Nat} {p : Bytes} (hlen : ∀ p ∈ passwords, p.length = len)
    (h : idxR passwords 0 = .ok p) : p.length = len ∧ 0 < passwords.length := by
  cases passwords with
  | nil => cases h
  | cons a l =>
    obtain rfl := Except.ok.inj h
    exact ⟨hlen _ (by simp), by simp⟩

theorem encoded_lengths {e : List (Wire × Wire)} {n : Nat} {passwords : List Bytes} {rows : List Bytes}
    (h : encodeAll e n passwords = .ok rows) : rows.length = passwords.length ∧ ∀ m ∈ rows, m.length = 32 * n := by
  refine ⟨mapM_length h, fun m hm => ?_⟩
  obtain ⟨p, -, hp⟩ := mapM_mem h hm
  obtain ⟨bs, hbs, h2⟩ := bind_inv hp
  obtain rfl := Except.ok.inj h2
  have hb : ∀ b ∈ bs, b.length = 32 := by
    intro b hb
    obtain ⟨i, -, hi⟩ := mapM_mem hbs hb
    obtain ⟨x, -, h3⟩ := bind_inv hi
    obtain ⟨y, -, h4⟩ := bind_inv h3
    obtain rfl := Except.ok.inj h4
    simp [Wire.bytes]
  have hl := mapM_length hbs
  rw [List.length_range] at hl
  rw [List.length_flatten, List.map_congr_left hb]
  simp [hl, Nat.mul_comm]

/-- C81: a server of the fourth implementation whose database it cannot serve never returns a key, whatever
the client sends. -/
theorem C81_fourth_refuses (C : Curve) (X : Crypto) (s : ManyDraws) (passwords : List Bytes) (len t : Nat)
    (hlen : ∀ p ∈ passwords, p.length = len) (h0 : 0 < len) (hl : len < 2 ^ 31) (hcount : passwords.length < 2 ^ 32)
    (hs : s.many.Possible passwords.length) (hbad : ¬ Servable X.dbg s.many.cores passwords.length) :
    NeverReturns (mfpakeMany C X s passwords t) := by
  unfold mfpakeMany
  refine never_lift _ fun p hp => ?_
  obtain ⟨hpl, hn⟩ := first_length hlen hp
  have hmask := drawMask_length s.mask len
  dsimp only
  rw [hpl, maskPasswords_ok X.dbg hmask hlen, liftM_ok, ret_bind]
  refine never_lift _ fun domain hd => never_left _ ?_
  exact many_never C X (len := len) (by simpa using hd) (by simpa using hcount) (masked_lengths hmask hlen) (by simpa using hn) h0 hl
    (by simpa using hs) (by simpa using hbad)

example := C81_fourth_refuses Witness.curve (Witness.crypto true) Witness.manyDraws Witness.three 2 1 (by meets)
    (by meets) (by meets) (by meets) (by meets) (by meets)

/-- C81: so does the garbling server of the third implementation. -/
theorem C81_v3_refuses (C : Curve) (X : Crypto) (s : ServerDraws) (passwords : List Bytes) (len t : Nat)
    (hlen : ∀ p ∈ passwords, p.length = len) (h0 : 0 < len) (hl : len < 2 ^ 31) (hcount : passwords.length < 2 ^ 32)
    (hs : s.many.Possible passwords.length) (hbad : ¬ Servable X.dbg s.many.cores passwords.length) :
    NeverReturns (garblerServerV3 C X s passwords t) := by
  unfold garblerServerV3
  refine never_lift _ fun p hp => ?_
  obtain ⟨hpl, hn⟩ := first_length hlen hp
  have hmask := drawMask_length s.mask len
  dsimp only
  rw [hpl]
  refine never_lift _ fun circuit _ => never_lift _ fun g _ => never_right _ fun _ => never_lift _ fun cm _ =>
    never_right _ fun _ => never_lift _ fun em _ => never_right _ fun _ => never_lift _ fun domain hd => ?_
  rw [maskPasswords_ok X.dbg hmask hlen, liftM_ok, ret_bind]
  refine never_left _ ?_
  exact many_never C X (len := len) (by simpa using hd) (by simpa using hcount) (masked_lengths hmask hlen) (by simpa using hn) h0 hl
    (by simpa using hs) (by simpa using hbad)

example := C81_v3_refuses Witness.curve (Witness.crypto true) Witness.serverDraws Witness.three 2 1 (by meets)
    (by meets) (by meets) (by meets) (by meets) (by meets)

/-- C81: so does the garbling server of the first implementation, which transfers the labels of every password. -/
theorem C81_v1_refuses (C : Curve) (X : Crypto) (s : ServerDraws1) (passwords : List Bytes) (len t : Nat)
    (hlen : ∀ p ∈ passwords, p.length = len) (h0 : 0 < len) (hl : len < 2 ^ 23) (hcount : passwords.length < 2 ^ 32)
    (hs : s.many.Possible passwords.length) (hbad : ¬ Servable X.dbg s.many.cores passwords.length) :
    NeverReturns (garblerServerV1 C X s passwords t) := by
  unfold garblerServerV1
  refine never_lift _ fun p hp => ?_
  obtain ⟨hpl, hn⟩ := first_length hlen hp
  dsimp only
  rw [hpl]
  refine never_lift _ fun circuit _ => never_lift _ fun g _ => never_right _ fun _ => never_lift _ fun cm _ =>
    never_right _ fun _ => never_lift _ fun domain hd => never_lift _ fun rows hrows => never_left _ ?_
  obtain ⟨e1, e2⟩ := encoded_lengths hrows
  exact many_never C X (len := 32 * (len * 8)) (by rw [e1]; exact hd) (by omega) e2 (by omega) (by omega) (by omega)
    (by rw [e1]; exact hs) (by rw [e1]; exact hbad)

example := C81_v1_refuses Witness.curve (Witness.crypto true) Witness.serverDraws1 Witness.three 2 1 (by meets)
    (by meets) (by meets) (by meets) (by meets) (by meets)

/-- C81: so do the garbling server and the evaluating server of the second implementation. -/
theorem C81_v2_refuses (C : Curve) (X : Crypto) (passwords : List Bytes) (len : Nat)
    (hlen : ∀ p ∈ passwords, p.length = len) (h0 : 0 < len) (hl : len < 2 ^ 31) (hcount : passwords.length < 2 ^ 32) :
    (∀ (s : ServerDraws) (t : Nat), s.many.Possible passwords.length → ¬ Servable X.dbg s.many.cores passwords.length →
      NeverReturns (garblerServerV2 C X s passwords t)) ∧
    (∀ (s : ServerEvaluator2), s.many.Possible passwords.length → ¬ Servable X.dbg s.many.cores passwords.length →
      NeverReturns (evaluatorServerV2 C X s passwords)) := by
  constructor
  · intro s t hs hbad
    unfold garblerServerV2
    refine never_lift _ fun p hp => ?_
    obtain ⟨hpl, hn⟩ := first_length hlen hp
    have hmask := drawMask_length s.mask len
    dsimp only
    rw [hpl]
    refine never_lift _ fun circuit _ => never_lift _ fun g _ => never_right _ fun _ => never_lift _ fun cm _ =>
      never_right _ fun _ => never_lift _ fun em _ => never_right _ fun _ => never_lift _ fun domain hd => ?_
    rw [maskPasswords_ok X.dbg hmask hlen, liftM_ok, ret_bind]
    refine never_left _ ?_
    exact many_never C X (len := len) (by simpa using hd) (by simpa using hcount) (masked_lengths hmask hlen) (by simpa using hn) h0 hl
      (by simpa using hs) (by simpa using hbad)
  · intro s hs hbad
    unfold evaluatorServerV2
    refine never_lift _ fun p hp => ?_
    obtain ⟨hpl, hn⟩ := first_length hlen hp
    have hmask := drawMask_length s.mask len
    dsimp only
    rw [hpl]
    refine never_right _ fun m => never_lift _ fun gc _ => never_right _ fun m2 => never_lift _ fun cl _ =>
      never_lift _ fun ch _ => ?_
    rw [maskPasswords_ok X.dbg hmask hlen, liftM_ok, ret_bind]
    refine never_right _ fun em => never_lift _ fun domain hd => never_left _ ?_
    exact many_never C X (len := len) (by simpa using hd) (by simpa using hcount) (masked_lengths hmask hlen) (by simpa using hn) h0 hl
      (by simpa using hs) (by simpa using hbad)

example := C81_v2_refuses Witness.curve (Witness.crypto true) Witness.three 2 (by meets) (by meets) (by meets)
    (by meets)

/-- C81: in the fourth implementation an honest client with a close password obtains the server's key if and only
if the number of passwords is a power of two and is at most four or splits evenly over the server's cores. -/
theorem C81_fourth_exact (C : Curve) (X : Crypto) (s : ManyDraws) (c : SingleDraws) (passwords : List Bytes)
    (password : Bytes) (len index ts tc : Nat) (hdb : ∀ p ∈ passwords, p.length = len) (hcount : passwords.length < 2 ^ 32)
    (hlen : GoodLength len) (hpw : password.length = len) (hi : index < passwords.length)
    (hm : s.many.Possible passwords.length) (hsg : s.g.Valid) (hso : s.ot.Valid) (hcg : c.g.Valid) (hco : c.ot.Valid)
    (hts : ts < 65535) (htc : tc < 65535)
    (h1 : bitDistance passwords[index] password ≤ ts) (h2 : bitDistance passwords[index] password ≤ tc) :
    (∃ key, Completes (mfpakeMany C X s passwords ts) (mfpakeSingle C X c password index passwords.length tc) key key) ↔
      Servable X.dbg s.many.cores passwords.length := by
  have hl : 0 < len ∧ len < 2 ^ 31 := by unfold GoodLength at hlen; omega
  constructor
  · rintro ⟨key, h⟩
    by_contra hbad
    exact never_completes (C81_fourth_refuses C X s passwords len ts hdb hl.1 hl.2 hcount hm hbad) _ _ _ h
  · intro h
    exact C32_same_key_partial C X s c passwords password len index ts tc ⟨h.1, hcount, hdb⟩ hlen hpw hi (possible_valid hm h) hsg hso
      hcg hco hts htc h1 h2

example := C81_fourth_exact Witness.curve (Witness.crypto true) Witness.manyDraws Witness.singleDraws Witness.passwords
    Witness.password 2 1 1 1 (by meets) (by meets) (by meets) (by meets) (by meets) (by meets) (by meets) (by meets)
    (by meets) (by meets) (by meets) (by meets) (by meets) (by meets)

/-- C81, the whole exchange of the third implementation. -/
theorem C81_v3_exact (C : Curve) (X : Crypto) (s : ServerDraws) (c : ClientDraws) (g : GarblerDraws) (o : OTRecv)
    (passwords : List Bytes) (password : Bytes) (len index ts tc : Nat) (hdb : ∀ p ∈ passwords, p.length = len)
    (hcount : passwords.length < 2 ^ 32) (hlen : GoodLength len) (hpw : password.length = len) (hi : index < passwords.length)
    (hm : s.many.Possible passwords.length) (hsg : s.g.Valid) (hs2 : s.ot2.Valid) (hco : c.ot.Valid)
    (hco2 : c.ot2.Valid) (hg : g.Valid) (ho : o.Valid) (hts : ts < 65535) (htc : tc < 65535)
    (h1 : bitDistance passwords[index] password ≤ ts) (h2 : bitDistance passwords[index] password ≤ tc) :
    (∃ key, Completes
      (do let r ← garblerServerV3 C X s passwords ts
          let k ← evaluatorServerV3 C X o passwords r.2
          return combine r.1 k)
      (do let r ← evaluatorClientV3 C X c password passwords.length index
          let k ← garblerClientV3 C X g password r.2 index passwords.length tc
          return combine r.1 k) key key) ↔ Servable X.dbg s.many.cores passwords.length := by
  have hl : 0 < len ∧ len < 2 ^ 31 := by unfold GoodLength at hlen; omega
  constructor
  · rintro ⟨key, h⟩
    by_contra hbad
    exact never_completes (never_left _ (C81_v3_refuses C X s passwords len ts hdb hl.1 hl.2 hcount hm hbad)) _ _ _ h
  · intro h
    exact C33_same_key_partial C X s c g o passwords password len index ts tc ⟨h.1, hcount, hdb⟩ hlen hpw hi (possible_valid hm h) hsg
      hs2 hco hco2 hg ho hts htc h1 h2

example := C81_v3_exact Witness.curve (Witness.crypto true) Witness.serverDraws Witness.clientDraws Witness.g
    Witness.recv Witness.passwords Witness.password 2 1 1 1 (by meets) (by meets) (by meets) (by meets) (by meets)
    (by meets) (by meets) (by meets) (by meets) (by meets) (by meets) (by meets) (by meets) (by meets) (by meets)
    (by meets)

/-- C81, the first implementation with the server garbling.  The other direction of this implementation does not
use the transfer and serves any number of passwords from two on (C34). -/
theorem C81_v1_exact (C : Curve) (X : Crypto) (s : ServerDraws1) (c : ClientDraws1) (passwords : List Bytes)
    (password : Bytes) (len index t : Nat) (hdb : ∀ p ∈ passwords, p.length = len) (hcount : passwords.length < 2 ^ 32)
    (hlen : GoodLength len) (hpw : password.length = len) (hi : index < passwords.length) (hm : s.many.Possible passwords.length)
    (hsg : s.g.Valid) (hco : c.ot.Valid) (ht : t < 65535) (h1 : bitDistance passwords[index] password ≤ t) :
    (∃ key, Completes (garblerServerV1 C X s passwords t)
      (evaluatorClientV1 C X c password passwords.length index) key key) ↔ Servable X.dbg s.many.cores passwords.length := by
  have hl : 0 < len ∧ len < 2 ^ 23 := by unfold GoodLength at hlen; omega
  constructor
  · rintro ⟨key, h⟩
    by_contra hbad
    exact never_completes (C81_v1_refuses C X s passwords len t hdb hl.1 hl.2 hcount hm hbad) _ _ _ h
  · intro h
    obtain ⟨k, k', hc, e, -⟩ := C34_v1_server_garbles_partial C X s c passwords password len index t ⟨h.1, hcount, hdb⟩ hlen hpw hi
      (possible_valid hm h) hsg hco ht
    obtain rfl := e h1
    exact ⟨k, hc⟩

example := C81_v1_exact Witness.curve (Witness.crypto true) Witness.serverDraws1 Witness.clientDraws1 Witness.passwords
    Witness.password 2 1 1 (by meets) (by meets) (by meets) (by meets) (by meets) (by meets) (by meets) (by meets)
    (by meets) (by meets)

/-- C81, both directions of the second implementation. -/
theorem C81_v2_exact (C : Curve) (X : Crypto) (passwords : List Bytes) (password : Bytes) (len index t : Nat)
    (hdb : ∀ p ∈ passwords, p.length = len) (hcount : passwords.length < 2 ^ 32) (hlen : GoodLength len)
    (hpw : password.length = len) (hi : index < passwords.length) (ht : t < 65535)
    (h1 : bitDistance passwords[index] password ≤ t) :
    (∀ (s : ServerDraws) (c : ClientDraws), s.many.Possible passwords.length → s.g.Valid → s.ot2.Valid → c.ot.Valid →
      c.ot2.Valid →
      ((∃ key, Completes (garblerServerV2 C X s passwords t)
        (evaluatorClientV2 C X c password passwords.length index) key key) ↔
        Servable X.dbg s.many.cores passwords.length)) ∧
    (∀ (s : ServerEvaluator2) (g : ClientGarbler2), s.many.Possible passwords.length → g.g.Valid → s.ot.Valid →
      ((∃ key, Completes (evaluatorServerV2 C X s passwords)
        (garblerClientV2 C X g password index passwords.length t) key key) ↔
        Servable X.dbg s.many.cores passwords.length)) := by
  have hl : 0 < len ∧ len < 2 ^ 31 := by unfold GoodLength at hlen; omega
  obtain ⟨r1, r2⟩ := C81_v2_refuses C X passwords len hdb hl.1 hl.2 hcount
  constructor
  · intro s c hm hsg hs2 hco hco2
    constructor
    · rintro ⟨key, h⟩
      by_contra hbad
      exact never_completes (r1 s t hm hbad) _ _ _ h
    · intro h
      obtain ⟨k, k', hc, e, -⟩ := C34_v2_server_garbles_partial C X s c passwords password len index t ⟨h.1, hcount, hdb⟩ hlen hpw hi
        (possible_valid hm h) hsg hs2 hco hco2 ht
      obtain rfl := e h1
      exact ⟨k, hc⟩
  · intro s g hm hg ho
    constructor
    · rintro ⟨key, h⟩
      by_contra hbad
      exact never_completes (r2 s hm hbad) _ _ _ h
    · intro h
      obtain ⟨k, k', hc, e, -⟩ := C34_v2_client_garbles_partial C X g s passwords password len index t ⟨h.1, hcount, hdb⟩ hlen hpw hi
        (possible_valid hm h) hg ho ht
      obtain rfl := e h1
      exact ⟨k, hc⟩

example := C81_v2_exact Witness.curve (Witness.crypto true) Witness.passwords Witness.password 2 1 1 (by meets)
    (by meets) (by meets) (by meets) (by meets) (by meets) (by meets)

/-! ### The hypotheses can be met, and both sides occur -/

/-- Draws of a server with three cores and three passwords; and of one with six cores and sixteen. -/
example : (⟨3, [2, 0, 1, 3], fun _ => (Vector.replicate 32 1, Vector.replicate 32 2), fun i => i + 1⟩ : ManySend).Possible 3 ∧
    (⟨6, [0, 1, 2, 3, 4, 5, 6, 7], fun _ => (Vector.replicate 32 1, Vector.replicate 32 2), fun i => i + 1⟩ : ManySend).Possible 16 := by
  have e3 : roundedUp 3 = 4 := by
    unfold roundedUp
    rw [Nat.clog_of_two_le (by decide) (by decide), Nat.clog_of_two_le (by decide) (by decide),
      Nat.clog_of_right_le_one (by decide)]
  have e16 : roundedUp 16 = 16 := by unfold roundedUp; rw [show (16 : Nat) = 2 ^ 4 by decide, Nat.clog_pow 2 4 (by decide)]
  refine ⟨⟨by decide, ?_⟩, ⟨by decide, ?_⟩⟩
  · rw [e3]; unfold IsOrder; decide
  · rw [e16]; unfold IsOrder; decide

/-- Three passwords are never served.  Sixteen are served on six cores by a release build, but not by a checked
one, and on five cores by neither. -/
example : (∀ dbg cores, ¬ Servable dbg cores 3) ∧ Servable false 6 16 ∧ ¬ Servable true 6 16 ∧ ¬ Servable false 5 16 ∧
    (∀ dbg cores, Servable dbg cores 4) := by
  refine ⟨?_, ⟨⟨4, rfl⟩, .inr ?_⟩, ?_, ?_, fun _ _ => ⟨⟨2, rfl⟩, .inl (by decide)⟩⟩
  · rintro dbg cores ⟨⟨k, hk⟩, -⟩
    rcases k with _ | _ | k
    · simp at hk
    · simp at hk
    · have : 2 ^ (k + 2) = 4 * 2 ^ k := by ring
      have := Nat.pos_of_ne_zero (n := 2 ^ k) (by positivity)
      omega
  · unfold CleanSplit; decide
  · rintro ⟨-, h⟩; unfold CleanSplit at h; revert h; decide
  · rintro ⟨-, h⟩; unfold CleanSplit at h; revert h; decide

end FP.Props
