import Verif.Proof.ApricotRun
import Mathlib.Data.Fintype.Pigeonhole
import Mathlib.Data.Fintype.BigOperators
import Verif.Proof.Witness
/-
C22, C24, C25, C27, C28: the OT extension of src/ot/apricot.rs.
-/
namespace FP.Props
open Spec

attribute [local irreducible] Spec.modulus

/-! ### Correctness -/

/-- C22: over every correct bootstrap transfer, for every number of pairs that is a positive multiple of
eight, every message size from 1 to 65535, every randomness, every number of cores on either side and
every order in which the workers run, both parties finish and the receiver has the chosen messages. -/
theorem C22_apricot (X : Crypto) (armS armR : Bool) (coresS coresR : Nat) (schedS sched1 sched2 : Nat → List Nat)
    (coinS coinR : WireBytes) (delta : Vector Byte 16) (bonus : Vector Bool 256) (seed0 seed1 : Vector WireBytes 128)
    (innerS : List (Bytes × Bytes) → Proc Unit) (innerR : List Bool → Proc (List Bytes))
    (hinner : CorrectOT 32 128 innerS innerR) (n len : Nat) (hn : 0 < n) (h8 : n % 8 = 0) (hfit : n < 2 ^ 64)
    (hlen : 0 < len) (hlen' : len < 65536) (hcS : 0 < coresS) (hcR : 0 < coresR)
    (hsS : ∀ m, IsOrder m (schedS m)) (hs1 : ∀ m, IsOrder m (sched1 m)) (hs2 : ∀ m, IsOrder m (sched2 m)) :
    CorrectOT len n (apricotSender X armS coresS schedS coinS delta innerR)
      (apricotReceiver X armR coresR sched1 sched2 coinR bonus seed0 seed1 innerS) := by
  intro msg choices hm hc hml
  exact (apricot_ends X armS armR coresS coresR schedS sched1 sched2 coinS coinR delta bonus seed0 seed1 innerS innerR
    hinner msg choices len (by omega) (Nat.dvd_of_mod_eq_zero (by omega)) (by omega) hlen (by omega) (by omega) hml
    hcS hcR hsS hs1 hs2).completes

example := C22_apricot (Witness.crypto true) true false 4 3 List.range List.range List.range (Witness.bytes 1) (Witness.bytes 2)
    Witness.send.delta Witness.recv.bonus Witness.recv.seed0 Witness.recv.seed1
    (coSender Witness.curve (Witness.crypto true) (· + 3)) (coReceiver Witness.curve (Witness.crypto true) (· + 5))
    (fun msg choices hm hc hml => (co_ends _ _ _ _ _ _ (by omega) (by omega) fun m h => by
      obtain ⟨h1, h2⟩ := hml m h; rw [h1, h2]; decide).completes) 8 2 (by meets) (by meets) (by meets) (by meets) (by meets) (by meets)
    (by meets) (by meets) (by meets) (by meets)

/-- C22 over the base transfer of src/ot/chou_orlandi.rs. -/
theorem C22_over_base_ot (C : Curve) (a b : Nat → Nat) (X Y : Crypto) (armS armR : Bool) (coresS coresR : Nat)
    (schedS sched1 sched2 : Nat → List Nat)
    (coinS coinR : WireBytes) (delta : Vector Byte 16) (bonus : Vector Bool 256) (seed0 seed1 : Vector WireBytes 128)
    (n len : Nat) (hn : 0 < n) (h8 : n % 8 = 0) (hfit : n < 2 ^ 64)
    (hlen : 0 < len) (hlen' : len < 65536) (hcS : 0 < coresS) (hcR : 0 < coresR)
    (hsS : ∀ m, IsOrder m (schedS m)) (hs1 : ∀ m, IsOrder m (sched1 m)) (hs2 : ∀ m, IsOrder m (sched2 m)) :
    CorrectOT len n (apricotSender X armS coresS schedS coinS delta (coReceiver C Y b))
      (apricotReceiver X armR coresR sched1 sched2 coinR bonus seed0 seed1 (coSender C Y a)) := by
  refine C22_apricot X armS armR coresS coresR schedS sched1 sched2 coinS coinR delta bonus seed0 seed1 _ _ ?_ n len
    hn h8 hfit hlen hlen' hcS hcR hsS hs1 hs2
  intro msg choices hm hc hml
  refine (co_ends C Y a b msg choices (by omega) (by omega) fun m h => ?_).completes
  obtain ⟨h1, h2⟩ := hml m h
  rw [h1, h2]
  decide

example := C22_over_base_ot Witness.curve (· + 3) (· + 3) (Witness.crypto true) (Witness.crypto true) true true 4 3
    List.range List.range List.range (Witness.bytes 1) (Witness.bytes 1) Witness.send.delta Witness.recv.bonus
    Witness.recv.seed0 Witness.recv.seed0 8 2 (by meets) (by meets) (by meets) (by meets) (by meets) (by meets)
    (by meets) (by meets) (by meets) (by meets)

/-- C27 for the extension: what the parties obtain is the same for any two machines and any two orders of
the workers. -/
theorem C27_apricot (X : Crypto) (arm arm' : Bool) (cores cores' : Nat) (sched sched' : Nat → List Nat)
    (delta qT t v d packed : Bytes) (msg : List (Bytes × Bytes)) (n ms l : Nat) (out : Nat → Bytes)
    (hc : 0 < cores) (hc' : 0 < cores') (hs : ∀ m, IsOrder m (sched m)) (hs' : ∀ m, IsOrder m (sched' m)) :
    (0 < msg.length → 0 < ms → delta.length = 16 → 16 * msg.length ≤ qT.length →
      (∀ m ∈ msg, m.1.length = ms ∧ m.2.length = ms) →
      apRandomize X cores sched delta qT msg ms = apRandomize X cores' sched' delta qT msg ms) ∧
    (0 < l → 16 * l ≤ t.length → apV X cores sched l t = apV X cores' sched' l t) ∧
    (0 < n → d.length = n * (ms * 2) →
      (∀ j < n, apDerandomizeRow X v d packed ms j (List.replicate ms 0) = .ok (out j)) →
      apDerandomize X cores sched v d packed n (List.replicate n (List.replicate ms 0)) =
        apDerandomize X cores' sched' v d packed n (List.replicate n (List.replicate ms 0))) := by
  refine ⟨fun h1 h2 h3 h4 h5 => ?_, fun h1 h2 => ?_, fun h1 h2 h3 => ?_⟩
  · rw [apRandomize_ok X cores sched delta qT msg ms hc hs h1 h2 h3 h4 h5,
      apRandomize_ok X cores' sched' delta qT msg ms hc' hs' h1 h2 h3 h4 h5]
  · rw [apV_ok X cores sched l t hc hs h1 h2, apV_ok X cores' sched' l t hc' hs' h1 h2]
  · rw [apDerandomize_ok X cores sched v d packed n ms out hc hs h1 h2 h3,
      apDerandomize_ok X cores' sched' v d packed n ms out hc' hs' h1 h2 h3]

example := C27_apricot (Witness.crypto true) true false 4 3 List.range (fun m => (List.range m).reverse) (List.replicate 16 5)
    (List.replicate 128 3) (List.replicate 128 3) (List.replicate 128 7) (List.replicate 32 1) [9] Witness.messages 8 2 8
    (fun _ => []) (by meets) (by meets) (by meets) (fun m => List.reverse_perm _)

theorem apricot_mismatch (X : Crypto) (armS armR : Bool) (coresS coresR : Nat) (schedS sched1 sched2 : Nat → List Nat)
    (coinS coinR : WireBytes) (delta : Vector Byte 16) (bonus : Vector Bool 256) (seed0 seed1 : Vector WireBytes 128)
    (innerS : List (Bytes × Bytes) → Proc Unit) (innerR : List Bool → Proc (List Bytes))
    (msg : List (Bytes × Bytes)) (choices : List Bool) (h : msg.length ≠ choices.length)
    (h8 : msg.length % 8 = 0) (h8' : choices.length % 8 = 0) (hn : msg.length < 2 ^ 64) (hn' : choices.length < 2 ^ 64) :
    EndsErr (apricotSender X armS coresS schedS coinS delta innerR msg)
      (apricotReceiver X armR coresR sched1 sched2 coinR bonus seed0 seed1 innerS choices)
      (.err .badProperties) (.err .badProperties) := by
  unfold apricotSender apricotReceiver
  rw [debugAssertR_true (by simpa using h8), liftM_ok, ret_bind,
    debugAssertR_true (by simpa using h8'), liftM_ok, ret_bind]
  exact (validate_fails ⟨hn, apricot_name⟩ ⟨hn', apricot_name⟩ (by simpa using h)).bind _ _

/-- C28 for the extension: a sender and a receiver with different numbers of items both fail. -/
theorem C28_apricot (X : Crypto) (armS armR : Bool) (coresS coresR : Nat) (schedS sched1 sched2 : Nat → List Nat)
    (coinS coinR : WireBytes) (delta : Vector Byte 16) (bonus : Vector Bool 256) (seed0 seed1 : Vector WireBytes 128)
    (innerS : List (Bytes × Bytes) → Proc Unit) (innerR : List Bool → Proc (List Bytes))
    (msg : List (Bytes × Bytes)) (choices : List Bool) (h : msg.length ≠ choices.length)
    (h8 : msg.length % 8 = 0) (h8' : choices.length % 8 = 0) (hn : msg.length < 2 ^ 64) (hn' : choices.length < 2 ^ 64) :
    BothFail (apricotSender X armS coresS schedS coinS delta innerR msg)
      (apricotReceiver X armR coresR sched1 sched2 coinR bonus seed0 seed1 innerS choices)
      (.err .badProperties) (.err .badProperties) :=
  (apricot_mismatch X armS armR coresS coresR schedS sched1 sched2 coinS coinR delta bonus seed0 seed1 innerS innerR
    msg choices h h8 h8' hn hn').bothFail

example := C28_apricot (Witness.crypto true) true false 4 3 List.range List.range List.range (Witness.bytes 1) (Witness.bytes 2)
    Witness.send.delta Witness.recv.bonus Witness.recv.seed0 Witness.recv.seed1
    (coSender Witness.curve (Witness.crypto true) (· + 3)) (coReceiver Witness.curve (Witness.crypto true) (· + 3))
    Witness.messages (List.replicate 16 true) (by meets) (by meets) (by meets) (by meets) (by meets)

/-! ### The correlation check -/

/-- C24, what the sender checks: against any peer that sends a matrix `u` of the right size and two check
values of sixteen bytes, the sender goes on exactly if the second equals the sum of its rows times the
coefficients plus the first times delta; otherwise it sends nothing and reports the receiver. -/
theorem C24_apricot_check_partial (X : Crypto) (arm : Bool) (cores : Nat) (sched : Nat → List Nat) (delta : Bytes)
    (seed : WireBytes) (msg : List (Bytes × Bytes)) (ms : Nat) (s : Nat → WireBytes) (w : Nat)
    (hw : msg.length + 256 = 8 * w) (hn : 0 < msg.length) (hms : 0 < ms)
    (hm : ∀ m ∈ msg, m.1.length = ms ∧ m.2.length = ms) (hd : delta.length = 16) (hc : 0 < cores)
    (hs : ∀ m, IsOrder m (sched m)) (u x t : Bytes) (rest : List Bytes) (hu : u.length = 128 * w)
    (hx : x.length = 16) (ht : t.length = 16) :
    (elt t = (∑ j ∈ Finset.range (8 * w), senderRow (fun i => X.fill (s i) w) delta u w j *
        chi (X.fill seed (16 * (8 * w))) j) + elt x * elt delta →
      ∃ d, d.length = msg.length * (ms * 2) ∧
        (apricotSenderExtend X arm cores sched delta seed msg ms ((List.range 128).map fun i => (s i).toList)).against
          (u :: x :: t :: rest) = ([d], some (.ok ()))) ∧
    (elt t ≠ (∑ j ∈ Finset.range (8 * w), senderRow (fun i => X.fill (s i) w) delta u w j *
        chi (X.fill seed (16 * (8 * w))) j) + elt x * elt delta →
      (apricotSenderExtend X arm cores sched delta seed msg ms ((List.range 128).map fun i => (s i).toList)).against
        (u :: x :: t :: rest) = ([], some (.error (.err .polychromatic)))) := by
  obtain ⟨K, eK, hK⟩ := senderExtend_eq X arm cores sched delta seed msg ms
    ((List.range 128).map fun i => (s i).toList) s w hw hd (fun i hi => by simp [hi])
  obtain ⟨qT, qSum, hq1, hq2, hq3, hq4, hKu⟩ := hK u (by omega)
  have hsum : elt qSum = ∑ j ∈ Finset.range (8 * w), senderRow (fun i => X.fill (s i) w) delta u w j *
        chi (X.fill seed (16 * (8 * w))) j := by
    rw [hq4]
    apply Finset.sum_congr rfl
    intro j hj
    have hj : j < 8 * w := by simpa using hj
    rw [elt_bits _ (row_length (n := 8 * w) (by omega) hj)]
    have : bitsElt (bitAt (row qT 16 j)) = senderRow (fun i => X.fill (s i) w) delta u w j :=
      bitsElt_congr fun i hi => by
        rw [hq3 j hj i hi, qRow_bit (by omega) (fun i _ => fill_length ..) i hi j hj]
    rw [this]
  rw [← hsum, eK]
  simp only [Proc.against, hKu]
  refine ⟨fun he => ?_, fun he => ?_⟩
  · rw [apFinish_accept X arm cores sched delta qT qSum msg ms x t hc hs hn hms hd (by omega) hm hq2 hx ht he]
    refine ⟨_, ?_, rfl⟩
    rw [flatMap_len (w := ms * 2) (fun j hj => apPair_length X delta qT msg ms j hj hm), Nat.mul_comm]
  · rw [apFinish_reject X arm cores sched delta qT qSum msg ms x t hd hq2 hx ht he]
    rfl

example := C24_apricot_check_partial (Witness.crypto true) true 4 List.range (List.replicate 16 5) (Witness.bytes 1)
    Witness.messages 2 Witness.bytes 33 (by meets) (by meets) (by meets) (by meets) (by meets) (by meets) (by meets)
    (List.replicate (128 * 33) 6) (List.replicate 16 9) (List.replicate 16 9) Witness.passwords (by meets) (by meets)
    (by meets)

/-- C24, uniqueness: for every matrix and every first value, exactly one second value of sixteen bytes is
accepted. -/
theorem C24_apricot_unique_partial (X : Crypto) (arm : Bool) (cores : Nat) (sched : Nat → List Nat) (delta : Bytes)
    (seed : WireBytes) (msg : List (Bytes × Bytes)) (ms : Nat) (s : Nat → WireBytes) (w : Nat)
    (hw : msg.length + 256 = 8 * w) (hn : 0 < msg.length) (hms : 0 < ms)
    (hm : ∀ m ∈ msg, m.1.length = ms ∧ m.2.length = ms) (hd : delta.length = 16) (hc : 0 < cores)
    (hs : ∀ m, IsOrder m (sched m)) (u x : Bytes) (hu : u.length = 128 * w) (hx : x.length = 16) :
    ∃! t : Bytes, t.length = 16 ∧
      ((apricotSenderExtend X arm cores sched delta seed msg ms ((List.range 128).map fun i => (s i).toList)).against
        [u, x, t]).2 = some (.ok ()) := by
  obtain ⟨t, ht, he⟩ := elt_surj ((∑ j ∈ Finset.range (8 * w), senderRow (fun i => X.fill (s i) w) delta u w j *
        chi (X.fill seed (16 * (8 * w))) j) + elt x * elt delta)
  refine ⟨t, ⟨ht, ?_⟩, ?_⟩
  · obtain ⟨d, -, h⟩ := (C24_apricot_check_partial X arm cores sched delta seed msg ms s w hw hn hms hm hd hc hs u x t []
      hu hx ht).1 he
    rw [h]
  · rintro t' ⟨ht', h⟩
    refine elt_inj ht' ht ?_
    rw [he]
    by_contra hne
    rw [(C24_apricot_check_partial X arm cores sched delta seed msg ms s w hw hn hms hm hd hc hs u x t' []
      hu hx ht').2 hne] at h
    simp at h

example := C24_apricot_unique_partial (Witness.crypto true) true 4 List.range (List.replicate 16 5) (Witness.bytes 1)
    Witness.messages 2 Witness.bytes 33 (by meets) (by meets) (by meets) (by meets) (by meets) (by meets) (by meets)
    (List.replicate (128 * 33) 6) (List.replicate 16 9) (by meets) (by meets)

/-- C24, deviations: a receiver that adds an error matrix `E` to the matrix it should send for the choices
`c`, and then computes the check values honestly, passes exactly if the sum over the rows of
`(E_j AND delta) * chi_j` is zero.  `E i j` is the error in column `i` of row `j`. -/
theorem C24_apricot_error_partial (X : Crypto) (arm : Bool) (cores : Nat) (sched : Nat → List Nat) (delta : Bytes)
    (seed : WireBytes) (msg : List (Bytes × Bytes)) (ms : Nat) (s0 s1 : Nat → WireBytes) (w : Nat)
    (hw : msg.length + 256 = 8 * w) (hn : 0 < msg.length) (hms : 0 < ms)
    (hm : ∀ m ∈ msg, m.1.length = ms ∧ m.2.length = ms) (hd : delta.length = 16) (hc : 0 < cores)
    (hs : ∀ m, IsOrder m (sched m)) (c : Nat → Bool) (E : Nat → Nat → Bool) (u x t : Bytes) (rest : List Bytes)
    (hu : u.length = 128 * w) (hx : x.length = 16) (ht : t.length = 16)
    (hub : ∀ i < 128, ∀ j < 8 * w, flatBit u w i j =
      (c j ^^ bitAt (X.fill (s0 i) w) j ^^ bitAt (X.fill (s1 i) w) j ^^ E i j))
    (hxs : elt x = ∑ j ∈ Finset.range (8 * w), if c j then chi (X.fill seed (16 * (8 * w))) j else 0)
    (hts : elt t = ∑ j ∈ Finset.range (8 * w), bitsElt (fun i => bitAt (X.fill (s0 i) w) j) *
      chi (X.fill seed (16 * (8 * w))) j) :
    ((apricotSenderExtend X arm cores sched delta seed msg ms
        ((List.range 128).map fun i => (if bitAt delta i then s1 i else s0 i).toList)).against
      (u :: x :: t :: rest)).2 = some (.ok ()) ↔
    (∑ j ∈ Finset.range (8 * w), bitsElt (fun i => E i j && bitAt delta i) *
      chi (X.fill seed (16 * (8 * w))) j) = 0 := by
  have hmain := C24_apricot_check_partial X arm cores sched delta seed msg ms
    (fun i => if bitAt delta i then s1 i else s0 i) w hw hn hms hm hd hc hs u x t rest hu hx ht
  have hrow : ∀ j < 8 * w, senderRow (fun i => X.fill (if bitAt delta i then s1 i else s0 i) w) delta u w j =
      bitsElt (fun i => bitAt (X.fill (s0 i) w) j) + (if c j then elt delta else 0) +
        bitsElt (fun i => E i j && bitAt delta i) := by
    intro j hj
    have : (if c j then elt delta else 0) = bitsElt (fun i => c j && bitAt delta i) := by
      cases c j
      · simp [bitsElt_false]
      · simp [elt_bits delta hd]
    rw [this, ← bitsElt_xor, ← bitsElt_xor]
    refine bitsElt_congr fun i hi => ?_
    rw [hub i hi j hj]
    have hT : bitAt (X.fill (if bitAt delta i then s1 i else s0 i) w) j =
        if bitAt delta i then bitAt (X.fill (s1 i) w) j else bitAt (X.fill (s0 i) w) j := by split <;> rfl
    dsimp only
    rw [hT]
    cases bitAt delta i <;> cases c j <;> cases E i j <;> cases bitAt (X.fill (s0 i) w) j <;>
      cases bitAt (X.fill (s1 i) w) j <;> rfl
  have key : (elt t = (∑ j ∈ Finset.range (8 * w), senderRow
      (fun i => X.fill (if bitAt delta i then s1 i else s0 i) w) delta u w j *
        chi (X.fill seed (16 * (8 * w))) j) + elt x * elt delta) ↔
      (∑ j ∈ Finset.range (8 * w), bitsElt (fun i => E i j && bitAt delta i) *
        chi (X.fill seed (16 * (8 * w))) j) = 0 := by
    have e : (∑ j ∈ Finset.range (8 * w), senderRow
        (fun i => X.fill (if bitAt delta i then s1 i else s0 i) w) delta u w j *
          chi (X.fill seed (16 * (8 * w))) j) + elt x * elt delta =
        elt t + ∑ j ∈ Finset.range (8 * w), bitsElt (fun i => E i j && bitAt delta i) *
          chi (X.fill seed (16 * (8 * w))) j := by
      rw [hxs, hts, Finset.sum_mul, ← Finset.sum_add_distrib, ← Finset.sum_add_distrib]
      apply Finset.sum_congr rfl
      intro j hj
      rw [hrow j (by simpa using hj)]
      cases c j
      · simp only [Bool.false_eq_true, if_false]; ring
      · simp only [if_true]
        linear_combination (elt delta * chi (X.fill seed (16 * (8 * w))) j) * gf_two
    rw [e]
    constructor
    · intro h; exact left_eq_add.mp h
    · intro h; rw [h, add_zero]
  rw [← key]
  constructor
  · intro h
    by_contra hne
    rw [hmain.2 hne] at h
    simp at h
  · intro h
    obtain ⟨d, -, hh⟩ := hmain.1 h
    rw [hh]

/-- C24 is false of release builds: an empty second value is accepted with every matrix and every first
value, because the comparison runs over the length of the received value. -/
theorem C24_apricot_empty_accepted (X : Crypto) (arm : Bool) (cores : Nat) (sched : Nat → List Nat) (delta : Bytes)
    (seed : WireBytes) (msg : List (Bytes × Bytes)) (ms : Nat) (s : Nat → WireBytes) (w : Nat)
    (hw : msg.length + 256 = 8 * w) (hn : 0 < msg.length) (hms : 0 < ms)
    (hm : ∀ m ∈ msg, m.1.length = ms ∧ m.2.length = ms) (hd : delta.length = 16) (hc : 0 < cores)
    (hs : ∀ m, IsOrder m (sched m)) (hrel : X.dbg = false) (u x : Bytes) (rest : List Bytes)
    (hu : u.length = 128 * w) (hx : x.length = 16) :
    ((apricotSenderExtend X arm cores sched delta seed msg ms ((List.range 128).map fun i => (s i).toList)).against
      (u :: x :: [] :: rest)).2 = some (.ok ()) := by
  obtain ⟨K, eK, hK⟩ := senderExtend_eq X arm cores sched delta seed msg ms
    ((List.range 128).map fun i => (s i).toList) s w hw hd (fun i hi => by simp [hi])
  obtain ⟨qT, qSum, hq1, hq2, -, -, hKu⟩ := hK u (by omega)
  rw [eK]
  simp only [Proc.against, hKu]
  obtain ⟨out, h1, h2, h3⟩ := apricotMulAcc_elt arm qSum x delta hq2 hx hd
  have e : apEq X.dbg [] out = .ok true := by
    unfold apEq; rw [hrel]; rfl
  unfold apFinish
  rw [debugAssertR_true (by simp [hx]), liftM_ok, ret_bind, show debugAssertR X.dbg (16 = ([] : Bytes).length) = .ok () by
      rw [hrel]; rfl, liftM_ok, ret_bind, h1, liftM_ok, ret_bind, e, liftM_ok, ret_bind, if_pos rfl,
    apRandomize_ok X cores sched delta qT msg ms hc hs hn hms hd (by omega) hm, liftM_ok, ret_bind]
  rfl

example := C24_apricot_empty_accepted (Witness.crypto false) true 4 List.range (List.replicate 16 5) (Witness.bytes 1)
    Witness.messages 2 Witness.bytes 33 (by meets) (by meets) (by meets) (by meets) (by meets) (by meets) (by meets)
    (by meets) (List.replicate (128 * 33) 6) (List.replicate 16 9) Witness.passwords (by meets) (by meets)

/-! ### Cheating receivers -/

/-- C25 is false of src/ot/apricot.rs.  The coefficients are agreed before the receiver sends its matrix.
For every outcome of the coin flip there is a nonempty set `J` of rows such that a receiver may add any
error pattern `e` to the columns of the rows in `J`: from what it knows it computes messages that pass the
check for every secret delta of the sender. -/
theorem C25_apricot_false (X : Crypto) (seed : WireBytes) (w : Nat) (hw' : 32 < w) :
    ∃ J : Finset Nat, J.Nonempty ∧ J ⊆ Finset.range (8 * w) ∧
      ∀ (s0 s1 : Nat → WireBytes) (c e : Nat → Bool), ∃ u x t : Bytes,
        (∀ i < 128, ∀ j < 8 * w, flatBit u w i j =
          (c j ^^ bitAt (X.fill (s0 i) w) j ^^ bitAt (X.fill (s1 i) w) j ^^ (decide (j ∈ J) && e i))) ∧
        ∀ (arm : Bool) (cores : Nat) (sched : Nat → List Nat) (delta : Bytes)
          (msg : List (Bytes × Bytes)) (ms : Nat), msg.length + 256 = 8 * w → 0 < msg.length → 0 < ms →
          (∀ m ∈ msg, m.1.length = ms ∧ m.2.length = ms) → delta.length = 16 → 0 < cores →
          (∀ m, IsOrder m (sched m)) →
          ((apricotSenderExtend X arm cores sched delta seed msg ms
              ((List.range 128).map fun i => (if bitAt delta i then s1 i else s0 i).toList)).against
            [u, x, t]).2 = some (.ok ()) := by
  obtain ⟨J, hJ, hsub, hsum⟩ := dependent_rows (chi (X.fill seed (16 * (8 * w)))) (8 * w) (by omega)
  refine ⟨J, hJ, hsub, ?_⟩
  intro s0 s1 c e
  obtain ⟨u, hu, hub⟩ := bitMatrix_exists 128 w (fun i j =>
    (c j ^^ bitAt (X.fill (s0 i) w) j ^^ bitAt (X.fill (s1 i) w) j ^^ (decide (j ∈ J) && e i)))
  obtain ⟨x, hx, hxs⟩ := elt_surj
    (∑ j ∈ Finset.range (8 * w), if c j then chi (X.fill seed (16 * (8 * w))) j else 0)
  obtain ⟨t, ht, hts⟩ := elt_surj (∑ j ∈ Finset.range (8 * w), bitsElt (fun i => bitAt (X.fill (s0 i) w) j) *
          chi (X.fill seed (16 * (8 * w))) j)
  refine ⟨u, x, t, hub, ?_⟩
  intro arm cores sched delta msg ms hw hn hms hm hd hc hs
  rw [C24_apricot_error_partial X arm cores sched delta seed msg ms s0 s1 w hw hn hms hm hd hc hs c
    (fun i j => decide (j ∈ J) && e i) u x t [] hu hx ht hub hxs hts]
  have : ∀ j, bitsElt (fun i => decide (j ∈ J) && e i && bitAt delta i) *
      chi (X.fill seed (16 * (8 * w))) j =
      if j ∈ J then bitsElt (fun i => e i && bitAt delta i) * chi (X.fill seed (16 * (8 * w))) j else 0 := by
    intro j
    by_cases h : j ∈ J
    · simp [h]
    · simp [h, bitsElt_false]
  simp only [this]
  rw [← Finset.sum_filter, ← Finset.mul_sum]
  have hf : (Finset.range (8 * w)).filter (· ∈ J) = J := by
    ext j; simp only [Finset.mem_filter]
    exact ⟨fun h => h.2, fun h => ⟨hsub h, h⟩⟩
  rw [hf, hsum, mul_zero]

example := C25_apricot_false (Witness.crypto true) (Witness.bytes 1) 33 (by meets)

/-! ### Malformed messages -/

/-- C45, negative: a matrix too short for a column whose secret bit is set makes the sender read out of
bounds, in every build. -/
theorem C45_short_matrix (X : Crypto) (arm : Bool) (cores : Nat) (sched : Nat → List Nat) (delta : Bytes)
    (seed : WireBytes) (msg : List (Bytes × Bytes)) (ms : Nat) (s : Nat → WireBytes) (w : Nat)
    (hw : msg.length + 256 = 8 * w) (hd : delta.length = 16) (u : Bytes) (rest : List Bytes)
    (hu : ∃ i < 128, bitAt delta i = true ∧ u.length < w * (i + 1)) :
    (apricotSenderExtend X arm cores sched delta seed msg ms ((List.range 128).map fun i => (s i).toList)).against
      (u :: rest) = ([], some (.error .ub)) := by
  have e1 : apRows X w ((List.range 128).map fun i => (s i).toList) = _ :=
    apRows_ok X w _ s (fun i hi => by simp [hi])
  unfold apricotSenderExtend
  dsimp only
  rw [hw, Nat.mul_div_cancel_left w (by decide), e1, liftM_ok, ret_bind, recvP_bind]
  simp only [Proc.against]
  rw [apQ_ub X.dbg w delta u _ hd (fun i _ => fill_length ..) hu]
  rfl

example := C45_short_matrix (Witness.crypto true) true 4 List.range (List.replicate 16 5) (Witness.bytes 1) Witness.messages 2
    Witness.bytes 33 (by meets) (by meets) [3, 4] [] ⟨2, by decide, by decide, by decide⟩

/-- C45, positive: a matrix of the right size and check values of sixteen bytes are handled without any
fault but the rejection. -/
theorem C45_well_sized_partial (X : Crypto) (arm : Bool) (cores : Nat) (sched : Nat → List Nat) (delta : Bytes)
    (seed : WireBytes) (msg : List (Bytes × Bytes)) (ms : Nat) (s : Nat → WireBytes) (w : Nat)
    (hw : msg.length + 256 = 8 * w) (hn : 0 < msg.length) (hms : 0 < ms)
    (hm : ∀ m ∈ msg, m.1.length = ms ∧ m.2.length = ms) (hd : delta.length = 16) (hc : 0 < cores)
    (hs : ∀ m, IsOrder m (sched m)) (u x t : Bytes) (rest : List Bytes) (hu : u.length = 128 * w)
    (hx : x.length = 16) (ht : t.length = 16) :
    ((apricotSenderExtend X arm cores sched delta seed msg ms ((List.range 128).map fun i => (s i).toList)).against
        (u :: x :: t :: rest)).2 = some (.ok ()) ∨
    ((apricotSenderExtend X arm cores sched delta seed msg ms ((List.range 128).map fun i => (s i).toList)).against
        (u :: x :: t :: rest)).2 = some (.error (.err .polychromatic)) := by
  obtain ⟨h1, h2⟩ := C24_apricot_check_partial X arm cores sched delta seed msg ms s w hw hn hms hm hd hc hs u x t rest
    hu hx ht
  by_cases he : elt t = (∑ j ∈ Finset.range (8 * w), senderRow (fun i => X.fill (s i) w) delta u w j *
        chi (X.fill seed (16 * (8 * w))) j) + elt x * elt delta
  · obtain ⟨d, -, h⟩ := h1 he
    exact .inl (by rw [h])
  · exact .inr (by rw [h2 he])

example := C45_well_sized_partial (Witness.crypto true) true 4 List.range (List.replicate 16 5) (Witness.bytes 1)
    Witness.messages 2 Witness.bytes 33 (by meets) (by meets) (by meets) (by meets) (by meets) (by meets) (by meets)
    (List.replicate (128 * 33) 6) (List.replicate 16 9) (List.replicate 16 9) Witness.passwords (by meets) (by meets)
    (by meets)

/-! ### The hypotheses can be met -/

/-- Sixteen pairs of four-byte messages: `w = 34`. -/
example : (List.replicate 16 (([1, 2, 3, 4], [5, 6, 7, 8]) : Bytes × Bytes)).length + 256 = 8 * 34 ∧
    (∀ m ∈ List.replicate 16 (([1, 2, 3, 4], [5, 6, 7, 8]) : Bytes × Bytes), m.1.length = 4 ∧ m.2.length = 4) := by
  refine ⟨by simp, fun m hm => ?_⟩
  rw [(List.mem_replicate.mp hm).2]
  exact ⟨rfl, rfl⟩

/-- Orders in which the workers can run: in sequence, or backwards. -/
example : (∀ m, IsOrder m (List.range m)) ∧ ∀ m, IsOrder m (List.range m).reverse := by
  unfold Spec.IsOrder
  exact ⟨fun m => .refl _, fun m => List.reverse_perm _⟩

/-- A bootstrap transfer exists: `C22_over_base_ot` uses the one of src/ot/chou_orlandi.rs. -/
example (C : Curve) (X : Crypto) : CorrectOT 32 128 (coSender C X fun _ => 3) (coReceiver C X fun _ => 5) := by
  intro msg choices hm hc hml
  refine (co_ends C X _ _ msg choices (by omega) (by omega) fun m h => ?_).completes
  obtain ⟨h1, h2⟩ := hml m h
  rw [h1, h2]
  decide

/-- An empty matrix is too short as soon as delta is not zero. -/
example : ∃ i < 128, bitAt (List.replicate 16 (4 : Byte)) i = true ∧ ([] : Bytes).length < 34 * (i + 1) :=
  ⟨2, by decide, by decide, by decide⟩

end FP.Props
