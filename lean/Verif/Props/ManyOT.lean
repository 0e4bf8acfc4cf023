import Verif.Proof.Witness
import Verif.Proof.ManyOT
import Verif.Spec.Workers
import Verif.Props.BaseOT
import Verif.Props.Util
/-
C26: 1-out-of-n oblivious transfer.  C27: the number of cores (the 1-out-of-n part).
-/
namespace FP.Props
open FP

/-! ### Relating the specification's worker counts to the model's -/

theorem threads_eq (cores d : Nat) : manyThreads cores d = min (2 ^ d) cores := by
  unfold manyThreads; split <;> omega

theorem rows_eq (cores d : Nat) : manyRows cores d = Spec.rowsPerWorker cores (2 ^ d) := by
  unfold manyRows Spec.rowsPerWorker; rw [threads_eq]

theorem jobs_eq (cores d len : Nat) (hl : 0 < len) (hc : 0 < cores) :
    manyJobs cores d len = Spec.workers cores (2 ^ d) := by
  unfold manyJobs Spec.workers
  rw [← rows_eq]
  have hk0 : 0 < manyRows cores d := manyRows_pos hc
  generalize manyRows cores d = k at *
  have hkl : 0 < k * len := Nat.mul_pos hk0 hl
  apply le_antisymm
  · have h1 : 2 ^ d ≤ ((2 ^ d + k - 1) / k) * k := by
      have := Nat.div_add_mod (2 ^ d + k - 1) k
      have := Nat.mod_lt (2 ^ d + k - 1) hk0
      rw [Nat.mul_comm k] at *
      omega
    generalize (2 ^ d + k - 1) / k = J at *
    apply Nat.le_of_lt_succ
    rw [Nat.div_lt_iff_lt_mul hkl, Nat.succ_mul]
    have : 2 ^ d * len ≤ J * k * len := Nat.mul_le_mul_right _ h1
    rw [Nat.mul_assoc] at this
    omega
  · rw [Nat.le_div_iff_mul_le hkl]
    have h1 : ((2 ^ d + k - 1) / k) * k ≤ 2 ^ d + k - 1 := Nat.div_mul_le_self _ _
    generalize (2 ^ d + k - 1) / k = J at *
    have : J * k * len ≤ (2 ^ d + k - 1) * len := Nat.mul_le_mul_right _ h1
    rw [Nat.mul_assoc, Nat.sub_mul, Nat.add_mul, Nat.one_mul] at this
    omega

theorem log2R_le (dbg : Bool) (n d : Nat) (hn : 0 < n) (h64 : n < 2 ^ 64)
    (h : log2R dbg 64 n = .ok d) : n ≤ 2 ^ d ∧ (∀ k, n ≤ 2 ^ k → d ≤ k) := by
  obtain ⟨k, h1, h2, h3⟩ := C11_log2 dbg 64 n hn h64
  rw [h1] at h
  injection h with h
  subst h
  exact ⟨h2, h3⟩

theorem log2R_pow (dbg : Bool) (n d : Nat) (hn : 0 < n) (h64 : n < 2 ^ 64)
    (h : log2R dbg 64 n = .ok d) : (∃ k, n = 2 ^ k) ↔ n = 2 ^ d := by
  obtain ⟨h1, h2⟩ := log2R_le dbg n d hn h64 h
  refine ⟨?_, fun h => ⟨d, h⟩⟩
  rintro ⟨k, rfl⟩
  have := h2 k (Nat.le_refl _)
  exact le_antisymm h1 (Nat.pow_le_pow_right (by decide) this)

/-! ### C26 -/

/-- C26, for message counts that are powers of two and, beyond four messages, rows that split cleanly
over the cores: over any correct bootstrap OT, in every schedule of the two parties and every order of the worker
threads, the receiver obtains exactly the message at its index.

Missing from the full claim: counts that are not a power of two (`C26_not_power_of_two`: the
exchange always fails) and machines on which the rows do not split cleanly
(`C27_out_of_bounds`). `C26_exact` shows that nothing else is missing. -/
theorem C26_one_of_many_partial (X : Crypto) (cores : Nat) (order : List Nat)
    (keys : Nat → WireBytes × WireBytes) (S : List (Bytes × Bytes) → Proc Unit)
    (V : List Bool → Proc (List Bytes)) (messages : List Bytes) (domain len index : Nat)
    (hdom : log2R X.dbg 64 messages.length = .ok domain) (hd : domain ≤ 32)
    (hot : Spec.CorrectOT 32 domain S V)
    (hlen : ∀ m ∈ messages, m.length = len) (hi : index < messages.length)
    (hsize : messages.length * len < 2 ^ 64) (hcores : 0 < cores) (hl : 0 < len)
    (horder : Spec.IsOrder (Spec.workers cores messages.length) order)
    (hpow : ∃ k, messages.length = 2 ^ k) (hsplit : messages.length ≤ 4 ∨ Spec.CleanSplit X.dbg cores messages.length) :
    Spec.Completes (manySender X cores order keys S messages domain)
      (manyReceiver X V index domain) () messages[index] := by
  have h64 : messages.length < 2 ^ 64 := by
    have : messages.length * 1 ≤ messages.length * len := Nat.mul_le_mul_left _ hl
    omega
  have hn := (log2R_pow X.dbg _ domain (by omega) h64 hdom).mp hpow
  rw [hn] at hsize horder hsplit
  have := many_ends X cores order keys S V messages domain len index hot hd hcores hlen (by omega)
    (by omega) hsize (fun h2 => by
      have hs : Spec.CleanSplit X.dbg cores (2 ^ domain) := by
        rcases hsplit with h4 | hs
        · have : 2 ^ 3 ≤ 2 ^ domain := Nat.pow_le_pow_right (by decide) (by omega)
          omega
        · exact hs
      exact ⟨hl, fun h => by rw [threads_eq]; exact hs.2 h, by rw [rows_eq]; exact hs.1,
        by rw [jobs_eq _ _ _ hl hcores]; exact horder⟩)
  rw [show messages.getD index [] = messages[index] by simp [hi]] at this
  exact this.completes

example := C26_one_of_many_partial (Witness.crypto true) 2 [1, 0] (fun j => (Witness.bytes j, Witness.bytes (j + 9)))
    (coSender Witness.curve (Witness.crypto true) (· + 3)) (coReceiver Witness.curve (Witness.crypto true) (· + 5))
    Witness.passwords 2 2 3 (by decide) (by meets)
    (fun msg choices hm hc hml => C20_base_ot _ _ _ _ _ _ (by omega) (by omega) fun m h => by
      obtain ⟨h1, h2⟩ := hml m h; rw [h1, h2]; decide)
    (by meets) (by meets) (by meets) (by meets) (by meets) (List.Perm.swap 0 1 []) ⟨2, rfl⟩ (.inl (by decide))

/-- C26 with the base OT of the library as bootstrap, as in the many-password protocols. -/
theorem C26_with_base_ot_partial (C : Curve) (X : Crypto) (a b : Nat → Nat) (cores : Nat) (order : List Nat)
    (keys : Nat → WireBytes × WireBytes) (messages : List Bytes) (domain len index : Nat)
    (hdom : log2R X.dbg 64 messages.length = .ok domain) (hd : domain ≤ 32)
    (hlen : ∀ m ∈ messages, m.length = len) (hi : index < messages.length)
    (hsize : messages.length * len < 2 ^ 64) (hcores : 0 < cores) (hl : 0 < len)
    (horder : Spec.IsOrder (Spec.workers cores messages.length) order)
    (hpow : ∃ k, messages.length = 2 ^ k) (hsplit : messages.length ≤ 4 ∨ Spec.CleanSplit X.dbg cores messages.length) :
    Spec.Completes (manySender X cores order keys (coSender C X a) messages domain)
      (manyReceiver X (coReceiver C X b) index domain) () messages[index] := by
  refine C26_one_of_many_partial X cores order keys _ _ messages domain len index hdom hd ?_ hlen hi
    hsize hcores hl horder hpow hsplit
  intro msg choices h1 h2 hm
  refine C20_base_ot C X a b msg choices (by omega) (by omega) fun m h => ?_
  obtain ⟨e1, e2⟩ := hm m h
  rw [e1, e2]
  omega

example := C26_with_base_ot_partial Witness.curve (Witness.crypto true) (· + 3) (· + 5) 2 [1, 0]
    (fun j => (Witness.bytes j, Witness.bytes (j + 9))) Witness.passwords 2 2 3 (by decide) (by meets) (by meets) (by meets)
    (by meets) (by meets) (by meets) (List.Perm.swap 0 1 []) ⟨2, rfl⟩ (.inl (by decide))

private theorem sender_fails (X : Crypto) (cores : Nat) (order : List Nat)
    (keys : Nat → WireBytes × WireBytes) (S : List (Bytes × Bytes) → Proc Unit) {β : Type} (q : Proc β)
    (messages : List Bytes) (domain : Nat) (u : Unit) (r : β)
    (h : ∀ y, manyY X cores order messages (keyList keys domain) domain ≠ .ok y) :
    ¬ Spec.Completes (manySender X cores order keys S messages domain) q u r := by
  intro hc
  unfold manySender at hc
  have hk : ((List.range domain).map fun j => ((keys j).1.toList, (keys j).2.toList)) =
    keyList keys domain := rfl
  simp only [hk] at hc
  cases hy : manyY X cores order messages (keyList keys domain) domain with
  | ok y => exact h y hy
  | error e =>
    rw [hy, show (liftM (Except.error e : R Bytes) : Proc Bytes) = .fail e from rfl, fail_bind] at hc
    obtain ⟨n, hrun⟩ := hc.ends
    have key : ∀ (n : Nat) (c d : Conf Unit β), StepsN n c d → c.left = .fail e → d.left = .fail e := by
      intro n c d hs
      induction hs with
      | refl _ => exact id
      | step h1 _ ih =>
        intro hl
        apply ih
        cases h1 <;> simp_all
    have := key n _ _ hrun rfl
    cases this

theorem bad_split (X : Crypto) (cores : Nat) (order : List Nat) (messages : List Bytes)
    (keys : Nat → WireBytes × WireBytes) (domain len : Nat) (hd : domain < 64) (hd2 : 2 < domain)
    (hc : 0 < cores) (hl : 0 < len) (hlen : ∀ m ∈ messages, m.length = len)
    (hn : 2 ^ domain ≤ messages.length) (hsize : 2 ^ domain * len < 2 ^ 64)
    (hsplit : ¬ Spec.CleanSplit X.dbg cores (2 ^ domain))
    (horder : Spec.IsOrder (Spec.workers cores (2 ^ domain)) order) (y : Bytes) :
    manyY X cores order messages (keyList keys domain) domain ≠ .ok y := by
  have hpos : 0 < 2 ^ domain := by positivity
  intro h
  cases hx : X.dbg with
  | true =>
    have hnd : ¬ manyThreads cores domain ∣ 2 ^ domain := by
      intro hdv
      apply hsplit
      have hdv' := hdv
      rw [threads_eq] at hdv'
      refine ⟨?_, fun _ => hdv'⟩
      unfold Spec.rowsPerWorker
      exact Nat.div_dvd_of_dvd hdv'
    rw [manyY_eq X cores order messages _ domain len hd hlen (by omega) hsize, if_neg (by omega), hx] at h
    have : debugAssertR true (decide (2 ^ domain % manyThreads cores domain = 0)) = panicR := by
      simp [debugAssertR, assertR, ← Nat.dvd_iff_mod_eq_zero, hnd]
    rw [this] at h
    cases h
  | false =>
    have hnd : ¬ manyRows cores domain ∣ 2 ^ domain := by
      intro hdv
      rw [rows_eq] at hdv
      exact hsplit ⟨hdv, by simp [hx]⟩
    rw [manyY_ub X cores order messages keys domain len hd hd2 hc hl hlen hn hsize hx hnd
      (by rw [jobs_eq _ _ _ hl hc]; exact horder)] at h
    cases h

/-- The sender has no answer for a number of messages that is not a power of two, or that exceeds four and
does not split over the cores. -/
theorem manyY_refuses (X : Crypto) (cores : Nat) (order : List Nat)
    (keys : Nat → WireBytes × WireBytes) (messages : List Bytes) (domain len : Nat)
    (hdom : log2R X.dbg 64 messages.length = .ok domain) (hd : domain ≤ 32)
    (hlen : ∀ m ∈ messages, m.length = len) (hn : 0 < messages.length)
    (hsize : 2 * messages.length * len < 2 ^ 64) (hcores : 0 < cores) (hl : 0 < len)
    (horder : Spec.IsOrder (Spec.workers cores (2 ^ domain)) order)
    (hbad : ¬ ((∃ k, messages.length = 2 ^ k) ∧
      (messages.length ≤ 4 ∨ Spec.CleanSplit X.dbg cores messages.length))) (y : Bytes) :
    manyY X cores order messages (keyList keys domain) domain ≠ .ok y := by
  have h64 : messages.length < 2 ^ 64 := by
    have : messages.length * 1 ≤ messages.length * len := Nat.mul_le_mul_left _ hl
    rw [Nat.mul_assoc] at hsize
    omega
  have hsz' : messages.length * len < 2 ^ 64 := by rw [Nat.mul_assoc] at hsize; omega
  by_cases hpow : ∃ k, messages.length = 2 ^ k
  · have hn2 := (log2R_pow X.dbg _ domain (by omega) h64 hdom).mp hpow
    have hno : ¬ (messages.length ≤ 4 ∨ Spec.CleanSplit X.dbg cores messages.length) := fun h => hbad ⟨hpow, h⟩
    push Not at hno
    obtain ⟨h4, hns⟩ := hno
    rw [hn2] at h4 hns hsz'
    have hd2 : 2 < domain := by
      by_contra hle
      have : 2 ^ domain ≤ 2 ^ 2 := Nat.pow_le_pow_right (by decide) (by omega)
      omega
    exact bad_split X cores order messages keys domain len (by omega) hd2 hcores hl hlen (by omega) hsz' hns horder y
  · obtain ⟨h1, h2⟩ := log2R_le X.dbg _ domain hn h64 hdom
    have hne : messages.length ≠ 2 ^ domain := fun h => hpow ⟨domain, h⟩
    have hd0 : domain ≠ 0 := by
      rintro rfl
      simp at h1 hne
      omega
    have hsmall : 2 ^ domain ≤ 2 * messages.length := by
      by_contra hlt
      have := h2 (domain - 1) (by
        have : 2 ^ domain = 2 * 2 ^ (domain - 1) := by
          rw [← Nat.pow_succ', Nat.succ_eq_add_one, Nat.sub_add_cancel (by omega)]
        omega)
      omega
    have hsz : 2 ^ domain * len < 2 ^ 64 := by
      have : 2 ^ domain * len ≤ 2 * messages.length * len := Nat.mul_le_mul_right _ hsmall
      omega
    exact manyY_short X cores order messages _ domain len (by omega) hcores hlen (by omega) hsz
      (by rw [jobs_eq _ _ _ hl hcores]; exact horder) y

/-- The claim of C26 is false when the number of messages is not a power of two: whatever the other
party, the schedule and the number of cores, the sender does not finish. -/
theorem C26_not_power_of_two (X : Crypto) (cores : Nat) (order : List Nat)
    (keys : Nat → WireBytes × WireBytes) (S : List (Bytes × Bytes) → Proc Unit) {β : Type} (q : Proc β)
    (messages : List Bytes) (domain len : Nat)
    (hdom : log2R X.dbg 64 messages.length = .ok domain) (hd : domain ≤ 32)
    (hlen : ∀ m ∈ messages, m.length = len) (hn : 0 < messages.length)
    (hsize : 2 * messages.length * len < 2 ^ 64) (hcores : 0 < cores) (hl : 0 < len)
    (horder : Spec.IsOrder (Spec.workers cores (2 ^ domain)) order)
    (hpow : ¬ ∃ k, messages.length = 2 ^ k) (u : Unit) (r : β) :
    ¬ Spec.Completes (manySender X cores order keys S messages domain) q u r := by
  exact sender_fails X cores order keys S q messages domain u r
    (manyY_refuses X cores order keys messages domain len hdom hd hlen hn hsize hcores hl horder fun h => hpow h.1)

example := C26_not_power_of_two (Witness.crypto true) 2 [1, 0] (fun j => (Witness.bytes j, Witness.bytes (j + 9)))
    (coSender Witness.curve (Witness.crypto true) (· + 3)) (manyReceiver (Witness.crypto true)
      (coReceiver Witness.curve (Witness.crypto true) (· + 5)) 1 2)
    Witness.three 2 2 (by decide) (by meets) (by meets) (by meets) (by meets) (by meets) (by meets) (List.Perm.swap 0 1 [])
    (fun h => Witness.three_refused true 2 ⟨h, .inl (by decide)⟩) () [3, 4]

/-- C26 exactly: with non-empty messages, the exchange delivers the chosen message if and only if
the number of messages is a power of two and either there are at most four of them or the rows
split cleanly over the cores. -/
theorem C26_exact (X : Crypto) (cores : Nat) (order : List Nat)
    (keys : Nat → WireBytes × WireBytes) (S : List (Bytes × Bytes) → Proc Unit)
    (V : List Bool → Proc (List Bytes)) (messages : List Bytes) (domain len index : Nat)
    (hdom : log2R X.dbg 64 messages.length = .ok domain) (hd : domain ≤ 32)
    (hot : Spec.CorrectOT 32 domain S V)
    (hlen : ∀ m ∈ messages, m.length = len) (hi : index < messages.length)
    (hsize : 2 * messages.length * len < 2 ^ 64) (hcores : 0 < cores) (hl : 0 < len)
    (horder : Spec.IsOrder (Spec.workers cores (2 ^ domain)) order) :
    Spec.Completes (manySender X cores order keys S messages domain)
      (manyReceiver X V index domain) () messages[index] ↔
    (∃ k, messages.length = 2 ^ k) ∧
      (messages.length ≤ 4 ∨ Spec.CleanSplit X.dbg cores messages.length) := by
  have h64 : messages.length < 2 ^ 64 := by
    have : messages.length * 1 ≤ messages.length * len := Nat.mul_le_mul_left _ hl
    rw [Nat.mul_assoc] at hsize
    omega
  have hsz' : messages.length * len < 2 ^ 64 := by rw [Nat.mul_assoc] at hsize; omega
  constructor
  · intro h
    by_contra hbad
    exact sender_fails X cores order keys S _ messages domain _ _
      (manyY_refuses X cores order keys messages domain len hdom hd hlen (by omega) hsize hcores hl horder hbad) h
  · rintro ⟨hpow, hs⟩
    have hn := (log2R_pow X.dbg _ domain (by omega) h64 hdom).mp hpow
    exact C26_one_of_many_partial X cores order keys S V messages domain len index hdom hd hot hlen hi hsz' hcores hl
      (by rw [hn]; exact horder) hpow hs

example := C26_exact (Witness.crypto true) 2 [1, 0] (fun j => (Witness.bytes j, Witness.bytes (j + 9)))
    (coSender Witness.curve (Witness.crypto true) (· + 3)) (coReceiver Witness.curve (Witness.crypto true) (· + 5))
    Witness.three 2 2 1 (by decide) (by meets)
    (fun msg choices hm hc hml => C20_base_ot _ _ _ _ _ _ (by omega) (by omega) fun m h => by
      obtain ⟨h1, h2⟩ := hml m h; rw [h1, h2]; decide)
    (by meets) (by meets) (by meets) (by meets) (by meets) (List.Perm.swap 0 1 [])

/-! ### C27 -/

/-- C27 for the 1-out-of-n transfer: on machines on which the rows split cleanly, the message sent
is the same for every number of cores and every order of the workers. -/
theorem C27_many_partial (X : Crypto) (cores cores' : Nat) (order order' : List Nat)
    (keys : Nat → WireBytes × WireBytes) (S : List (Bytes × Bytes) → Proc Unit)
    (messages : List Bytes) (domain len : Nat) (hd : domain ≤ 32)
    (hlen : ∀ m ∈ messages, m.length = len) (hn : 2 ^ domain ≤ messages.length)
    (hsize : 2 ^ domain * len < 2 ^ 64) (hl : 0 < len)
    (hc : 0 < cores) (ho : Spec.IsOrder (Spec.workers cores (2 ^ domain)) order)
    (hs : Spec.CleanSplit X.dbg cores (2 ^ domain))
    (hc' : 0 < cores') (ho' : Spec.IsOrder (Spec.workers cores' (2 ^ domain)) order')
    (hs' : Spec.CleanSplit X.dbg cores' (2 ^ domain)) :
    manySender X cores order keys S messages domain = manySender X cores' order' keys S messages domain ∧
    ∀ e, manySender X cores order keys S messages domain ≠ .fail e := by
  have hk : ((List.range domain).map fun j => ((keys j).1.toList, (keys j).2.toList)) =
    keyList keys domain := rfl
  have h1 := manyY_ok X cores order messages keys domain len (by omega) hc hlen hn hsize
    (fun _ => ⟨hl, fun h => by rw [threads_eq]; exact hs.2 h,
      by rw [rows_eq]; exact hs.1, by rw [jobs_eq _ _ _ hl hc]; exact ho⟩)
  have h2 := manyY_ok X cores' order' messages keys domain len (by omega) hc' hlen hn hsize
    (fun _ => ⟨hl, fun h => by rw [threads_eq]; exact hs'.2 h,
      by rw [rows_eq]; exact hs'.1, by rw [jobs_eq _ _ _ hl hc']; exact ho'⟩)
  unfold manySender
  simp only [hk]
  rw [h1, h2, liftM_ok, ret_bind, sendP_bind]
  exact ⟨rfl, fun e h => by cases h⟩

example := C27_many_partial (Witness.crypto true) 2 4 [1, 0] [2, 0, 3, 1] (fun j => (Witness.bytes j, Witness.bytes (j + 9)))
    (coSender Witness.curve (Witness.crypto true) (· + 3)) Witness.passwords 2 2 (by meets) (by meets) (by meets) (by meets)
    (by meets) (by meets) (List.Perm.swap 0 1 []) (by unfold Spec.CleanSplit; decide) (by meets)
    (by unfold Spec.IsOrder; decide) (by unfold Spec.CleanSplit; decide)

/-- The claim of C27 is false for the 1-out-of-n transfer: in a release build, whenever more than
four rows do not split cleanly over the cores, some worker accesses memory outside the buffer, in
every order in which the workers run. -/
theorem C27_out_of_bounds (X : Crypto) (cores : Nat) (order : List Nat)
    (keys : Nat → WireBytes × WireBytes) (S : List (Bytes × Bytes) → Proc Unit)
    (messages : List Bytes) (domain len : Nat) (hd : domain ≤ 32) (h4 : 4 < 2 ^ domain)
    (hlen : ∀ m ∈ messages, m.length = len) (hn : 2 ^ domain ≤ messages.length)
    (hsize : 2 ^ domain * len < 2 ^ 64) (hl : 0 < len) (hrel : X.dbg = false)
    (hc : 0 < cores) (ho : Spec.IsOrder (Spec.workers cores (2 ^ domain)) order)
    (hs : ¬ Spec.rowsPerWorker cores (2 ^ domain) ∣ 2 ^ domain) :
    manySender X cores order keys S messages domain = .fail .ub := by
  have hk : ((List.range domain).map fun j => ((keys j).1.toList, (keys j).2.toList)) =
    keyList keys domain := rfl
  have hd2 : 2 < domain := by
    by_contra hle
    have : 2 ^ domain ≤ 2 ^ 2 := Nat.pow_le_pow_right (by decide) (by omega)
    omega
  have := manyY_ub X cores order messages keys domain len (by omega) hd2 hc hl hlen hn hsize hrel
    (by rw [rows_eq]; exact hs) (by rw [jobs_eq _ _ _ hl hc]; exact ho)
  unfold manySender
  simp only [hk]
  rw [this]
  rfl

example := C27_out_of_bounds (Witness.crypto false) 3 [2, 0, 1, 3] (fun j => (Witness.bytes j, Witness.bytes (j + 9)))
    (coSender Witness.curve (Witness.crypto false) (· + 3)) (List.replicate 16 [1, 2]) 4 2 (by meets) (by meets)
    (by meets) (by meets) (by meets) (by meets) rfl (by meets) (by unfold Spec.IsOrder; decide) (by decide)

/-- A machine with five cores and sixteen one-byte messages is such a case. -/
theorem C27_five_cores (X : Crypto) (hrel : X.dbg = false) (keys : Nat → WireBytes × WireBytes)
    (S : List (Bytes × Bytes) → Proc Unit) :
    manySender X 5 [0, 1, 2, 3, 4, 5] keys S (List.replicate 16 [7]) 4 = .fail .ub :=
  C27_out_of_bounds X 5 _ keys S _ 4 1 (by decide) (by decide) (by simp [List.mem_replicate]) (by simp)
    (by decide) (by decide) hrel (by decide) (by unfold Spec.IsOrder; decide)
    (by unfold Spec.rowsPerWorker; decide)

/-! ### The hypotheses can be met -/

/-- Eight cores, sixteen messages. -/
example : Spec.CleanSplit true 8 16 ∧ Spec.workers 8 16 = 8 ∧
    Spec.IsOrder (Spec.workers 8 16) [3, 1, 0, 2, 7, 5, 6, 4] ∧ log2R true 64 16 = .ok 4 := by
  unfold Spec.IsOrder Spec.CleanSplit; decide

/-- Six cores, sixteen messages: the rows split cleanly over eight workers in a release build. -/
example : Spec.CleanSplit false 6 16 ∧ ¬ Spec.CleanSplit true 6 16 ∧ Spec.workers 6 16 = 8 := by
  unfold Spec.CleanSplit; decide

/-- Three messages are a list for which the exchange fails. -/
example : log2R true 64 3 = .ok 2 ∧ ¬ ∃ k, 3 = 2 ^ k := by
  refine ⟨by decide, ?_⟩
  rintro ⟨k, hk⟩
  rcases k with _ | _ | k
  · simp at hk
  · simp at hk
  · rw [Nat.pow_succ, Nat.pow_succ] at hk
    omega

end FP.Props
