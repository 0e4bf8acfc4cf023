import Verif.Proof.Sizes
import Verif.Props.BaseOT
/-
C58: for which numbers of messages and which message sizes the OT extension works.
-/
namespace FP.Props
open Spec

attribute [local irreducible] Spec.modulus

theorem elt_delta_zero (delta : Vector Byte 16) : elt delta.toList = 0 ↔ delta.toList = List.replicate 16 0 := by
  rw [← elt_zero 16]
  exact ⟨fun h => elt_inj (by simp) (by simp) h, fun h => by rw [h]⟩

theorem gf_mul_zero (a b : GF) : a * b = 0 ↔ a = 0 ∨ b = 0 := by
  have : Fact (Irreducible Spec.modulus) := ⟨modulus_irreducible⟩
  have : NoZeroDivisors GF := inferInstanceAs (NoZeroDivisors (AdjoinRoot Spec.modulus))
  exact mul_eq_zero

/-- C58: how every honest run of the extension ends.  In a build with assertions both parties panic unless the number of
pairs is a multiple of eight.  The sender panics if there is no pair.  The sender accuses the honest receiver if the
coefficients of the last `n % 8` random bits do not cancel (and its own secret is not zero).  It panics if the messages are
empty.  The receiver gets its messages if they have between 1 and 65535 bytes; if they are longer the receiver panics
and the sender reports success. -/
theorem C58_apricot_exact (X : Crypto) (armS armR : Bool) (coresS coresR : Nat) (schedS sched1 sched2 : Nat → List Nat)
    (coinS coinR seed : WireBytes) (delta : Vector Byte 16) (bonus : Vector Bool 256) (seed0 seed1 : Vector WireBytes 128)
    (innerS : List (Bytes × Bytes) → Proc Unit) (innerR : List Bool → Proc (List Bytes))
    (hinner : CorrectOT 32 128 innerS innerR) (msg : List (Bytes × Bytes)) (choices : List Bool) (n len : Nat)
    (hn : msg.length = n) (hn' : choices.length = n) (hfit : n < 2 ^ 64)
    (hlen : ∀ m ∈ msg, m.1.length = len ∧ m.2.length = len) (hcS : 0 < coresS) (hcR : 0 < coresR)
    (hsS : ∀ m, IsOrder m (schedS m)) (hs1 : ∀ m, IsOrder m (sched1 m)) (hs2 : ∀ m, IsOrder m (sched2 m))
    (hseed : seed.toList = List.zipWith (· ^^^ ·) coinR.toList coinS.toList) :
    Outcome (apricotSender X armS coresS schedS coinS delta innerR msg)
      (apricotReceiver X armR coresR sched1 sched2 coinR bonus seed0 seed1 innerS choices)
      (extensionEnds X.dbg n len
        (leftOver (X.fill seed (16 * (n + 256))) n (fun k => bonus.toList.getD k false) = 0 ∨ delta.toList = List.replicate 16 0)
        (chosen msg choices)).1
      (extensionEnds X.dbg n len
        (leftOver (X.fill seed (16 * (n + 256))) n (fun k => bonus.toList.getD k false) = 0 ∨ delta.toList = List.replicate 16 0)
        (chosen msg choices)).2 := by
  subst hn
  generalize hA : (leftOver (X.fill seed (16 * (msg.length + 256))) msg.length (fun k => bonus.toList.getD k false) = 0 ∨
    delta.toList = List.replicate 16 0) = A
  have hA' : A ↔ leftOver (X.fill seed (16 * (msg.length + 256))) msg.length (fun k => bonus.toList.getD k false) *
      elt delta.toList = 0 := by
    rw [gf_mul_zero, elt_delta_zero, ← hA]
  unfold extensionEnds
  by_cases h8 : X.dbg = true ∧ msg.length % 8 ≠ 0
  · rw [if_pos h8]
    have e : ∀ n, n % 8 ≠ 0 → debugAssertR X.dbg (n % 8 = 0) = .error .panic := by
      intro n hn
      have : decide (n % 8 = 0) = false := by simpa using hn
      unfold debugAssertR
      rw [h8.1, this]
      rfl
    refine Outcome.of_steps (d := start (.fail .panic) (.fail .panic)) ?_ (stuck_fail_fail _ _) rfl rfl
    unfold apricotSender apricotReceiver
    rw [e _ h8.2, e _ (by rw [hn']; exact h8.2), liftM_error, fail_bind, fail_bind]
    exact Steps.refl _
  · have h8' : X.dbg = false ∨ msg.length % 8 = 0 := by
      cases h : X.dbg
      · exact .inl rfl
      · exact .inr (by_contra fun hc => h8 ⟨h, hc⟩)
    obtain ⟨hz, hpos⟩ := apricot_gets X armS armR coresS coresR schedS sched1 sched2 coinS coinR delta bonus seed0 seed1
      innerS innerR hinner msg choices len hn'.symm hfit hlen hcS hcR hsS hs1 hs2 h8'
    rw [if_neg h8]
    by_cases h0 : msg.length = 0
    · rw [if_pos h0]
      obtain ⟨k, h⟩ := hz h0
      exact Outcome.of_steps h (stuck_fail_recv _ _) rfl ⟨k, rfl⟩
    · rw [if_neg h0]
      obtain ⟨p', q', hG, hc⟩ := hpos (by omega) seed hseed
      rcases hc with ⟨h1, rfl, k, rfl⟩ | ⟨h1, ⟨h2, rfl, k, rfl⟩ | ⟨h2, h3, rfl, rfl⟩ | ⟨h2, rfl, rfl⟩⟩
      · rw [if_pos (fun h => h1 (hA'.mp h))]
        exact Outcome.of_steps hG (stuck_fail_recv _ _) rfl ⟨k, rfl⟩
      · rw [if_neg (fun h => h (hA'.mpr h1)), if_pos h2]
        exact Outcome.of_steps hG (stuck_fail_recv _ _) rfl ⟨k, rfl⟩
      · rw [if_neg (fun h => h (hA'.mpr h1)), if_neg (by omega), if_pos (by omega)]
        exact Outcome.of_steps hG (stuck_ret_ret _ _) rfl rfl
      · rw [if_neg (fun h => h (hA'.mpr h1)), if_neg (by omega), if_neg (by omega)]
        exact Outcome.of_steps hG (stuck_ret_fail _ _) rfl rfl

theorem outcome_completes {α β : Type} {p : Proc α} {q : Proc β} {x : α} {y : β} {a : End α} {b : End β}
    (h : Outcome p q a b) (hc : Completes p q x y) : a = .returns x ∧ b = .returns y := by
  obtain ⟨n, hr⟩ := hc.ends
  obtain ⟨k, hk⟩ := h
  obtain ⟨ha, hb⟩ := (hk n _ hr).2 (stuck_ret_ret _ _)
  cases a <;> cases b <;> simp_all [At]

/-- The extension works for given sizes, whatever is drawn, on any machine: `n` pairs of messages of `len` bytes. -/
def ExtensionWorks (dbg : Bool) (n len : Nat) (innerS : List (Bytes × Bytes) → Proc Unit)
    (innerR : List Bool → Proc (List Bytes)) : Prop :=
  ∀ (X : Crypto) (armS armR : Bool) (coresS coresR : Nat) (schedS sched1 sched2 : Nat → List Nat)
    (coinS coinR : WireBytes) (delta : Vector Byte 16) (bonus : Vector Bool 256) (seed0 seed1 : Vector WireBytes 128),
    X.dbg = dbg → 0 < coresS → 0 < coresR → (∀ m, IsOrder m (schedS m)) → (∀ m, IsOrder m (sched1 m)) →
    (∀ m, IsOrder m (sched2 m)) →
    CorrectOT len n (apricotSender X armS coresS schedS coinS delta innerR)
      (apricotReceiver X armR coresR sched1 sched2 coinR bonus seed0 seed1 innerS)

/-- A generator whose streams consist of ones. -/
def oneStreams (dbg : Bool) : Crypto where
  dbg := dbg
  sha256 := fun _ => Vector.replicate 32 0
  chacha20 := fun _ _ => 1
  chacha8 := fun _ _ => 0

/-- 256 bits of which only bit `k` is set. -/
def onlyBit (k : Nat) : Vector Bool 256 := Vector.ofFn fun i : Fin 256 => decide (i.val = k)

theorem onlyBit_get (j k : Nat) (hk : k < 256) : (onlyBit j).toList.getD k false = decide (k = j) := by
  unfold onlyBit
  generalize 256 = N at *
  simp [List.getD, hk]

theorem leftOver_ones (seed : WireBytes) (dbg : Bool) (n : Nat) (h : n % 8 ≠ 0) :
    leftOver ((oneStreams dbg).fill seed (16 * (n + 256))) n
      (fun k => (onlyBit (256 - n % 8)).toList.getD k false) ≠ 0 := by
  have hf : ∀ k < n % 8, (fun k => (onlyBit (256 - n % 8)).toList.getD k false) (256 - n % 8 + k) = decide (k = 0) := by
    intro k hk
    refine (onlyBit_get _ _ (by omega)).trans ?_
    simp
  generalize (fun k => (onlyBit (256 - n % 8)).toList.getD k false) = f at hf
  unfold leftOver
  rw [Finset.sum_eq_single 0]
  · rw [hf 0 (by omega), if_pos (by simp)]
    have : row ((oneStreams dbg).fill seed (16 * (n + 256))) 16 (n + 256 - n % 8 + 0) = List.replicate 16 1 := by
      have e : (oneStreams dbg).fill seed (16 * (n + 256)) = List.replicate (16 * (n + 256)) 1 := by
        unfold Crypto.fill oneStreams
        simp
      rw [e]
      unfold row
      rw [List.drop_replicate, List.take_replicate]
      exact congrArg (fun k => List.replicate k (1 : Byte)) (by omega)
    unfold chi
    rw [this, ← elt_zero 16]
    intro h
    have := elt_inj (by simp) (by simp) h
    revert this
    decide
  · intro k hk hk0
    have : k < n % 8 := by simpa using hk
    rw [hf k this, if_neg (by simpa using hk0)]
  · intro h0
    simp at h0
    omega

/-- C58: the extension works for a number of pairs and a size exactly if the number is a positive multiple of eight and the
messages have between 1 and 65535 bytes. -/
theorem C58_sizes (dbg : Bool) (n len : Nat) (hfit : n < 2 ^ 64) (innerS : List (Bytes × Bytes) → Proc Unit)
    (innerR : List Bool → Proc (List Bytes)) (hinner : CorrectOT 32 128 innerS innerR) :
    ExtensionWorks dbg n len innerS innerR ↔ 0 < n ∧ n % 8 = 0 ∧ 0 < len ∧ len < 65536 := by
  constructor
  · intro h
    have hX : (oneStreams dbg).dbg = dbg := rfl
    have ho : ∀ m, IsOrder m (List.range m) := fun m => List.Perm.refl _
    have hlens : ∀ m ∈ List.replicate n ((List.replicate len 0, List.replicate len 0) : Bytes × Bytes),
        m.1.length = len ∧ m.2.length = len := by
      intro m hm
      rw [(List.mem_replicate.mp hm).2]
      simp
    have hc := h (oneStreams dbg) false false 1 1 List.range List.range List.range (Vector.replicate 32 0) (Vector.replicate 32 0)
      (Vector.replicate 16 1) (onlyBit (256 - n % 8)) (Vector.replicate 128 (Vector.replicate 32 0))
      (Vector.replicate 128 (Vector.replicate 32 0)) hX (by decide) (by decide) ho ho ho
      (List.replicate n (List.replicate len 0, List.replicate len 0)) (List.replicate n false) (by simp) (by simp) hlens
    have hout := C58_apricot_exact (oneStreams dbg) false false 1 1 List.range List.range List.range (Vector.replicate 32 0) (Vector.replicate 32 0)
      (Vector.replicate 32 0)
      (Vector.replicate 16 1) (onlyBit (256 - n % 8)) (Vector.replicate 128 (Vector.replicate 32 0))
      (Vector.replicate 128 (Vector.replicate 32 0)) innerS innerR hinner
      (List.replicate n (List.replicate len 0, List.replicate len 0)) (List.replicate n false) n len (by simp) (by simp) hfit hlens
      (by decide) (by decide) ho ho ho (by decide)
    obtain ⟨h1, h2⟩ := outcome_completes hout hc
    unfold extensionEnds at h1 h2
    rw [hX] at h1 h2
    by_cases h8 : n % 8 = 0
    · rw [if_neg (by simp [h8])] at h1 h2
      by_cases h0 : n = 0
      · rw [if_pos h0] at h1
        cases h1
      · rw [if_neg h0] at h1 h2
        rw [if_neg (by
          rw [not_not]
          left
          unfold leftOver
          rw [h8]
          rfl)] at h1 h2
        by_cases hl : len = 0
        · rw [if_pos hl] at h1
          cases h1
        · rw [if_neg hl] at h1 h2
          by_cases hl' : len < 65536
          · exact ⟨by omega, h8, by omega, hl'⟩
          · rw [if_neg hl'] at h2
            cases h2
    · exfalso
      cases dbg with
      | true =>
        rw [if_pos ⟨rfl, h8⟩] at h1
        cases h1
      | false =>
        rw [if_neg (by simp), if_neg (by rintro rfl; exact h8 rfl), if_pos (by
          rintro (h | h)
          · exact leftOver_ones _ _ n h8 h
          · revert h
            decide)] at h1
        cases h1
  · rintro ⟨h0, h8, hl, hl'⟩
    intro X armS armR coresS coresR schedS sched1 sched2 coinS coinR delta bonus seed0 seed1 _ hcS hcR hsS hs1 hs2 msg choices
      hm hc hml
    exact (apricot_ends X armS armR coresS coresR schedS sched1 sched2 coinS coinR delta bonus seed0 seed1 innerS innerR
      hinner msg choices len (by omega) (Nat.dvd_of_mod_eq_zero (by omega)) (by omega) hl (by omega) (by omega) hml
      hcS hcR hsS hs1 hs2).completes

/-- C58 for three pairs of messages of four bytes in a release build: an honest receiver is accused of cheating. -/
theorem C58_fails_accuses (innerS : List (Bytes × Bytes) → Proc Unit) (innerR : List Bool → Proc (List Bytes))
    (hinner : CorrectOT 32 128 innerS innerR) :
    ∃ (X : Crypto) (coinS coinR : WireBytes) (delta : Vector Byte 16) (bonus : Vector Bool 256) (seed0 seed1 : Vector WireBytes 128)
      (msg : List (Bytes × Bytes)) (choices : List Bool),
      X.dbg = false ∧ msg.length = 3 ∧ choices.length = 3 ∧ (∀ m ∈ msg, m.1.length = 4 ∧ m.2.length = 4) ∧
      Outcome (apricotSender X false 1 List.range coinS delta innerR msg)
        (apricotReceiver X false 1 List.range List.range coinR bonus seed0 seed1 innerS choices)
        (.fails (.err .polychromatic)) .waits := by
  have ho : ∀ m, IsOrder m (List.range m) := fun m => List.Perm.refl _
  have hlens : ∀ m ∈ List.replicate 3 (([1, 2, 3, 4], [5, 6, 7, 8]) : Bytes × Bytes), m.1.length = 4 ∧ m.2.length = 4 := by
    intro m hm
    rw [(List.mem_replicate.mp hm).2]
    exact ⟨rfl, rfl⟩
  refine ⟨oneStreams false, Vector.replicate 32 0, Vector.replicate 32 0, Vector.replicate 16 1,
    onlyBit (256 - 3 % 8), Vector.replicate 128 (Vector.replicate 32 0),
    Vector.replicate 128 (Vector.replicate 32 0), List.replicate 3 ([1, 2, 3, 4], [5, 6, 7, 8]), [true, false, true], rfl, rfl, rfl,
    hlens, ?_⟩
  have hout := C58_apricot_exact (oneStreams false) false false 1 1 List.range List.range List.range (Vector.replicate 32 0)
    (Vector.replicate 32 0) (Vector.replicate 32 0) (Vector.replicate 16 1)
    (onlyBit (256 - 3 % 8)) (Vector.replicate 128 (Vector.replicate 32 0))
    (Vector.replicate 128 (Vector.replicate 32 0)) innerS innerR hinner _ [true, false, true] 3 4 rfl rfl (by decide) hlens
    (by decide) (by decide) ho ho ho (by decide)
  unfold extensionEnds at hout
  rw [if_neg (by decide), if_neg (by decide), if_pos (by
    rintro (h | h)
    · exact leftOver_ones _ _ 3 (by decide) h
    · revert h
      decide)] at hout
  exact hout

/-- The hypothesis of the theorems above: a correct bootstrap transfer exists. -/
example (C : Curve) (X : Crypto) : CorrectOT 32 128 (coSender C X fun _ => 3) (coReceiver C X fun _ => 5) := by
  intro msg choices hm hc hml
  refine (co_ends C X _ _ msg choices (by omega) (by omega) fun m h => ?_).completes
  obtain ⟨h1, h2⟩ := hml m h
  rw [h1, h2]
  decide

end FP.Props
