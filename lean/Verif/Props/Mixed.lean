import Verif.Proof.Mixed
import Verif.Props.Sizes
/-
C66: messages of different sizes in one transfer of the OT extension.
-/
namespace FP.Props
open Spec

attribute [local irreducible] Spec.modulus

/-- C66: how every honest run of the extension ends, for messages of arbitrary sizes.  The size of the very first message
counts for all.  If any message is longer, or in a build with assertions of any other size, the sender panics after the
check and the receiver is left waiting.  Otherwise the receiver gets its messages with zeros added up to that size. -/
theorem C66_mixed_exact (X : Crypto) (armS armR : Bool) (coresS coresR : Nat) (schedS sched1 sched2 : Nat → List Nat)
    (coinS coinR seed : WireBytes) (delta : Vector Byte 16) (bonus : Vector Bool 256) (seed0 seed1 : Vector WireBytes 128)
    (innerS : List (Bytes × Bytes) → Proc Unit) (innerR : List Bool → Proc (List Bytes))
    (hinner : CorrectOT 32 128 innerS innerR) (msg : List (Bytes × Bytes)) (choices : List Bool) (n len : Nat)
    (hn : msg.length = n) (hn' : choices.length = n) (hfit : n < 2 ^ 64)
    (hlen : ∀ m ∈ msg.head?, m.1.length = len) (hcS : 0 < coresS) (hcR : 0 < coresR)
    (hsS : ∀ m, IsOrder m (schedS m)) (hs1 : ∀ m, IsOrder m (sched1 m)) (hs2 : ∀ m, IsOrder m (sched2 m))
    (hseed : seed.toList = List.zipWith (· ^^^ ·) coinR.toList coinS.toList) :
    Outcome (apricotSender X armS coresS schedS coinS delta innerR msg)
      (apricotReceiver X armR coresR sched1 sched2 coinR bonus seed0 seed1 innerS choices)
      (mixedEnds X.dbg msg choices len
        (leftOver (X.fill seed (16 * (n + 256))) n (fun k => bonus.toList.getD k false) = 0 ∨ delta.toList = List.replicate 16 0)).1
      (mixedEnds X.dbg msg choices len
        (leftOver (X.fill seed (16 * (n + 256))) n (fun k => bonus.toList.getD k false) = 0 ∨ delta.toList = List.replicate 16 0)).2
      := by
  subst hn
  generalize hA : (leftOver (X.fill seed (16 * (msg.length + 256))) msg.length (fun k => bonus.toList.getD k false) = 0 ∨
    delta.toList = List.replicate 16 0) = A
  have hA' : A ↔ leftOver (X.fill seed (16 * (msg.length + 256))) msg.length (fun k => bonus.toList.getD k false) *
      elt delta.toList = 0 := by
    rw [gf_mul_zero, elt_delta_zero, ← hA]
  by_cases hbad : ∃ m ∈ msg, Unfit X.dbg len m.1 ∨ Unfit X.dbg len m.2
  · unfold mixedEnds
    by_cases h8 : X.dbg = true ∧ msg.length % 8 ≠ 0
    · rw [if_pos h8]
      have e : ∀ n, n % 8 ≠ 0 → debugAssertR X.dbg (n % 8 = 0) = .error .panic := by
        intro n hn
        have : decide (n % 8 = 0) = false := by simpa using hn
        unfold debugAssertR
        rw [h8.1, this]
        rfl
      refine Outcome.of_steps (d := start (.fail .panic) (.fail .panic)) ?_ (stuck_fail_fail _ _) rfl rfl
      unfold apricotSender apricotReceiver
      rw [e _ h8.2, e _ (by rw [hn']; exact h8.2), liftM_error, fail_bind, fail_bind]
      exact Steps.refl _
    · have h8' : X.dbg = false ∨ msg.length % 8 = 0 := by
        cases h : X.dbg
        · exact .inl rfl
        · exact .inr (by_contra fun hc => h8 ⟨h, hc⟩)
      have hne : msg ≠ [] := by
        rintro rfl
        obtain ⟨m, hm, -⟩ := hbad
        cases hm
      have hpos : 0 < msg.length := List.length_pos_iff.mpr hne
      have hm0 : msg[0].1.length = len := hlen _ (by rw [List.head?_eq_getElem?]; simp)
      obtain ⟨qT, qSum, packed, t, x, ts, hq1, hq2, hx, hts, hp1, hp2, ht1, hrow, hcheck, run⟩ :=
        apricot_reaches X armS armR coresS coresR schedS sched1 sched2 coinS coinR seed delta bonus seed0 seed1 innerS innerR
          hinner msg choices len hn'.symm hfit hpos hm0 hcR hs1 h8' hseed
      have hd : delta.toList.length = 16 := by simp
      rw [if_neg h8, if_neg hne]
      have fin : ∀ e, apFinish X armS coresS schedS delta.toList qT qSum msg len x ts = .fail e →
          Outcome (apricotSender X armS coresS schedS coinS delta innerR msg)
            (apricotReceiver X armR coresR sched1 sched2 coinR bonus seed0 seed1 innerS choices) (.fails e) .waits := by
        intro e he
        have := run _ _ (.refl _ _)
        rw [he] at this
        exact Outcome.of_steps this (stuck_fail_recv _ _) rfl ⟨_, rfl⟩
      by_cases hacc : A
      · rw [if_neg (fun h => h hacc)]
        have hok := hcheck.mpr (hA'.mp hacc)
        by_cases h0 : len = 0
        · rw [if_pos h0]
          subst h0
          exact fin _ (apFinish_empty X armS coresS schedS delta.toList qT qSum msg x ts hcS hpos hd hq2 hx hts hok)
        · rw [if_neg h0, if_pos hbad]
          exact fin _ (apFinish_unfit X armS coresS schedS delta.toList qT qSum msg len x ts hcS hsS (by omega) hd (by omega) hq2
            hx hts hok hbad)
      · rw [if_pos hacc]
        exact fin _ (apFinish_reject X armS coresS schedS delta.toList qT qSum msg len x ts hd hq2 hx hts
          (fun h => hacc (hA'.mpr (hcheck.mp h))))
  · have hfits : ∀ m ∈ msg, ¬ Unfit X.dbg len m.1 ∧ ¬ Unfit X.dbg len m.2 := fun m hm =>
      ⟨fun h => hbad ⟨m, hm, .inl h⟩, fun h => hbad ⟨m, hm, .inr h⟩⟩
    have hpad : ∀ m ∈ msg.map (paddedPair len), m.1.length = len ∧ m.2.length = len := by
      intro m hm
      obtain ⟨m', hm', rfl⟩ := List.mem_map.mp hm
      obtain ⟨h1, h2⟩ := hfits m' hm'
      exact ⟨zeroPadded_length (Nat.le_of_not_lt fun h => h1 (.inl h)), zeroPadded_length (Nat.le_of_not_lt fun h => h2 (.inl h))⟩
    have main := C58_apricot_exact X armS armR coresS coresR schedS sched1 sched2 coinS coinR seed delta bonus seed0 seed1
      innerS innerR hinner (msg.map (paddedPair len)) choices msg.length len (by simp) hn' hfit hpad hcS hcR hsS hs1 hs2 hseed
    rw [hA] at main
    have hs : apricotSender X armS coresS schedS coinS delta innerR msg =
        apricotSender X armS coresS schedS coinS delta innerR (msg.map (paddedPair len)) := by
      cases msg with
      | nil => rfl
      | cons m0 rest =>
        have e : m0.1.length = len := hlen m0 rfl
        subst e
        exact apricotSender_padded X armS coresS schedS coinS delta innerR m0 rest hfits
    rw [hs]
    have he : mixedEnds X.dbg msg choices len A = extensionEnds X.dbg msg.length len A (chosen (msg.map (paddedPair len)) choices) := by
      unfold mixedEnds extensionEnds
      rw [if_neg hbad]
      by_cases h0 : msg = []
      · subst h0; rfl
      · have : msg.length ≠ 0 := by simpa using h0
        simp only [h0, this, if_false]
    rw [he]
    exact main

theorem leftOver_multiple {n : Nat} (h : n % 8 = 0) (s : Bytes) (f : Nat → Bool) : leftOver s n f = 0 := by
  unfold leftOver
  rw [h]
  rfl

theorem chosen_constant {l : List (Bytes × Bytes)} {b : Bool} {n i : Nat} (hl : l.length = n) (hi : i < l.length) :
    (chosen l (List.replicate n b)).getD i [] = if b then l[i].2 else l[i].1 := by
  unfold chosen
  have : i < n := by omega
  simp [List.getElem?_zipWith, hi, this]

/-- C66: for a positive number of pairs that is a multiple of eight, the receiver gets the messages it chose, whatever it
chooses, exactly if all messages have the same size, between 1 and 65535 bytes. -/
theorem C66_delivers_iff (X : Crypto) (armS armR : Bool) (coresS coresR : Nat) (schedS sched1 sched2 : Nat → List Nat)
    (coinS coinR : WireBytes) (delta : Vector Byte 16) (bonus : Vector Bool 256) (seed0 seed1 : Vector WireBytes 128)
    (innerS : List (Bytes × Bytes) → Proc Unit) (innerR : List Bool → Proc (List Bytes))
    (hinner : CorrectOT 32 128 innerS innerR) (msg : List (Bytes × Bytes)) (n : Nat)
    (hn : msg.length = n) (hpos : 0 < n) (h8 : n % 8 = 0) (hfit : n < 2 ^ 64) (hcS : 0 < coresS) (hcR : 0 < coresR)
    (hsS : ∀ m, IsOrder m (schedS m)) (hs1 : ∀ m, IsOrder m (sched1 m)) (hs2 : ∀ m, IsOrder m (sched2 m)) :
    (∀ choices : List Bool, choices.length = n → Completes (apricotSender X armS coresS schedS coinS delta innerR msg)
      (apricotReceiver X armR coresR sched1 sched2 coinR bonus seed0 seed1 innerS choices) () (chosen msg choices)) ↔
    ∃ len, 0 < len ∧ len < 65536 ∧ ∀ m ∈ msg, m.1.length = len ∧ m.2.length = len := by
  constructor
  · intro hall
    obtain ⟨m0, rest, rfl⟩ := List.exists_cons_of_ne_nil (List.length_pos_iff.mp (by omega : 0 < msg.length))
    have key : ∀ choices : List Bool, choices.length = n →
        0 < m0.1.length ∧ m0.1.length < 65536 ∧
        (∀ m ∈ m0 :: rest, ¬ Unfit X.dbg m0.1.length m.1 ∧ ¬ Unfit X.dbg m0.1.length m.2) ∧
        chosen ((m0 :: rest).map (paddedPair m0.1.length)) choices = chosen (m0 :: rest) choices := by
      intro choices hc
      have hout := C66_mixed_exact X armS armR coresS coresR schedS sched1 sched2 coinS coinR
        (Vector.ofFn fun i : Fin 32 => coinR[i] ^^^ coinS[i]) delta bonus seed0 seed1 innerS innerR hinner (m0 :: rest) choices n
        m0.1.length hn hc hfit (fun m hm => by cases hm; rfl) hcS hcR hsS hs1 hs2 (by
          apply List.ext_getElem
          · simp
          · intro i h1 h2
            simp)
      obtain ⟨h1, h2⟩ := outcome_completes hout (hall choices hc)
      unfold mixedEnds at h1 h2
      rw [if_neg (by rw [hn]; omega), if_neg (by simp), if_neg (by rw [not_not]; exact .inl (leftOver_multiple h8 _ _))] at h1 h2
      by_cases h0 : m0.1.length = 0
      · rw [if_pos h0] at h1; cases h1
      · rw [if_neg h0] at h1 h2
        by_cases hb : ∃ m ∈ m0 :: rest, Unfit X.dbg m0.1.length m.1 ∨ Unfit X.dbg m0.1.length m.2
        · rw [if_pos hb] at h1; cases h1
        · rw [if_neg hb] at h1 h2
          by_cases hl : m0.1.length < 65536
          · rw [if_pos hl] at h2
            injection h2 with h2
            exact ⟨by omega, hl, fun m hm => ⟨fun h => hb ⟨m, hm, .inl h⟩, fun h => hb ⟨m, hm, .inr h⟩⟩, h2⟩
          · rw [if_neg hl] at h2; cases h2
    obtain ⟨k1, k2, k3, k4⟩ := key (List.replicate n false) (by simp)
    obtain ⟨-, -, -, k5⟩ := key (List.replicate n true) (by simp)
    refine ⟨m0.1.length, k1, k2, fun m hm => ?_⟩
    obtain ⟨i, hi, rfl⟩ := List.getElem_of_mem hm
    obtain ⟨f1, f2⟩ := k3 _ hm
    have hin : i < n := by omega
    constructor
    · have := congrArg (fun l => (l.getD i []).length) k4
      rw [chosen_constant (by simpa using hn) (by simpa using hi), chosen_constant hn hi] at this
      simp only [List.getElem_map, if_true, Bool.false_eq_true, if_false, paddedPair] at this
      rw [zeroPadded_length (Nat.le_of_not_lt fun h => f1 (.inl h))] at this
      omega
    · have := congrArg (fun l => (l.getD i []).length) k5
      rw [chosen_constant (by simpa using hn) (by simpa using hi), chosen_constant hn hi] at this
      simp only [List.getElem_map, if_true, Bool.false_eq_true, if_false, paddedPair] at this
      rw [zeroPadded_length (Nat.le_of_not_lt fun h => f2 (.inl h))] at this
      omega
  · rintro ⟨len, hl, hl', hml⟩ choices hc
    exact (apricot_ends X armS armR coresS coresR schedS sched1 sched2 coinS coinR delta bonus seed0 seed1 innerS innerR
      hinner msg choices len (by omega) (Nat.dvd_of_mod_eq_zero (by omega)) (by omega) hl (by omega) (by omega) hml
      hcS hcR hsS hs1 hs2).completes

/-- Eight pairs of which the first pair has messages of two bytes and the others of one byte: in a release build the
receiver is told that the second message was `[3, 0]`. -/
example (X : Crypto) (hX : X.dbg = false) (coinS coinR : WireBytes) (delta : Vector Byte 16) (bonus : Vector Bool 256)
    (seed0 seed1 : Vector WireBytes 128) (innerS : List (Bytes × Bytes) → Proc Unit) (innerR : List Bool → Proc (List Bytes))
    (hinner : CorrectOT 32 128 innerS innerR) :
    Outcome (apricotSender X false 1 List.range coinS delta innerR (([1, 2], [5, 6]) :: List.replicate 7 ([3], [4])))
      (apricotReceiver X false 1 List.range List.range coinR bonus seed0 seed1 innerS (List.replicate 8 false))
      (.returns ()) (.returns ([1, 2] :: List.replicate 7 [3, 0])) := by
  have ho : ∀ m, IsOrder m (List.range m) := fun m => List.Perm.refl _
  have h := C66_mixed_exact X false false 1 1 List.range List.range List.range coinS coinR
    (Vector.ofFn fun i : Fin 32 => coinR[i] ^^^ coinS[i]) delta bonus seed0 seed1 innerS innerR hinner
    (([1, 2], [5, 6]) :: List.replicate 7 ([3], [4])) (List.replicate 8 false) 8 2 rfl rfl (by decide)
    (fun m hm => by cases hm; rfl) (by decide) (by decide) ho ho ho (by
      apply List.ext_getElem
      · simp
      · intro i h1 h2
        simp)
  unfold mixedEnds at h
  rw [if_neg (by simp), if_neg (by simp), if_neg (by rw [not_not]; exact .inl (leftOver_multiple rfl _ _)), if_neg (by decide),
    if_neg (by
      rw [hX]
      rintro ⟨m, hm, hu⟩
      have : m.1.length ≤ 2 ∧ m.2.length ≤ 2 := by
        rcases List.mem_cons.mp hm with rfl | hm
        · decide
        · rw [(List.mem_replicate.mp hm).2]; decide
      rcases hu with (h | ⟨h, -⟩) | (h | ⟨h, -⟩)
      · omega
      · cases h
      · omega
      · cases h), if_pos (by decide)] at h
  exact h

/-- The same with a message of three bytes in the second pair: the sender panics and the receiver waits for ever. -/
example (X : Crypto) (coinS coinR : WireBytes) (delta : Vector Byte 16) (bonus : Vector Bool 256)
    (seed0 seed1 : Vector WireBytes 128) (innerS : List (Bytes × Bytes) → Proc Unit) (innerR : List Bool → Proc (List Bytes))
    (hinner : CorrectOT 32 128 innerS innerR) :
    Outcome (apricotSender X false 1 List.range coinS delta innerR (([1, 2], [5, 6]) :: List.replicate 7 ([3, 3, 3], [4, 4])))
      (apricotReceiver X false 1 List.range List.range coinR bonus seed0 seed1 innerS (List.replicate 8 false))
      (.fails .panic) .waits := by
  have ho : ∀ m, IsOrder m (List.range m) := fun m => List.Perm.refl _
  have h := C66_mixed_exact X false false 1 1 List.range List.range List.range coinS coinR
    (Vector.ofFn fun i : Fin 32 => coinR[i] ^^^ coinS[i]) delta bonus seed0 seed1 innerS innerR hinner
    (([1, 2], [5, 6]) :: List.replicate 7 ([3, 3, 3], [4, 4])) (List.replicate 8 false) 8 2 rfl rfl (by decide)
    (fun m hm => by cases hm; rfl) (by decide) (by decide) ho ho ho (by
      apply List.ext_getElem
      · simp
      · intro i h1 h2
        simp)
  unfold mixedEnds at h
  rw [if_neg (by simp), if_neg (by simp), if_neg (by rw [not_not]; exact .inl (leftOver_multiple rfl _ _)), if_neg (by decide),
    if_pos ⟨([3, 3, 3], [4, 4]), by simp, .inl (.inl (by decide))⟩] at h
  exact h

end FP.Props
