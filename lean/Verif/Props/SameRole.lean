import Verif.Proof.SameRole
import Verif.Proof.Witness
import Verif.Proof.Transparent
/-
C92: two parties that take the same role.
-/
namespace FP.Props
open Spec

/-! ### Coin flip -/

/-- C92 fails for the coin flip: two senders both return, each with its own contribution combined with the other one's
commitment. -/
theorem C92_fails_coin_senders (E : Env) (v v' : Bytes) (h : v.length = 32) (h' : v'.length = 32) :
    Outcome (coinflipSender E v) (coinflipSender E v') (.returns (List.zipWith (· ^^^ ·) v (E.sha256 v').toList))
      (.returns (List.zipWith (· ^^^ ·) v' (E.sha256 v).toList)) := by
  have := coin_senders E v v' h h' Proc.ret Proc.ret
  rw [bindP_ret, bindP_ret] at this
  exact Outcome.of_steps this (Ends.stuck _ _ _ _) rfl rfl

example := C92_fails_coin_senders (Witness.crypto true).toEnv (Witness.bytes 3).toList (Witness.bytes 4).toList (by meets) (by meets)

/-- C92: two receivers wait for each other. -/
theorem C92_coin_receivers (E : Env) (u u' : Bytes) :
    Outcome (coinflipReceiver E u) (coinflipReceiver E u') .waits .waits :=
  Outcome.of_steps (d := start (coinflipReceiver E u) (coinflipReceiver E u')) (Steps.refl _) (fun _ h => nomatch h)
    ⟨_, rfl⟩ ⟨_, rfl⟩

/-! ### Base OT -/

/-- C92 fails for the base OT: two senders with the same number of pairs both return, although nobody has received
anything. -/
theorem C92_fails_base_senders (C : Curve) (X : Crypto) (a b : Nat → Nat) (msg msg' : List (Bytes × Bytes))
    (h : msg'.length = msg.length) (hn : msg.length < 2 ^ 64) :
    Outcome (coSender C X a msg) (coSender C X b msg') (.returns ()) (.returns ()) := by
  obtain ⟨P, P', -, -, hs⟩ := co_senders C X a b msg msg' h hn Proc.ret Proc.ret
  rw [bindP_ret, bindP_ret] at hs
  exact Outcome.of_steps hs (Ends.stuck _ _ _ _) rfl rfl

example := C92_fails_base_senders Witness.curve (Witness.crypto true) (· + 3) (· + 5) Witness.messages
  (Witness.messages.map fun m => (m.2 ++ m.1, m.1)) (by meets) (by meets)

/-- C92: two receivers with the same number of choices wait for each other. -/
theorem C92_base_receivers (C : Curve) (X : Crypto) (a b : Nat → Nat) (choices choices' : List Bool)
    (h : choices'.length = choices.length) (hn : choices.length < 2 ^ 64) :
    Outcome (coReceiver C X a choices) (coReceiver C X b choices') .waits .waits := by
  have key : ∀ (a : Nat → Nat) (c : List Bool), ∃ k, coReceiver C X a c = validateProperties ⟨c.length, "Chou-Orlandi"⟩ >>= fun _ => .recv k := by
    intro a c
    cases c with
    | nil =>
      unfold coReceiver
      have : debugAssertR X.dbg (decide (([] : List Bool).length = ([] : List WireBytes).length)) = .ok () := debugAssertR_true rfl
      refine ⟨fun m => ((Codec.payload.deserialize m : R (List (Bytes × Bytes))) : Proc (List (Bytes × Bytes))) >>= fun payload =>
        ((coDecryptAll X [] [] payload : R (List Bytes)) : Proc (List Bytes)), congrArg _ (funext fun _ => ?_)⟩
      show (Proc.ret [] >>= _) = _
      rw [ret_bind, this, liftM_ok, ret_bind]
      rfl
    | cons c cs => exact ⟨_, rfl⟩
  obtain ⟨k, hk⟩ := key a choices
  obtain ⟨l, hl⟩ := key b choices'
  rw [hk, hl, h]
  exact Outcome.of_steps ((validate_ends (pb := ⟨choices.length, "Chou-Orlandi"⟩) ⟨hn, co_name⟩).andThen _ _)
    (fun _ h => nomatch h) ⟨k, rfl⟩ ⟨l, rfl⟩

example := C92_base_receivers Witness.curve (Witness.crypto true) (· + 3) (· + 5) Witness.choices
  (Witness.choices.map not) (by meets) (by meets)

/-- C92: if the numbers differ, two parties in the same role find out. -/
theorem C92_base_numbers (C : Curve) (X : Crypto) (a b : Nat → Nat) (msg msg' : List (Bytes × Bytes)) (choices choices' : List Bool)
    (hm : msg'.length ≠ msg.length) (hc : choices'.length ≠ choices.length) (h1 : msg.length < 2 ^ 64) (h2 : msg'.length < 2 ^ 64)
    (h3 : choices.length < 2 ^ 64) (h4 : choices'.length < 2 ^ 64) :
    Outcome (coSender C X a msg) (coSender C X b msg') (.fails (.err .badProperties)) (.fails (.err .badProperties)) ∧
    Outcome (coReceiver C X a choices) (coReceiver C X b choices') (.fails (.err .badProperties)) (.fails (.err .badProperties)) := by
  constructor
  · refine Outcome.of_steps (EndsErr.bind (validate_fails (pb := ⟨msg.length, "Chou-Orlandi"⟩) (pb' := ⟨msg'.length, "Chou-Orlandi"⟩)
      ⟨h1, co_name⟩ ⟨h2, co_name⟩ ?_) _ _) (stuck_fail_fail _ _) rfl rfl
    intro h
    exact hm (congrArg TransactionProperties.msgSize h).symm
  · refine Outcome.of_steps (EndsErr.bind (validate_fails (pb := ⟨choices.length, "Chou-Orlandi"⟩)
      (pb' := ⟨choices'.length, "Chou-Orlandi"⟩) ⟨h3, co_name⟩ ⟨h4, co_name⟩ ?_) _ _) (stuck_fail_fail _ _) rfl rfl
    intro h
    exact hc (congrArg TransactionProperties.msgSize h).symm

example := C92_base_numbers Witness.curve (Witness.crypto true) (· + 3) (· + 5) Witness.messages [] Witness.choices [true]
  (by meets) (by meets) (by meets) (by meets) (by meets) (by meets)

/-! ### 1-out-of-n OT -/

/-- C92 for the 1-out-of-n OT: of two senders neither returns, whatever their messages and the machines they run on. -/
theorem C92_many_senders (C : Curve) (X : Crypto) (a b : Nat → Nat) (cores cores' : Nat) (order order' : List Nat)
    (keys keys' : Nat → WireBytes × WireBytes) (messages messages' : List Bytes) (domain domain' : Nat)
    (hd : 0 < domain) (hd' : 0 < domain') :
    ∃ e e', Outcome (manySender X cores order keys (coSender C X a) messages domain)
      (manySender X cores' order' keys' (coSender C X b) messages' domain') e e' ∧ e ≠ .returns () ∧ e' ≠ .returns () := by
  have hne : ∀ (keys : Nat → WireBytes × WireBytes) d, 0 < d →
      ((List.range d).map fun j => ((keys j).1.toList, (keys j).2.toList)) ≠ [] := by
    intro keys d h h0
    have := congrArg List.length h0
    simp at this
    omega
  obtain ⟨K, eK, hK⟩ := co_sender_confused C X a _ (hne keys domain hd)
  obtain ⟨L, eL, hL⟩ := co_sender_confused C X b _ (hne keys' domain' hd')
  unfold manySender
  simp only [eK, eL]
  cases manyY X cores order messages ((List.range domain).map fun j => ((keys j).1.toList, (keys j).2.toList)) domain with
  | error e =>
    cases manyY X cores' order' messages' ((List.range domain').map fun j => ((keys' j).1.toList, (keys' j).2.toList)) domain' with
    | error e' =>
      exact ⟨.fails e, .fails e', Outcome.of_steps (Steps.refl _) (stuck_fail_fail _ _) rfl rfl, nofun, nofun⟩
    | ok y' =>
      exact ⟨.fails e, .waits, Outcome.of_steps (.head (.sendR ..) (.head (.sendR ..) (Steps.refl _))) (fun _ h => nomatch h)
        rfl ⟨L, rfl⟩, nofun, nofun⟩
  | ok y =>
    cases manyY X cores' order' messages' ((List.range domain').map fun j => ((keys' j).1.toList, (keys' j).2.toList)) domain' with
    | error e' =>
      exact ⟨.waits, .fails e', Outcome.of_steps (.head (.sendL ..) (.head (.sendL ..) (Steps.refl _))) (fun _ h => nomatch h)
        ⟨K, rfl⟩ rfl, nofun, nofun⟩
    | ok y' =>
      obtain ⟨e, zs, h1⟩ := hK y' (Codec.properties.enc ⟨((List.range domain').map fun j => ((keys' j).1.toList, (keys' j).2.toList)).length,
        "Chou-Orlandi"⟩) (by rw [hello_base]; decide)
      obtain ⟨e', zs', h2⟩ := hL y (Codec.properties.enc ⟨((List.range domain).map fun j => ((keys j).1.toList, (keys j).2.toList)).length,
        "Chou-Orlandi"⟩) (by rw [hello_base]; decide)
      obtain ⟨ys1, s1⟩ := h1 Unit (L y) [Codec.properties.enc ⟨((List.range domain).map fun j => ((keys j).1.toList, (keys j).2.toList)).length,
        "Chou-Orlandi"⟩] []
      obtain ⟨ys2, s2⟩ := h2 Unit (.fail e) ys1 zs
      refine ⟨.fails e, .fails e', Outcome.of_steps (d := ⟨.fail e, .fail e', ys2, ys1 ++ zs'⟩) ?_ (fun _ h => nomatch h) rfl rfl, nofun, nofun⟩
      refine .head (.sendL ..) (.head (.sendL ..) (.head (.sendR ..) (.head (.sendR ..) (.head (.recvL ..) (.head (.recvR ..) ?_)))))
      exact s1.trans (Steps.swap' s2)

example := C92_many_senders Witness.curve (Witness.crypto true) (· + 3) (· + 5) 2 1 [1, 0] [0]
  (fun j => (Witness.bytes j, Witness.bytes (j + 9))) (fun j => (Witness.bytes (j + 2), Witness.bytes (j + 7)))
  Witness.passwords Witness.passwords 2 2 (by meets) (by meets)

/-- C92 for the 1-out-of-n OT: two receivers wait for each other. -/
theorem C92_many_receivers (X : Crypto) (V V' : List Bool → Proc (List Bytes)) (choice choice' domain domain' : Nat)
    (hd : domain ≤ 32) (hd' : domain' ≤ 32) :
    Outcome (manyReceiver X V choice domain) (manyReceiver X V' choice' domain') .waits .waits := by
  unfold manyReceiver
  rw [manyChoices_ok _ _ _ hd, manyChoices_ok _ _ _ hd']
  exact Outcome.of_steps (Steps.refl _) (fun _ h => nomatch h) ⟨_, rfl⟩ ⟨_, rfl⟩

example := C92_many_receivers (Witness.crypto true) (coReceiver Witness.curve (Witness.crypto true) (· + 5))
  (coReceiver Witness.curve (Witness.crypto true) (· + 6)) 2 3 2 2 (by meets) (by meets)

/-! ### OT extension -/

/-- C92 for the OT extension: two senders with the same number of pairs wait for each other. -/
theorem C92_extension_senders (X : Crypto) (arm arm' : Bool) (cores cores' : Nat) (sched sched' : Nat → List Nat) (coin coin' : WireBytes)
    (delta delta' : Vector Byte 16) (V V' : List Bool → Proc (List Bytes)) (msg msg' : List (Bytes × Bytes))
    (h : msg'.length = msg.length) (hn : msg.length < 2 ^ 64) (h8 : msg.length % 8 = 0) :
    Outcome (apricotSender X arm cores sched coin delta V msg) (apricotSender X arm' cores' sched' coin' delta' V' msg') .waits .waits := by
  unfold apricotSender
  rw [h, debugAssertR_true (by simpa using h8), liftM_ok, ret_bind, ret_bind]
  exact Outcome.of_steps ((validate_ends (pb := ⟨msg.length, "Apricot"⟩) ⟨hn, apricot_name⟩).andThen _ _)
    (fun _ h => nomatch h) ⟨_, rfl⟩ ⟨_, rfl⟩

example := C92_extension_senders (Witness.crypto true) true false 2 3 List.range List.range (Witness.bytes 1) (Witness.bytes 2)
  (Vector.replicate 16 5) (Vector.replicate 16 6) (coReceiver Witness.curve (Witness.crypto true) (· + 5))
  (coReceiver Witness.curve (Witness.crypto true) (· + 6)) Witness.messages (Witness.messages.map fun m => (m.2, m.1))
  (by meets) (by meets) (by meets)

open Classical in
/-- C92 for two receivers of the OT extension with the same number `n` of choices.  Each of them takes the first two bytes of
the other one's random contribution to the coin flip for the size of the messages, and the other one's base-OT payload for the
encrypted messages.  Whether it returns is a matter of that size; if it does, with `n` messages of that size. -/
theorem C92_extension_receivers_exact (C : Curve) (X : Crypto) (arm arm' : Bool) (cores cores' : Nat)
    (sched1 sched2 sched1' sched2' : Nat → List Nat)
    (coin coin' : WireBytes) (bonus bonus' : Vector Bool 256) (seed0 seed1 seed0' seed1' : Vector WireBytes 128)
    (sk sk' : Nat → Nat) (choices choices' : List Bool) (n : Nat) (hn : choices.length = n) (hn' : choices'.length = n)
    (hfit : n < 2 ^ 64) (hc : 0 < cores) (hc' : 0 < cores') (hs1 : ∀ n, IsOrder n (sched1 n)) (hs2 : ∀ n, IsOrder n (sched2 n))
    (hs1' : ∀ n, IsOrder n (sched1' n)) (hs2' : ∀ n, IsOrder n (sched2' n)) (h8 : X.dbg = false ∨ n % 8 = 0) :
    ∃ rows rows' : List Bytes, rows.length = n ∧ (∀ r ∈ rows, r.length = announced coin') ∧
      rows'.length = n ∧ (∀ r ∈ rows', r.length = announced coin) ∧
      Outcome (apricotReceiver X arm cores sched1 sched2 coin bonus seed0 seed1 (coSender C X sk) choices)
        (apricotReceiver X arm' cores' sched1' sched2' coin' bonus' seed0' seed1' (coSender C X sk') choices')
        (if foreignFits X.dbg n (announced coin') then .returns rows else .fails .panic)
        (if foreignFits X.dbg n (announced coin) then .returns rows' else .fails .panic) := by
  obtain ⟨p, q, xs, ys, hs, h1, h2, h3, h4⟩ := apricot_receivers C X arm arm' cores cores' sched1 sched2 sched1' sched2' coin coin'
    bonus bonus' seed0 seed1 seed0' seed1' sk sk' choices choices' n hn hn' hfit hc hc' hs1 hs2 hs1' hs2' h8
  have pick : ∀ (P : Prop) (p : Proc (List Bytes)) (a : Nat), (P → ∃ rows, p = .ret rows ∧ rows.length = n ∧ ∀ r ∈ rows, r.length = a) →
      (¬ P → p = .fail .panic) → ∃ rows : List Bytes, rows.length = n ∧ (∀ r ∈ rows, r.length = a) ∧
        At (if P then .returns rows else .fails .panic) p ∧ (∀ k, p ≠ .recv k) ∧ ∀ m k, p ≠ .send m k := by
    intro P p a hp hp'
    by_cases h : P
    · obtain ⟨rows, rfl, hr1, hr2⟩ := hp h
      exact ⟨rows, hr1, hr2, by rw [if_pos h]; rfl, nofun, nofun⟩
    · refine ⟨List.replicate n (List.replicate a 0), by simp, ?_, ?_, ?_, ?_⟩
      · intro r hr
        rw [List.eq_of_mem_replicate hr]
        simp
      · rw [if_neg h]; exact hp' h
      · rw [hp' h]; nofun
      · rw [hp' h]; nofun
  obtain ⟨rows, hr1, hr2, ha, hp1, hp2⟩ := pick _ p _ h1 h2
  obtain ⟨rows', hr1', hr2', ha', hq1, hq2⟩ := pick _ q _ h3 h4
  refine ⟨rows, rows', hr1, hr2, hr1', hr2', Outcome.of_steps hs ?_ ha ha'⟩
  intro d hd
  cases hd with
  | sendL => exact hp2 _ _ rfl
  | sendR => exact hq2 _ _ rfl
  | recvL => exact hp1 _ rfl
  | recvR => exact hq1 _ rfl

example := C92_extension_receivers_exact Witness.curve (Witness.crypto true) true false 2 3 List.range List.range List.range List.range
  (Witness.bytes 1) (Witness.bytes 2) (Vector.replicate 256 true) (Vector.replicate 256 false)
  (Vector.replicate 128 (Witness.bytes 3)) (Vector.replicate 128 (Witness.bytes 4)) (Vector.replicate 128 (Witness.bytes 5))
  (Vector.replicate 128 (Witness.bytes 6)) (· + 3) (· + 5) Witness.choices (Witness.choices.map not) 8
  (by meets) (by meets) (by meets) (by meets) (by meets) (fun _ => .refl _) (fun _ => .refl _) (fun _ => .refl _) (fun _ => .refl _)
  (.inr rfl)

/-- C92 fails for the OT extension: without assertions two receivers of `n > 0` messages both return, unless a size they read
out of the other one's coin is less than `5124 / n`; all they have in the end is noise. -/
theorem C92_fails_extension_receivers (C : Curve) (X : Crypto) (hrel : X.dbg = false) (arm arm' : Bool) (cores cores' : Nat)
    (sched1 sched2 sched1' sched2' : Nat → List Nat)
    (coin coin' : WireBytes) (bonus bonus' : Vector Bool 256) (seed0 seed1 seed0' seed1' : Vector WireBytes 128)
    (sk sk' : Nat → Nat) (choices choices' : List Bool) (n : Nat) (hn : choices.length = n) (hn' : choices'.length = n)
    (hpos : 0 < n) (hfit : n < 2 ^ 64) (hc : 0 < cores) (hc' : 0 < cores') (hs1 : ∀ n, IsOrder n (sched1 n))
    (hs2 : ∀ n, IsOrder n (sched2 n)) (hs1' : ∀ n, IsOrder n (sched1' n)) (hs2' : ∀ n, IsOrder n (sched2' n)) :
    (∃ rows rows', Outcome (apricotReceiver X arm cores sched1 sched2 coin bonus seed0 seed1 (coSender C X sk) choices)
        (apricotReceiver X arm' cores' sched1' sched2' coin' bonus' seed0' seed1' (coSender C X sk') choices')
        (.returns rows) (.returns rows')) ↔ 5124 / n ≤ announced coin ∧ 5124 / n ≤ announced coin' := by
  obtain ⟨rows, rows', -, -, -, -, ho⟩ := C92_extension_receivers_exact C X arm arm' cores cores' sched1 sched2 sched1' sched2' coin coin'
    bonus bonus' seed0 seed1 seed0' seed1' sk sk' choices choices' n hn hn' hfit hc hc' hs1 hs2 hs1' hs2' (.inl hrel)
  have hf : ∀ a, foreignFits X.dbg n a ↔ 5124 / n ≤ a := by
    intro a
    unfold foreignFits
    rw [hrel]
    simp
    omega
  simp only [hf] at ho
  constructor
  · rintro ⟨r, r', h⟩
    obtain ⟨h1, h2⟩ := outcome_unique ho h
    constructor
    · by_contra hc
      rw [if_neg hc] at h2
      cases h2
    · by_contra hc
      rw [if_neg hc] at h1
      cases h1
  · rintro ⟨h1, h2⟩
    rw [if_pos h1, if_pos h2] at ho
    exact ⟨rows, rows', ho⟩

example := C92_fails_extension_receivers Witness.curve (Witness.crypto false) rfl true false 2 3 List.range List.range List.range List.range
  (Vector.replicate 32 200) (Vector.replicate 32 201) (Vector.replicate 256 true) (Vector.replicate 256 false)
  (Vector.replicate 128 (Witness.bytes 3)) (Vector.replicate 128 (Witness.bytes 4)) (Vector.replicate 128 (Witness.bytes 5))
  (Vector.replicate 128 (Witness.bytes 6)) (· + 3) (· + 5) Witness.choices (Witness.choices.map not) 8
  (by meets) (by meets) (by meets) (by meets) (by meets) (by meets) (fun _ => .refl _) (fun _ => .refl _) (fun _ => .refl _)
  (fun _ => .refl _)

example : 5124 / 8 ≤ announced (Vector.replicate 32 200) ∧ 5124 / 8 ≤ announced (Vector.replicate 32 201) := by decide +kernel

/-! ### Key exchange -/

/-- Two evaluating parties. -/
theorem evaluators_fail (C : Curve) (X : Crypto) (o o' : OTRecv) (ho : o.Valid) (ho' : o'.Valid) (p p' : Bytes) (hp : 0 < p.length)
    (hl : p'.length = p.length) (hfit : p.length < 2 ^ 60)
    (h : announced o.coin = 32 → ¬ foreignFits X.dbg (8 * p.length) 32)
    (h' : announced o'.coin = 32 → ¬ foreignFits X.dbg (8 * p.length) 32) :
    ∃ xs ys, Steps (start (HalfKey.evaluator C X o p) (HalfKey.evaluator C X o' p')) ⟨.fail .panic, .fail .panic, xs, ys⟩ := by
  obtain ⟨q, q', xs, ys, hs, h1, h2, h3, h4⟩ := apricot_receivers C X o.arm o'.arm o.cores o'.cores o.sched1 o.sched2 o'.sched1
    o'.sched2 o.coin o'.coin o.bonus o'.bonus o.seed0 o.seed1 o'.seed0 o'.seed1 o.base o'.base (u8VecToBoolVec p) (u8VecToBoolVec p')
    (8 * p.length) (unpack_length p) (by rw [unpack_length, hl]) (by omega) ho.cores ho'.cores ho.sched1
    ho.sched2 ho'.sched1 ho'.sched2 (.inr (by omega))
  have fails : ∀ (q : Proc (List Bytes)) (a : Nat) (k : List Wire → Proc WireBytes), (a = 32 → ¬ foreignFits X.dbg (8 * p.length) 32) →
      (foreignFits X.dbg (8 * p.length) a → ∃ rows, q = .ret rows ∧ rows.length = 8 * p.length ∧ ∀ r ∈ rows, r.length = a) →
      (¬ foreignFits X.dbg (8 * p.length) a → q = .fail .panic) →
      (q >>= fun rows => ((labelsOf X.dbg rows : R (List Wire)) : Proc (List Wire)) >>= k) = .fail .panic := by
    intro q a k ha hq hq'
    by_cases hf : foreignFits X.dbg (8 * p.length) a
    · obtain ⟨rows, rfl, hr1, hr2⟩ := hq hf
      have hne : a ≠ 32 := fun e => ha e (e ▸ hf)
      have : labelsOf X.dbg rows = .error .panic := by
        cases rows with
        | nil => rw [List.length_nil] at hr1; omega
        | cons r rows =>
          unfold labelsOf
          have hr : toArray32 r = .error .panic := by
            unfold toArray32
            rw [dif_neg (by rw [hr2 r (by simp)]; exact hne)]
            rfl
          rw [List.mapM_cons, hr]
          rfl
      rw [ret_bind, this, liftM_error, fail_bind]
    · rw [hq' hf, fail_bind]
  have hs := hs.andThen
    (fun rows => ((labelsOf X.dbg rows : R (List Wire)) : Proc (List Wire)) >>= fun ourPassword => (do
      let gc ← deserializeGarbled (← recvP)
      let theirPassword ← Codec.wires.deserialize (← recvP)
      evaluatedKey X.toEnv gc (theirPassword ++ ourPassword)))
    (fun rows => ((labelsOf X.dbg rows : R (List Wire)) : Proc (List Wire)) >>= fun ourPassword => (do
      let gc ← deserializeGarbled (← recvP)
      let theirPassword ← Codec.wires.deserialize (← recvP)
      evaluatedKey X.toEnv gc (theirPassword ++ ourPassword)))
  refine ⟨xs, ys, ?_⟩
  have e1 := fails q _ (fun ourPassword => (do
      let gc ← deserializeGarbled (← recvP)
      let theirPassword ← Codec.wires.deserialize (← recvP)
      evaluatedKey X.toEnv gc (theirPassword ++ ourPassword))) h' h1 h2
  have e2 := fails q' _ (fun ourPassword => (do
      let gc ← deserializeGarbled (← recvP)
      let theirPassword ← Codec.wires.deserialize (← recvP)
      evaluatedKey X.toEnv gc (theirPassword ++ ourPassword))) h h3 h4
  unfold Conf.andThen at hs
  simp only at hs
  rw [e1, e2] at hs
  exact hs

/-- C92 for two evaluating parties of the key exchange with passwords of the same length: both panic, unless the size one of them
reads out of the other one's coin is that of a label and the other one's base-OT payload fills as many of them. -/
theorem C92_evaluators (C : Curve) (X : Crypto) (o o' : OTRecv) (ho : o.Valid) (ho' : o'.Valid) (p p' : Bytes) (hp : 0 < p.length)
    (hl : p'.length = p.length) (hfit : p.length < 2 ^ 60)
    (h : announced o.coin = 32 → ¬ foreignFits X.dbg (8 * p.length) 32)
    (h' : announced o'.coin = 32 → ¬ foreignFits X.dbg (8 * p.length) 32) :
    Outcome (HalfKey.evaluator C X o p) (HalfKey.evaluator C X o' p') (.fails .panic) (.fails .panic) := by
  obtain ⟨xs, ys, hs⟩ := evaluators_fail C X o o' ho ho' p p' hp hl hfit h h'
  exact Outcome.of_steps hs (fun _ h => nomatch h) rfl rfl

example := C92_evaluators Witness.curve (Witness.crypto true) Witness.recv Witness.recv (by meets) (by meets) [3, 4] [5, 6] (by meets)
  rfl (by meets) (fun _ h => by unfold foreignFits at h; simp at h) (fun _ h => by unfold foreignFits at h; simp at h)

/-- In particular two evaluating parties with passwords of fewer than 20 bytes always panic, and so do those with passwords of any
other length than 20 bytes in a build with assertions. -/
theorem C92_evaluators_short (C : Curve) (X : Crypto) (o o' : OTRecv) (ho : o.Valid) (ho' : o'.Valid) (p p' : Bytes) (hp : 0 < p.length)
    (hl : p'.length = p.length) (hfit : p.length < 2 ^ 60) (h : p.length < 20 ∨ X.dbg = true ∧ p.length ≠ 20) :
    Outcome (HalfKey.evaluator C X o p) (HalfKey.evaluator C X o' p') (.fails .panic) (.fails .panic) := by
  have hno : ¬ foreignFits X.dbg (8 * p.length) 32 := by
    rintro ⟨h0, h1, h2⟩
    have h3 := Nat.div_add_mod 5124 (8 * p.length)
    have h4 := Nat.mod_lt 5124 (show 0 < 8 * p.length by omega)
    generalize 5124 / (8 * p.length) = t at *
    rcases h with h | ⟨hd, hne⟩
    · have : 8 * p.length * t ≤ 8 * p.length * 32 := Nat.mul_le_mul_left _ h1
      omega
    · obtain rfl := h2 hd
      omega
  exact C92_evaluators C X o o' ho ho' p p' hp hl hfit (fun _ => hno) (fun _ => hno)

example := C92_evaluators_short Witness.curve (Witness.crypto false) Witness.recv Witness.recv (by meets) (by meets) [3, 4] [5, 6]
  (by meets) rfl (by meets) (.inl (by decide))

/-- C92 for the whole key exchange: two parties that both garble second panic, under the same conditions. -/
theorem C92_exchange_seconds (C : Curve) (X : Crypto) (o o' : OTRecv) (g g' : GarblerDraws) (ho : o.Valid) (ho' : o'.Valid)
    (p p' : Bytes) (t t' : Nat) (hp : 0 < p.length) (hl : p'.length = p.length) (hfit : p.length < 2 ^ 60)
    (h : announced o.coin = 32 → ¬ foreignFits X.dbg (8 * p.length) 32)
    (h' : announced o'.coin = 32 → ¬ foreignFits X.dbg (8 * p.length) 32) :
    Outcome (fpakeSecond C X o g p t) (fpakeSecond C X o' g' p' t') (.fails .panic) (.fails .panic) := by
  obtain ⟨xs, ys, hs⟩ := evaluators_fail C X o o' ho ho' p p' hp hl hfit h h'
  exact Outcome.of_steps (hs.andThen _ _) (fun _ h => nomatch h) rfl rfl

example := C92_exchange_seconds Witness.curve (Witness.crypto false) Witness.recv Witness.recv Witness.g Witness.g' (by meets) (by meets)
  [3, 4] [5, 6] 1 2 (by meets) rfl (by meets) (fun _ h => by unfold foreignFits at h; simp at h)
  (fun _ h => by unfold foreignFits at h; simp at h)

end FP.Props
