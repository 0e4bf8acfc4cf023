import Verif.Proof.Session
import Verif.Props.Classic
import Verif.Props.Fpake
/-
A connection can be used again and again, also after calls that were refused.
-/
namespace FP.Props
open FP FP.Spec

theorem classic_mismatch (X : Crypto) (archS archR : Arch) (coinS coinR : WireBytes) (delta : Vector Byte 16)
    (bonus : Vector Bool 192) (seed0 seed1 : Vector WireBytes 128)
    (innerS : List (Bytes × Bytes) → Proc Unit) (innerR : List Bool → Proc (List Bytes))
    (msg : List (Bytes × Bytes)) (choices : List Bool) (h : msg.length ≠ choices.length) (hpos : 0 < msg.length)
    (h8 : msg.length % 8 = 0) (hn : msg.length < 2 ^ 64) (hn' : choices.length < 2 ^ 64) :
    EndsErr (classicSender X archS coinS delta innerR msg) (classicReceiver X archR coinR bonus seed0 seed1 innerS choices)
      (.err .badProperties) (.err .badProperties) := by
  unfold classicSender classicReceiver
  have e1 : assertR (decide (8 ≤ msg.length)) = .ok () := by unfold assertR; rw [if_pos (by simp; omega)]
  have e2 : assertR (decide (msg.length % 8 = 0)) = .ok () := by unfold assertR; rw [if_pos (by simpa using h8)]
  rw [e1, liftM_ok, ret_bind, e2, liftM_ok, ret_bind]
  exact (validate_fails ⟨hn, apricot_name⟩ ⟨hn', apricot_name⟩ (by simpa using h)).bind _ _

theorem base_correct (C : Curve) (X : Crypto) (a b : Nat → Nat) : CorrectOT 32 128 (coSender C X a) (coReceiver C X b) :=
  fun msg choices h1 h2 hm => (co_ends C X a b msg choices (by omega) (by omega) fun m hm' => by
    have := hm m hm'; omega).completes

theorem call_ends (C : Curve) (X : Crypto) (c : Call) (hc : c.Sound) :
    Ends (attempt (c.sender C X)) (attempt (c.receiver C X)) c.sent c.received := by
  obtain ⟨kind, msg, choices⟩ := c
  obtain ⟨hn, hn', hm, hk⟩ := hc
  unfold Call.sent Call.received Call.sender Call.receiver
  dsimp only at *
  by_cases he : msg.length = choices.length
  · rw [if_pos he, if_pos he]
    cases kind with
    | base a b => exact (co_ends C X a b msg choices he hn hm).attempt
    | extension s r =>
      obtain ⟨hs, hr, h8, -, hx⟩ := hk
      obtain ⟨hpos, len, hl, hl', hml⟩ := hx he
      exact (apricot_ends X s.arm r.arm s.cores r.cores s.sched r.sched1 r.sched2 s.coin r.coin s.delta r.bonus r.seed0
        r.seed1 _ _ (base_correct C X r.base s.base) msg choices len hpos (Nat.dvd_of_mod_eq_zero h8) he hl (by omega) hn hml
        hs.cores hr.cores hs.sched hr.sched1 hr.sched2).attempt
    | classic archS archR coinS coinR delta bonus seed0 seed1 a b =>
      exact (classic_ends X archS archR coinS coinR delta bonus seed0 seed1 _ _ (base_correct C X b a) msg choices hk.1
        (Nat.dvd_of_mod_eq_zero hk.2) he hn hm).attempt
  · rw [if_neg he, if_neg he]
    cases kind with
    | base a b =>
      exact EndsErr.attempt ((validate_fails (pb := ⟨msg.length, "Chou-Orlandi"⟩) (pb' := ⟨choices.length, "Chou-Orlandi"⟩)
        ⟨hn, co_name⟩ ⟨hn', co_name⟩ (by simpa using he)).bind _ _)
    | extension s r =>
      obtain ⟨hs, hr, h8, h8', -⟩ := hk
      exact EndsErr.attempt (apricot_mismatch X _ _ _ _ _ _ _ _ _ _ _ _ _ _ _ msg choices he h8 h8' hn hn')
    | classic archS archR coinS coinR delta bonus seed0 seed1 a b =>
      exact EndsErr.attempt (classic_mismatch X _ _ _ _ _ _ _ _ _ _ msg choices he hk.1 hk.2 hn hn')

/-- C68: any number of transfers of any kinds on one connection, with a new choice of messages each time, on every schedule:
each one delivers exactly the chosen messages, or is refused on both sides if the parties disagree about the number of
messages; a refused transfer has no effect on the later ones, and nothing is left in flight at the end. -/
theorem C68_transfers (C : Curve) (X : Crypto) (calls : List Call) (h : ∀ c ∈ calls, c.Sound) :
    Completes (session (calls.map (Call.sender C X))) (session (calls.map (Call.receiver C X)))
      (calls.map Call.sent) (calls.map Call.received) :=
  (session_ends _ _ _ _ calls fun c hc => call_ends C X c (h c hc)).completes

theorem attempt_fair (C : Curve) (X : Crypto) (a : Attempt) (h : a.Sound) :
    ∃ r r', Ends (attempt (fpakeFirst C X a.g1 a.o1 a.p a.t1)) (attempt (fpakeSecond C X a.o2 a.g2 a.q a.t2)) r r' ∧
      a.Fair X r r' := by
  obtain ⟨hg1, hg2, ho1, ho2, hlen, hq, ht1, ht2⟩ := h
  by_cases hl : a.q.length = a.p.length
  · obtain ⟨x, x', y, y', h1, h4, hx, hy, hx', hy'⟩ :=
      both_ends C X a.g1 a.g2 a.o1 a.o2 hg1 hg2 ho1 ho2 a.p a.q a.t1 a.t2 hl hlen ht1 ht2
    refine ⟨.ok (combine x y), .ok (combine y' x'), Ends.attempt ?_, fun h => absurd hl h,
      fun _ => ⟨_, _, rfl, rfl, fun d1 d2 => ?_, fun d1 d2 hc => ?_, fun d1 d2 hc => ?_⟩⟩
    · unfold fpakeFirst fpakeSecond
      exact .bind h1 (.bind h4 (.ret _ _))
    · rw [← hx d1, ← hy d2, C12_combine_comm]
    · rw [← hy d2, C12_combine_comm x y]
      exact fun e => hx' d1 hc (C12_combine_inj _ _ _ e)
    · rw [← hx d1, C12_combine_comm y' x]
      exact fun e => hy' d2 hc (C12_combine_inj _ _ _ e)
  · refine ⟨_, _, EndsErr.attempt (e := .badProperties) (e' := .badProperties) ?_, fun _ => ⟨rfl, rfl⟩, fun h => absurd h hl⟩
    unfold fpakeFirst fpakeSecond
    exact (half_mismatch C X a.g1 a.o2 a.p a.q a.t1 hl hlen hq ht1).bind _ _

/-- C68: any number of attempts to derive a key on one connection, with new passwords and thresholds each time, on every
schedule: each attempt gives what it would give on a connection of its own, whatever happened before. -/
theorem C68_attempts (C : Curve) (X : Crypto) (attempts : List Attempt) (h : ∀ a ∈ attempts, a.Sound) :
    ∃ r r' : Attempt → Except ErrKind WireBytes,
      Completes (session (attempts.map fun a => fpakeFirst C X a.g1 a.o1 a.p a.t1))
        (session (attempts.map fun a => fpakeSecond C X a.o2 a.g2 a.q a.t2)) (attempts.map r) (attempts.map r') ∧
      ∀ a ∈ attempts, a.Fair X (r a) (r' a) := by
  classical
  refine ⟨fun a => if ha : a.Sound then (attempt_fair C X a ha).choose else .error .other,
    fun a => if ha : a.Sound then (attempt_fair C X a ha).choose_spec.choose else .error .other,
    (session_ends _ _ _ _ attempts fun a ha => ?_).completes, fun a ha => ?_⟩
  · rw [dif_pos (h a ha), dif_pos (h a ha)]
    exact (attempt_fair C X a (h a ha)).choose_spec.choose_spec.1
  · dsimp only
    rw [dif_pos (h a ha), dif_pos (h a ha)]
    exact (attempt_fair C X a (h a ha)).choose_spec.choose_spec.2

/-- A refused transfer, then one over the extension, then a base transfer of two pairs. -/
example (C : Curve) (X : Crypto) (s : OTSend) (r : OTRecv) (hs : s.Valid) (hr : r.Valid) :
    Completes
      (session [coSender C X (fun _ => 5) [([1], [2])], s.run C X (List.replicate 8 ([3], [4])), coSender C X id [([], [7]), ([8, 9], [1])]])
      (session [coReceiver C X (fun _ => 6) [], r.run C X (List.replicate 8 true), coReceiver C X id [true, false]])
      [.error .badProperties, .ok (), .ok ()]
      [.error .badProperties, .ok (List.replicate 8 [4]), .ok [[7], [8, 9]]] := by
  refine C68_transfers C X [⟨.base (fun _ => 5) fun _ => 6, [([1], [2])], []⟩,
    ⟨.extension s r, List.replicate 8 ([3], [4]), List.replicate 8 true⟩, ⟨.base id id, [([], [7]), ([8, 9], [1])], [true, false]⟩] ?_
  intro c hc
  simp only [List.mem_cons, List.not_mem_nil, or_false] at hc
  rcases hc with rfl | rfl | rfl
  · exact ⟨by decide, by decide, by decide, trivial⟩
  · have hl : (List.replicate 8 (([3], [4]) : Bytes × Bytes)).length = 8 := rfl
    have hc : (List.replicate 8 true).length = 8 := rfl
    refine ⟨?_, ?_, ?_, hs, hr, ?_, ?_, fun _ => ⟨?_, 1, by decide, by decide, ?_⟩⟩ <;> dsimp only
    · omega
    · omega
    · intro m hm
      rw [(List.mem_replicate.mp hm).2]
      decide
    · omega
    · omega
    · omega
    · intro m hm
      rw [(List.mem_replicate.mp hm).2]
      decide
  · exact ⟨by decide, by decide, by decide, trivial⟩

/-- A first attempt with a password that is too short, and a second one that differs in one bit: the first is refused on
both sides, the second gives the same key. -/
example (C : Curve) (X : Crypto) (g1 g2 : GarblerDraws) (o1 o2 : OTRecv) (hg1 : g1.Valid) (hg2 : g2.Valid) (ho1 : o1.Valid)
    (ho2 : o2.Valid) :
    ∃ key, Completes (session [fpakeFirst C X g1 o1 [1, 2] 1, fpakeFirst C X g1 o1 [1, 2] 1])
      (session [fpakeSecond C X o2 g2 [1] 1, fpakeSecond C X o2 g2 [1, 3] 1])
      [.error .badProperties, .ok key] [.error .badProperties, .ok key] := by
  obtain ⟨r, r', h, hf⟩ := C68_attempts C X [⟨g1, g2, o1, o2, [1, 2], [1], 1, 1⟩, ⟨g1, g2, o1, o2, [1, 2], [1, 3], 1, 1⟩] (by
    intro a ha
    simp only [List.mem_cons, List.not_mem_nil, or_false] at ha
    rcases ha with rfl | rfl <;> exact ⟨hg1, hg2, ho1, ho2, .inl (by simp), by simp, by simp, by simp⟩)
  have h1 := (hf _ (.head _)).1 (by simp)
  obtain ⟨k, k', e1, e2, hk, -, -⟩ := (hf _ (.tail _ (.head _))).2 rfl
  have hd : bitDistance [1, 2] [1, 3] ≤ 1 := by decide
  rw [← hk hd hd] at e2
  simp only [List.map_cons, List.map_nil, h1, e1, e2] at h
  exact ⟨k, h⟩

end FP.Props
