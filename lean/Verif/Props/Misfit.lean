import Verif.Proof.Misfit
import Verif.Props.OverflowMany
import Verif.Proof.Witness
/-
C82: a one-of-many client whose index or number of entries does not fit the server's database.
-/
namespace FP.Props
open Spec

theorem outcome_not_completes {α β : Type} {p : Proc α} {q : Proc β} {a : End α} {e : Fault} (h : Outcome p q a (.fails e))
    (x : α) (y : β) : ¬ Completes p q x y := by
  intro hc
  obtain ⟨n, hrun⟩ := hc.ends
  obtain ⟨m, h⟩ := h
  have := ((h n _ hrun).2 (stuck_ret_ret x y)).2
  cases this

theorem bothFail_not_completes {α β : Type} {p : Proc α} {q : Proc β} {e e' : Fault} (h : BothFail p q e e')
    (x : α) (y : β) : ¬ Completes p q x y := by
  intro hc
  obtain ⟨n, hrun⟩ := hc.ends
  obtain ⟨m, h⟩ := h
  have := ((h n _ hrun).2 (stuck_ret_ret x y)).2
  cases this

/-- The domains on the two sides. -/
theorem domains (dbg : Bool) {count number : Nat} (hpow : ∃ k, count = 2 ^ k) (hcount : count < 2 ^ 32) (h32 : number < 2 ^ 32)
    (hn : dbg = true → 0 < number) :
    ∃ d d', log2R dbg 64 count = .ok d ∧ log2R dbg 32 number = .ok d' ∧ log2R dbg 32 count = .ok d ∧ 2 ^ d = count ∧ d ≤ 32 ∧
      d' ≤ 32 ∧ (prepared number = count ↔ d = d') := by
  obtain ⟨d, h1, h2, h3⟩ := count_domain dbg hcount hpow
  obtain ⟨d', h4, h5, h6⟩ := prepared_eq dbg h32 hn
  obtain ⟨d2, h7, h8, -⟩ := log2_same dbg (n := count) (by obtain ⟨k, hk⟩ := hpow; rw [hk]; positivity) hcount
  rw [h1] at h7
  obtain rfl := Except.ok.inj h7
  refine ⟨d, d', h1, h4, h8, h2, h3, h6, ?_⟩
  rw [← h5, ← h2]
  exact ⟨fun h => (Nat.pow_right_injective (le_refl 2) h).symm, fun h => by rw [h]⟩

/-- How the run goes on from the 1-out-of-n transfer. -/
theorem misfit {α β : Type} {S : Proc α} {P : Proc β} (C : Curve) (X : Crypto) {o : ManySend} {base : Nat → Nat}
    {messages : List Bytes} {len index d d' : Nat} {K : Unit → Proc α} {L : Bytes → Proc β}
    (hdb : Database messages len) (ho : o.Valid X.dbg messages.length) (hd : 2 ^ d = messages.length)
    (hd32 : d ≤ 32) (hd' : d' ≤ 32) (hlen : 0 < len) (hfit : len < 2 ^ 32)
    (h : Gets S P (o.run C X messages d >>= K) (manyRecv C X base index d' >>= L)) :
    (d ≠ d' → BothFail S P (.err .badProperties) (.err .badProperties)) ∧
    (d = d' → messages.length ≤ index → Gets S P (K ()) (.fail .ub)) := by
  constructor
  · intro hne
    exact (EndsErr.gets h ((manyRun_mismatch C X hdb ho hd hd32 hd' hne hlen hfit).bind K L)).bothFail
  · rintro rfl hi
    exact h.trans (manyRun_outside C X hdb ho hd hd32 hi hlen hfit K L)

/-- C82, the fourth implementation.  A client told a number of entries that is not the server's, even after rounding
it up to a power of two, is turned away: both parties stop with the same error.  If it is, the number makes no
difference.  But an index beyond the database is not noticed: the client reads outside of the message it received, and
the server waits for it for ever. -/
theorem C82_v4_partial (C : Curve) (X : Crypto) (s : ManyDraws) (c : SingleDraws) (passwords : List Bytes) (password : Bytes)
    (len index number ts tc : Nat) (hdb : Database passwords len) (hlen : GoodLength len) (hg : s.g.Valid) (hts : ts < 65535)
    (hm : s.many.Valid X.dbg passwords.length) (hn : number < 2 ^ 32) (hz : X.dbg = true → 0 < number) :
    (prepared number ≠ passwords.length → BothFail (mfpakeMany C X s passwords ts)
      (mfpakeSingle C X c password index number tc) (.err .badProperties) (.err .badProperties)) ∧
    (prepared number = passwords.length → passwords.length ≤ index → Outcome (mfpakeMany C X s passwords ts)
      (mfpakeSingle C X c password index number tc) .waits (.fails .ub)) ∧
    (prepared number = passwords.length →
      mfpakeSingle C X c password index number tc = mfpakeSingle C X c password index passwords.length tc) := by
  obtain ⟨h0, hl32⟩ := good_fits hlen
  obtain ⟨d, d', h1, h2, h3, h4, h5, h6, h7⟩ := domains X.dbg hdb.power hdb.count hn hz
  obtain ⟨K, L, hgets, m, k, hK⟩ := many_prefix C X s c passwords password len index number ts tc hdb hlen hg hts h1 h2
  obtain ⟨r1, r2⟩ := misfit C X (Database.map hdb (drawMask_length s.mask len)) (by simpa using hm) (by simpa using h4) h5 h6 h0 hl32 hgets
  refine ⟨fun h => r1 fun e => h (h7.mpr e), fun h hi => ?_, fun h => ?_⟩
  · have := r2 (h7.mp h) (by simpa using hi)
    rw [hK] at this
    exact Outcome.left_asks this
  · unfold mfpakeSingle
    rw [h2, h3, h7.mp h]

example := C82_v4_partial Witness.curve (Witness.crypto true) Witness.manyDraws Witness.singleDraws Witness.passwords
    Witness.password 2 1 3 1 1 (by meets) (by meets) (by meets) (by meets) (by meets) (by meets) (by meets)

/-- C82, the fourth implementation: exactly when the exchange completes. -/
theorem C82_v4_exact (C : Curve) (X : Crypto) (s : ManyDraws) (c : SingleDraws) (passwords : List Bytes) (password : Bytes)
    (len index number ts tc : Nat) (hdb : Database passwords len) (hlen : GoodLength len) (hpw : password.length = len)
    (hm : s.many.Valid X.dbg passwords.length) (hsg : s.g.Valid) (hso : s.ot.Valid) (hcg : c.g.Valid) (hco : c.ot.Valid)
    (hts : ts < 65535) (htc : tc < 65535) (hn : number < 2 ^ 32) (hz : X.dbg = true → 0 < number) :
    (∃ k k', Completes (mfpakeMany C X s passwords ts) (mfpakeSingle C X c password index number tc) k k') ↔
      prepared number = passwords.length ∧ index < passwords.length := by
  obtain ⟨r1, r2, r3⟩ := C82_v4_partial C X s c passwords password len index number ts tc hdb hlen hsg hts hm hn hz
  constructor
  · rintro ⟨k, k', h⟩
    have hp : prepared number = passwords.length := by
      by_contra hne
      exact bothFail_not_completes (r1 hne) _ _ h
    refine ⟨hp, ?_⟩
    by_contra hi
    exact outcome_not_completes (r2 hp (by omega)) _ _ h
  · rintro ⟨hp, hi⟩
    rw [r3 hp]
    obtain ⟨k, k', h, -⟩ := C32_distant_partial C X s c passwords password len index ts tc hdb hlen hpw hi hm hsg hso hcg hco hts htc
    exact ⟨k, k', h⟩

example := C82_v4_exact Witness.curve (Witness.crypto true) Witness.manyDraws Witness.singleDraws Witness.passwords
    Witness.password 2 1 3 1 1 (by meets) (by meets) (by meets) (by meets) (by meets) (by meets) (by meets) (by meets)
    (by meets) (by meets) (by meets) (by meets)

/-- C82, the third implementation (the half in which the client names an index). -/
theorem C82_v3_partial (C : Curve) (X : Crypto) (s : ServerDraws) (c : ClientDraws) (passwords : List Bytes) (password : Bytes)
    (len index number t : Nat) (hdb : Database passwords len) (hlen : GoodLength len) (hpw : password.length = len)
    (hg : s.g.Valid) (hco : c.ot.Valid) (ht : t < 65535) (hm : s.many.Valid X.dbg passwords.length) (hn : number < 2 ^ 32)
    (hz : X.dbg = true → 0 < number) :
    (prepared number ≠ passwords.length → BothFail (garblerServerV3 C X s passwords t)
      (evaluatorClientV3 C X c password number index) (.err .badProperties) (.err .badProperties)) ∧
    (prepared number = passwords.length → passwords.length ≤ index → Outcome (garblerServerV3 C X s passwords t)
      (evaluatorClientV3 C X c password number index) .waits (.fails .ub)) ∧
    (prepared number = passwords.length →
      evaluatorClientV3 C X c password number index = evaluatorClientV3 C X c password passwords.length index) := by
  obtain ⟨h0, hl32⟩ := good_fits hlen
  obtain ⟨d, d', h1, h2, h3, h4, h5, h6, h7⟩ := domains X.dbg hdb.power hdb.count hn hz
  obtain ⟨K, L, hgets, m, k, hK⟩ := serverV3_prefix C X s c passwords password len index number t hdb hlen hpw hg hco ht h1 h2
  obtain ⟨r1, r2⟩ := misfit C X (Database.map hdb (drawMask_length s.mask len)) (by simpa using hm) (by simpa using h4) h5 h6 h0 hl32 hgets
  refine ⟨fun h => r1 fun e => h (h7.mpr e), fun h hi => ?_, fun h => ?_⟩
  · have := r2 (h7.mp h) (by simpa using hi)
    rw [hK] at this
    exact Outcome.left_asks this
  · unfold evaluatorClientV3
    rw [h2, h3, h7.mp h]

example := C82_v3_partial Witness.curve (Witness.crypto true) Witness.serverDraws Witness.clientDraws Witness.passwords
    Witness.password 2 1 3 1 (by meets) (by meets) (by meets) (by meets) (by meets) (by meets) (by meets) (by meets)
    (by meets)

/-- C82, the third implementation: exactly when the half completes. -/
theorem C82_v3_exact (C : Curve) (X : Crypto) (s : ServerDraws) (c : ClientDraws) (passwords : List Bytes) (password : Bytes)
    (len index number t : Nat) (hdb : Database passwords len) (hlen : GoodLength len) (hpw : password.length = len)
    (hm : s.many.Valid X.dbg passwords.length) (hsg : s.g.Valid) (hs2 : s.ot2.Valid) (hco : c.ot.Valid) (hco2 : c.ot2.Valid)
    (ht : t < 65535) (hn : number < 2 ^ 32) (hz : X.dbg = true → 0 < number) :
    (∃ r r', Completes (garblerServerV3 C X s passwords t) (evaluatorClientV3 C X c password number index) r r') ↔
      prepared number = passwords.length ∧ index < passwords.length := by
  obtain ⟨r1, r2, r3⟩ := C82_v3_partial C X s c passwords password len index number t hdb hlen hpw hsg hco ht hm hn hz
  constructor
  · rintro ⟨k, k', h⟩
    have hp : prepared number = passwords.length := by
      by_contra hne
      exact bothFail_not_completes (r1 hne) _ _ h
    refine ⟨hp, ?_⟩
    by_contra hi
    exact outcome_not_completes (r2 hp (by omega)) _ _ h
  · rintro ⟨hp, hi⟩
    rw [r3 hp]
    obtain ⟨k, k', mask, -, h, -⟩ := serverV3_ends C X s c passwords password len index t hdb hlen hpw hi hm hsg hs2 hco hco2 ht
    exact ⟨_, _, h.completes⟩

example := C82_v3_exact Witness.curve (Witness.crypto true) Witness.serverDraws Witness.clientDraws Witness.passwords
    Witness.password 2 1 3 1 (by meets) (by meets) (by meets) (by meets) (by meets) (by meets) (by meets) (by meets)
    (by meets) (by meets) (by meets)

/-- C82, the second implementation with the server garbling. -/
theorem C82_v2_server_garbles_partial (C : Curve) (X : Crypto) (s : ServerDraws) (c : ClientDraws) (passwords : List Bytes)
    (password : Bytes) (len index number t : Nat) (hdb : Database passwords len) (hlen : GoodLength len)
    (hpw : password.length = len) (hg : s.g.Valid) (hco : c.ot.Valid) (ht : t < 65535)
    (hm : s.many.Valid X.dbg passwords.length) (hn : number < 2 ^ 32) (hz : X.dbg = true → 0 < number) :
    (prepared number ≠ passwords.length → BothFail (garblerServerV2 C X s passwords t)
      (evaluatorClientV2 C X c password number index) (.err .badProperties) (.err .badProperties)) ∧
    (prepared number = passwords.length → passwords.length ≤ index → Outcome (garblerServerV2 C X s passwords t)
      (evaluatorClientV2 C X c password number index) .waits (.fails .ub)) ∧
    (prepared number = passwords.length →
      evaluatorClientV2 C X c password number index = evaluatorClientV2 C X c password passwords.length index) := by
  obtain ⟨h0, hl32⟩ := good_fits hlen
  obtain ⟨d, d', h1, h2, h3, h4, h5, h6, h7⟩ := domains X.dbg hdb.power hdb.count hn hz
  obtain ⟨K, L, hgets, m, k, hK⟩ := serverV3_prefix C X s c passwords password len index number t hdb hlen hpw hg hco ht h1 h2
  rw [garblerServerV2_eq, evaluatorClientV2_eq]
  have hgets2 := Steps.andThen hgets (fun k : WireBytes × Bytes => Proc.ret k.1) (fun k : WireBytes × Bytes => Proc.ret k.1)
  change Gets (garblerServerV3 C X s passwords t >>= _) (evaluatorClientV3 C X c password number index >>= _) ((_ >>= K) >>= _)
    ((_ >>= L) >>= _) at hgets2
  rw [bindP_assoc, bindP_assoc] at hgets2
  obtain ⟨r1, r2⟩ := misfit C X (Database.map hdb (drawMask_length s.mask len)) (by simpa using hm) (by simpa using h4) h5 h6 h0 hl32 hgets2
  refine ⟨fun h => r1 fun e => h (h7.mpr e), fun h hi => ?_, fun h => ?_⟩
  · have := r2 (h7.mp h) (by simpa using hi)
    rw [hK] at this
    exact Outcome.left_asks this
  · rw [evaluatorClientV2_eq C X c password passwords.length index]
    unfold evaluatorClientV3
    rw [h2, h3, h7.mp h]

example := C82_v2_server_garbles_partial Witness.curve (Witness.crypto true) Witness.serverDraws Witness.clientDraws
    Witness.passwords Witness.password 2 1 3 1 (by meets) (by meets) (by meets) (by meets) (by meets) (by meets)
    (by meets) (by meets) (by meets)

/-- C82, the second implementation with the client garbling. -/
theorem C82_v2_client_garbles_partial (C : Curve) (X : Crypto) (s : ServerEvaluator2) (g : ClientGarbler2) (passwords : List Bytes)
    (password : Bytes) (len index number t : Nat) (hdb : Database passwords len) (hlen : GoodLength len)
    (hpw : password.length = len) (hg : g.g.Valid) (ho : s.ot.Valid) (ht : t < 65535)
    (hm : s.many.Valid X.dbg passwords.length) (hn : number < 2 ^ 32) (hz : X.dbg = true → 0 < number) :
    (prepared number ≠ passwords.length → BothFail (evaluatorServerV2 C X s passwords)
      (garblerClientV2 C X g password index number t) (.err .badProperties) (.err .badProperties)) ∧
    (prepared number = passwords.length → passwords.length ≤ index → Outcome (evaluatorServerV2 C X s passwords)
      (garblerClientV2 C X g password index number t) .waits (.fails .ub)) ∧
    (prepared number = passwords.length →
      garblerClientV2 C X g password index number t = garblerClientV2 C X g password index passwords.length t) := by
  obtain ⟨h0, hl32⟩ := good_fits hlen
  obtain ⟨d, d', h1, h2, h3, h4, h5, h6, h7⟩ := domains X.dbg hdb.power hdb.count hn hz
  obtain ⟨K, L, hgets, k, hK⟩ := clientV2_prefix C X s g passwords password len index number t hdb hlen hpw hg ho ht h1 h2
  obtain ⟨r1, r2⟩ := misfit C X (Database.map hdb (drawMask_length s.mask len)) (by simpa using hm) (by simpa using h4) h5 h6 h0 hl32 hgets
  refine ⟨fun h => r1 fun e => h (h7.mpr e), fun h hi => ?_, fun h => ?_⟩
  · have := r2 (h7.mp h) (by simpa using hi)
    rw [hK] at this
    exact Outcome.left_waits this
  · unfold garblerClientV2
    rw [h2, h3, h7.mp h]

example := C82_v2_client_garbles_partial Witness.curve (Witness.crypto true) Witness.serverEvaluator2
    Witness.clientGarbler2 Witness.passwords Witness.password 2 1 3 1 (by meets) (by meets) (by meets) (by meets)
    (by meets) (by meets) (by meets) (by meets) (by meets)

/-- C82, the first implementation with the server garbling: here the server even returns a key to its caller while the
client reads outside of the message. -/
theorem C82_v1_server_garbles_partial (C : Curve) (X : Crypto) (s : ServerDraws1) (c : ClientDraws1) (passwords : List Bytes)
    (password : Bytes) (len index number t : Nat) (hdb : Database passwords len) (hlen : GoodLength len)
    (hpw : password.length = len) (hg : s.g.Valid) (hco : c.ot.Valid) (ht : t < 65535)
    (hm : s.many.Valid X.dbg passwords.length) (hn : number < 2 ^ 32) (hz : X.dbg = true → 0 < number) :
    (prepared number ≠ passwords.length → BothFail (garblerServerV1 C X s passwords t)
      (evaluatorClientV1 C X c password number index) (.err .badProperties) (.err .badProperties)) ∧
    (prepared number = passwords.length → passwords.length ≤ index → ∃ key, Outcome (garblerServerV1 C X s passwords t)
      (evaluatorClientV1 C X c password number index) (.returns key) (.fails .ub)) ∧
    (prepared number = passwords.length →
      evaluatorClientV1 C X c password number index = evaluatorClientV1 C X c password passwords.length index) := by
  obtain ⟨h0, hl32⟩ := good_fits hlen
  obtain ⟨-, hn', -⟩ := goodLength hlen
  obtain ⟨d, d', h1, h2, h3, h4, h5, h6, h7⟩ := domains X.dbg hdb.power hdb.count hn hz
  obtain ⟨K, L, messages, hdb', hml, hgets, key, hK⟩ := serverV1_prefix C X s c passwords password len index number t hdb hlen hpw
    hg hco ht h1 h2
  obtain ⟨r1, r2⟩ := misfit C X hdb' (by rw [hml]; exact hm) (by rw [hml]; exact h4) h5 h6 (by omega) (by omega) hgets
  refine ⟨fun h => r1 fun e => h (h7.mpr e), fun h hi => ?_, fun h => ?_⟩
  · have := r2 (h7.mp h) (by rw [hml]; exact hi)
    rw [hK] at this
    exact ⟨key, Outcome.left_returns this⟩
  · unfold evaluatorClientV1
    rw [h2, h3, h7.mp h]

example := C82_v1_server_garbles_partial Witness.curve (Witness.crypto true) Witness.serverDraws1 Witness.clientDraws1
    Witness.passwords Witness.password 2 1 3 1 (by meets) (by meets) (by meets) (by meets) (by meets) (by meets)
    (by meets) (by meets) (by meets)

/-- C82, the first and second implementations: exactly when the halves complete. -/
theorem C82_legacy_exact (C : Curve) (X : Crypto) (passwords : List Bytes) (password : Bytes)
    (len index number t : Nat) (hdb : Database passwords len) (hlen : GoodLength len) (hpw : password.length = len)
    (ht : t < 65535) (hn : number < 2 ^ 32) (hz : X.dbg = true → 0 < number) :
    (∀ (s : ServerDraws) (c : ClientDraws), s.many.Valid X.dbg passwords.length → s.g.Valid → s.ot2.Valid → c.ot.Valid → c.ot2.Valid →
      ((∃ k k', Completes (garblerServerV2 C X s passwords t) (evaluatorClientV2 C X c password number index) k k') ↔
        prepared number = passwords.length ∧ index < passwords.length)) ∧
    (∀ (s : ServerEvaluator2) (g : ClientGarbler2), s.many.Valid X.dbg passwords.length → s.ot.Valid → g.g.Valid →
      ((∃ k k', Completes (evaluatorServerV2 C X s passwords) (garblerClientV2 C X g password index number t) k k') ↔
        prepared number = passwords.length ∧ index < passwords.length)) ∧
    (∀ (s : ServerDraws1) (c : ClientDraws1), s.many.Valid X.dbg passwords.length → s.g.Valid → c.ot.Valid →
      ((∃ k k', Completes (garblerServerV1 C X s passwords t) (evaluatorClientV1 C X c password number index) k k') ↔
        prepared number = passwords.length ∧ index < passwords.length)) := by
  have key : ∀ {S P P' : Proc WireBytes},
      (prepared number ≠ passwords.length → BothFail S P (.err .badProperties) (.err .badProperties)) →
      (prepared number = passwords.length → passwords.length ≤ index → ∃ b, Outcome S P b (.fails .ub)) →
      (prepared number = passwords.length → P = P') →
      (index < passwords.length → ∃ k k', Completes S P' k k') →
      ((∃ k k', Completes S P k k') ↔ prepared number = passwords.length ∧ index < passwords.length) := by
    intro S P P' r1 r2 r3 r4
    constructor
    · rintro ⟨k, k', h⟩
      have hp : prepared number = passwords.length := by
        by_contra hne
        exact bothFail_not_completes (r1 hne) _ _ h
      refine ⟨hp, ?_⟩
      by_contra hi
      obtain ⟨b, ho⟩ := r2 hp (by omega)
      exact outcome_not_completes ho _ _ h
    · rintro ⟨hp, hi⟩
      rw [r3 hp]
      exact r4 hi
  refine ⟨fun s c hm hg hs2 hco hco2 => ?_, fun s g hm ho hg => ?_, fun s c hm hg hco => ?_⟩
  · obtain ⟨r1, r2, r3⟩ := C82_v2_server_garbles_partial C X s c passwords password len index number t hdb hlen hpw hg hco ht hm hn hz
    refine key r1 (fun h hi => ⟨_, r2 h hi⟩) r3 fun hi => ?_
    obtain ⟨k, k', h, -⟩ := serverV2_ends C X s c passwords password len index t hdb hlen hpw hi hm hg hs2 hco hco2 ht
    exact ⟨k, k', h.completes⟩
  · obtain ⟨r1, r2, r3⟩ := C82_v2_client_garbles_partial C X s g passwords password len index number t hdb hlen hpw hg ho ht hm hn hz
    refine key r1 (fun h hi => ⟨_, r2 h hi⟩) r3 fun hi => ?_
    obtain ⟨k, k', h, -⟩ := clientV2_ends C X g s passwords password len index t hdb hlen hpw hi hm hg ho ht
    exact ⟨k, k', h.completes⟩
  · obtain ⟨r1, r2, r3⟩ := C82_v1_server_garbles_partial C X s c passwords password len index number t hdb hlen hpw hg hco ht hm hn hz
    refine key r1 (fun h hi => by obtain ⟨k, h⟩ := r2 h hi; exact ⟨_, h⟩) r3 fun hi => ?_
    obtain ⟨k, k', h, -⟩ := serverV1_ends C X s c passwords password len index t hdb hlen hpw hi hm hg hco ht
    exact ⟨k, k', h.completes⟩

example := C82_legacy_exact Witness.curve (Witness.crypto true) Witness.passwords Witness.password 2 1 3 1 (by meets)
    (by meets) (by meets) (by meets) (by meets) (by meets)

/-- C82, the first implementation with the client garbling: any other number of entries is turned away, also one that
is the same after rounding up, and an index beyond the number makes the client panic. -/
theorem C82_v1_client_garbles_partial (C : Curve) (X : Crypto) (g : ClientGarbler1) (o : OTRecv) (passwords : List Bytes)
    (password : Bytes) (len index number t : Nat) (hdb : ∀ p ∈ passwords, p.length = len) (hlen : GoodLength len)
    (hcount : 0 < passwords.length) (hcount' : passwords.length < 2 ^ 32) (h2 : 2 ≤ number) (h32 : number < 2 ^ 32)
    (hpw : password.length = len) (hg : g.g.Valid) (ht : t < 65535) :
    (number ≠ passwords.length → index < number → BothFail (evaluatorServerV1 C X o passwords)
      (garblerClientV1 C X g password index number t) (.err .badProperties) (.err .badProperties)) ∧
    (number ≤ index → ∀ inputs,
      ((garblerClientV1 C X g password index number t).against inputs).2 = some (.error .panic)) :=
  ⟨fun hne hi => (clientV1_mismatch C X g o passwords password len index number t hdb hlen hcount hcount' h2 h32 hne hi hpw hg
    ht).bothFail, fun hi inputs => C34_v1_panics C X g password index number t inputs (by rw [hpw]; exact hlen) ht hg
      (.inl ⟨h2, h32, hi⟩)⟩

example := C82_v1_client_garbles_partial Witness.curve (Witness.crypto true) Witness.clientGarbler1 Witness.recv
    Witness.passwords Witness.password 2 1 3 1 (by meets) (by meets) (by meets) (by meets) (by meets) (by meets)
    (by meets) (by meets) (by meets)

/-- C82, a number of entries of zero: in a build with overflow checks the client panics, whatever it is sent. -/
theorem C82_zero (C : Curve) (X : Crypto) (hdbg : X.dbg = true) (password : Bytes) (index t : Nat) :
    (∀ c, mfpakeSingle C X c password index 0 t = .fail .panic) ∧
    (∀ c, NeverReturns (evaluatorClientV3 C X c password 0 index)) ∧
    (∀ c, NeverReturns (evaluatorClientV2 C X c password 0 index)) ∧
    (∀ c, NeverReturns (garblerClientV2 C X c password index 0 t)) ∧
    (∀ c, NeverReturns (evaluatorClientV1 C X c password 0 index)) := by
  have hl : log2R X.dbg 32 0 = .error .panic := by rw [hdbg]; decide
  have hf : ∀ {α : Type} (f : Nat → Proc α), NeverReturns ((liftM (log2R X.dbg 32 0) : Proc Nat) >>= f) := by
    intro α f
    exact never_lift _ fun a h => by rw [hl] at h; cases h
  refine ⟨fun c => ?_, fun c => ?_, fun c => ?_, fun c => ?_, fun c => ?_⟩
  · unfold mfpakeSingle
    rw [hl]
    rfl
  · unfold evaluatorClientV3
    exact never_right _ fun _ => never_right _ fun _ => never_right _ fun _ => never_right _ fun _ => never_right _ fun _ => hf _
  · unfold evaluatorClientV2
    exact never_right _ fun _ => never_right _ fun _ => never_right _ fun _ => never_right _ fun _ => never_right _ fun _ => hf _
  · unfold garblerClientV2
    exact never_right _ fun _ => never_right _ fun _ => never_right _ fun _ => never_right _ fun _ => never_right _ fun _ =>
      never_right _ fun _ => never_right _ fun _ => never_right _ fun _ => hf _
  · unfold evaluatorClientV1
    exact never_right _ fun _ => never_right _ fun _ => never_right _ fun _ => never_right _ fun _ => hf _

example := C82_zero Witness.curve (Witness.crypto true) (by meets) Witness.password 1 1

/-! ### The hypotheses can be met, and all cases occur -/

/-- A database of four passwords; a client told three prepares for four, one told five for eight, and one told none for
`2^32`. -/
example : Database [[0], [1], [2], [3]] 1 ∧ prepared 3 = 4 ∧ prepared 4 = 4 ∧ prepared 5 = 8 ∧ prepared 1 = 1 ∧
    prepared 0 = 2 ^ 32 := by
  refine ⟨⟨⟨2, rfl⟩, by decide, by decide⟩, ?_, ?_, ?_, ?_, by simp [prepared]⟩ <;>
    simp [prepared, roundedUp, Nat.clog_of_two_le, Nat.clog_of_right_le_one]

/-- Draws for that database, and for the client. -/
example (dbg : Bool) : (someMany 4).Valid dbg 4 ∧ zeroDraws.Valid ∧ someRecv.Valid ∧ GoodLength 1 :=
  ⟨someMany_valid _ _ (by decide), zeroDraws_valid, someRecv_valid, by decide⟩

end FP.Props
