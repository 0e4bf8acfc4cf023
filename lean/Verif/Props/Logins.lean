import Verif.Spec.Logins
import Verif.Props.Session
import Verif.Props.OverflowMany
import Verif.Proof.Witness
/-
C68, continued: 1-out-of-n transfers and logins against a database, again and again.
-/
namespace FP.Props
open FP FP.Spec

theorem lookup_ends (C : Curve) (X : Crypto) (l : Lookup) (h : l.Sound X) :
    ∃ d, log2R X.dbg 64 l.messages.length = .ok d ∧
      Ends (attempt (l.send.run C X l.messages d)) (attempt (manyRecv C X l.base l.index d)) (.ok ())
        (.ok (l.messages.getD l.index [])) := by
  obtain ⟨len, h0, h32, hdb, hi, hv⟩ := h
  obtain ⟨d, h1, -, h2⟩ := manyRun_ends C X (base := l.base) hdb hv hi h0 h32
  refine ⟨d, h1, ?_⟩
  rw [List.getD_eq_getElem?_getD, List.getElem?_eq_getElem hi]
  exact h2.attempt

/-- C68: any number of 1-out-of-n transfers on one connection, with new messages and a new index each time, on every
schedule: each one delivers exactly the message at its index, and nothing is left in flight at the end.  (The number of
bits of an index is what `log2` returns for the number of messages.) -/
theorem C68_lookups (C : Curve) (X : Crypto) (lookups : List Lookup) (h : ∀ l ∈ lookups, l.Sound X) :
    Completes
      (session (lookups.map fun l => do let d ← log2R X.dbg 64 l.messages.length; l.send.run C X l.messages d))
      (session (lookups.map fun l => do let d ← log2R X.dbg 64 l.messages.length; manyRecv C X l.base l.index d))
      (lookups.map fun _ => .ok ()) (lookups.map fun l => .ok (l.messages.getD l.index [])) := by
  refine (session_ends (fun l : Lookup => do let d ← log2R X.dbg 64 l.messages.length; l.send.run C X l.messages d)
    (fun l : Lookup => do let d ← log2R X.dbg 64 l.messages.length; manyRecv C X l.base l.index d) _ _ lookups
    fun l hl => ?_).completes
  obtain ⟨d, h1, h2⟩ := lookup_ends C X l (h l hl)
  rw [h1, liftM_ok, ret_bind, ret_bind]
  exact h2

example := C68_lookups Witness.curve (Witness.crypto true)
    [⟨Witness.many, (· + 3), Witness.passwords, 1⟩, ⟨Witness.many, (· + 4), Witness.passwords, 3⟩] (by
      intro l hl
      simp only [List.mem_cons, List.not_mem_nil, or_false] at hl
      rcases hl with rfl | rfl <;>
        exact ⟨2, by decide, by decide, Witness.database, by decide, Witness.many_valid _⟩)

theorem login_fair (C : Curve) (X : Crypto) (l : Login) (h : l.Sound X) :
    ∃ r r', Ends (attempt (mfpakeMany C X l.s l.passwords l.ts))
      (attempt (mfpakeSingle C X l.c l.password l.index l.passwords.length l.tc)) r r' ∧ l.Fair X r r' := by
  obtain ⟨hdb, hlen, hi, hm, hsg, hso, hcg, hco, hts, htc⟩ := h
  obtain ⟨a, a', b, b', h, ha, hb, ha', hb'⟩ := many_ends C X l.s l.c l.passwords l.password l.password l.password.length l.index
    l.ts l.tc hdb hlen rfl hi hm hsg hso hcg hco hts htc fun m hl => xorBytesInplace_ok X.dbg (by omega)
  refine ⟨_, _, h.attempt, ?_⟩
  unfold Login.Fair
  rw [List.getD_eq_getElem?_getD, List.getElem?_eq_getElem hi]
  refine ⟨_, _, rfl, rfl, fun h1 h2 => ?_, fun h1 h2 hnc e => ?_, fun h1 h2 hnc e => ?_⟩
  · rw [← ha h1, ← hb h2]
  · rw [← hb h2, C12_combine_comm a b, C12_combine_comm a' b] at e
    exact ha' h1 hnc (C12_combine_inj _ _ _ e)
  · rw [← ha h1] at e
    exact hb' h2 hnc (C12_combine_inj _ _ _ e)

/-- C68: any number of logins against databases on one connection, with new passwords, indices and thresholds each time,
on every schedule: each login gives what it would give on a connection of its own, whatever happened before. -/
theorem C68_logins (C : Curve) (X : Crypto) (logins : List Login) (h : ∀ l ∈ logins, l.Sound X) :
    ∃ r r' : Login → Except ErrKind WireBytes,
      Completes (session (logins.map fun l => mfpakeMany C X l.s l.passwords l.ts))
        (session (logins.map fun l => mfpakeSingle C X l.c l.password l.index l.passwords.length l.tc))
        (logins.map r) (logins.map r') ∧
      ∀ l ∈ logins, l.Fair X (r l) (r' l) := by
  classical
  refine ⟨fun l => if hl : l.Sound X then (login_fair C X l hl).choose else .error .other,
    fun l => if hl : l.Sound X then (login_fair C X l hl).choose_spec.choose else .error .other,
    (session_ends _ _ _ _ logins fun l hl => ?_).completes, fun l hl => ?_⟩
  · rw [dif_pos (h l hl), dif_pos (h l hl)]
    exact (login_fair C X l (h l hl)).choose_spec.choose_spec.1
  · dsimp only
    rw [dif_pos (h l hl), dif_pos (h l hl)]
    exact (login_fair C X l (h l hl)).choose_spec.choose_spec.2

example := C68_logins Witness.curve (Witness.crypto true)
    [⟨Witness.manyDraws, Witness.singleDraws, Witness.passwords, Witness.password, 1, 1, 1⟩,
      ⟨Witness.manyDraws, Witness.singleDraws, Witness.passwords, Witness.password, 2, 3, 0⟩] (by
      intro l hl
      simp only [List.mem_cons, List.not_mem_nil, or_false] at hl
      rcases hl with rfl | rfl <;>
        exact ⟨Witness.database, by meets, by decide, Witness.many_valid _, Witness.g_valid, Witness.recv_valid,
          Witness.g'_valid, Witness.recv_valid, by decide, by decide⟩)

/-- Two logins against a database of two passwords of one byte: the second one for the other entry and with one wrong
bit. -/
example (X : Crypto) : ∀ l ∈ [
    (⟨⟨fun _ => 0, someMany 2, zeroDraws, someRecv⟩, zeroSingleDraws, [[1], [2]], [1], 0, 1, 1⟩ : Login),
    ⟨⟨fun _ => 0, someMany 2, zeroDraws, someRecv⟩, zeroSingleDraws, [[1], [2]], [3], 1, 1, 1⟩], l.Sound X := by
  intro l hl
  simp only [List.mem_cons, List.not_mem_nil, or_false] at hl
  rcases hl with rfl | rfl <;>
  exact ⟨⟨⟨1, rfl⟩, by decide, by decide⟩, .inl (by decide), by decide, someMany_valid _ _ (by decide), zeroDraws_valid,
    someRecv_valid, zeroDraws_valid, someRecv_valid, by decide, by decide⟩

/-- Three lookups in a list of four messages of two bytes. -/
example (X : Crypto) : ∀ l ∈ [3, 0, 3].map fun i => (⟨someMany 4, id, [[1, 1], [2, 2], [3, 3], [4, 4]], i⟩ : Lookup), l.Sound X := by
  intro l hl
  simp only [List.map_cons, List.map_nil, List.mem_cons, List.not_mem_nil, or_false] at hl
  rcases hl with rfl | rfl | rfl <;>
  exact ⟨2, by decide, by decide, ⟨⟨2, rfl⟩, by decide, by decide⟩, by decide, someMany_valid _ _ (by decide)⟩

end FP.Props
