import Verif.Props.BaseOT
import Verif.Spec.Coin
import Verif.Proof.Witness
/-
C65: what a cheating party can do to the result of the coin flip.
-/
namespace FP.Props
open Spec

theorem xored_cancel {a b : Bytes} (h : a.length = b.length) : xored (xored a b) b = a := zipWith_xor_cancel h

theorem xored_comm (a b : Bytes) : xored a b = xored b a := by
  unfold xored; rw [List.zipWith_comm]; simp only [BitVec.xor_comm]

theorem xored_length {a b : Bytes} (h : a.length = b.length) : (xored a b).length = b.length := by
  unfold xored; simp [h]

theorem xored_assoc (a b c : Bytes) : xored (xored a b) c = xored a (xored b c) := by
  unfold xored
  induction a generalizing b c with
  | nil => simp
  | cons x a ih =>
    cases b with
    | nil => simp
    | cons y b =>
      cases c with
      | nil => simp
      | cons z c => simp [ih, BitVec.xor_assoc]

/-- What the receiver accepts, in terms of the strategy of its peer. -/
theorem receiverResult_ok (E : Env) (commit : Bytes) (f : Bytes → Bytes) (u w : Bytes) :
    receiverResult E commit f u = some (.ok w) ↔
      (f u).length = u.length ∧ commit = (E.sha256 (f u)).toList ∧ w = xored u (f u) := by
  unfold receiverResult
  rw [C19_receiver_accepts]
  constructor
  · rintro ⟨c, v, rest, e, h1, h2, h3⟩
    cases e
    exact ⟨h1, h2, h3⟩
  · rintro ⟨h1, h2, h3⟩
    exact ⟨_, _, _, rfl, h1, h2, h3⟩

/-- What the sender ends with. -/
theorem senderResult_eq (E : Env) (g : Bytes → Bytes) (v : Bytes) :
    senderResult E g v = some (if (g (E.sha256 v).toList).length = v.length then
      .ok (xored v (g (E.sha256 v).toList)) else .error (.err .coinflipLength)) := by
  unfold senderResult coinflipSender
  simp only [recvP_bind, sendP_bind, Proc.against]
  by_cases h : (g (E.sha256 v).toList).length = v.length
  · rw [if_pos h, if_neg (by simpa using h), xorAt_eq v _ h.symm]; rfl
  · rw [if_neg h, if_pos h]; rfl

/-- C65, cheating sender: the commitment fixes what it can open with, so among the contributions of the
receiver that lead to a result at all, no two lead to the same one.  The hypothesis is that the sender does not
open with two values that collide. -/
theorem C65_sender_cannot_choose (E : Env) (commit : Bytes) (f : Bytes → Bytes) (u u' w : Bytes)
    (hcoll : E.sha256 (f u) = E.sha256 (f u') → f u = f u')
    (h : receiverResult E commit f u = some (.ok w)) (h' : receiverResult E commit f u' = some (.ok w)) : u = u' := by
  rw [receiverResult_ok] at h h'
  obtain ⟨h1, h2, h3⟩ := h
  obtain ⟨h1', h2', h3'⟩ := h'
  have e : f u = f u' := hcoll (Vector.toList_inj.mp (h2.symm.trans h2'))
  rw [h3, e] at h3'
  rw [← xored_cancel (a := u) (b := f u') (by rw [← e, h1]), h3', xored_cancel h1'.symm]

/-- C65, cheating sender: it can refuse.  For every set of results there is a strategy by which the receiver
ends with a result exactly if it is in the set, and with an error otherwise; every result in the set occurs. -/
theorem C65_sender_refuses (E : Env) (N : Nat) (good : Bytes → Bool) :
    ∃ commit f, (∀ u : Bytes, u.length = N → ∃ w : Bytes, w.length = N ∧
        receiverResult E commit f u = some (if good w then .ok w else .error (.err .coinflipLength))) ∧
      ∀ w : Bytes, w.length = N → good w = true → ∃ u : Bytes, u.length = N ∧ receiverResult E commit f u = some (.ok w) := by
  let z : Bytes := List.replicate N 0
  have hz : z.length = N := by simp [z]
  refine ⟨(E.sha256 z).toList, fun u => if good (xored u z) then z else z ++ [0], fun u hu => ?_, fun w hw hg => ?_⟩
  · refine ⟨xored u z, by rw [xored_length (by rw [hu, hz]), hz], ?_⟩
    split
    · rename_i hg
      rw [receiverResult_ok, if_pos hg]
      exact ⟨by rw [hu, hz], rfl, rfl⟩
    · rename_i hg
      unfold receiverResult
      dsimp only
      rw [if_neg hg]
      exact (C19_receiver_rejects E u _ _ []).1 (by simp [hz, hu])
  · have hu : (xored w z).length = N := by rw [xored_length (by rw [hw, hz]), hz]
    have e : xored (xored w z) z = w := xored_cancel (by rw [hw, hz])
    refine ⟨xored w z, hu, ?_⟩
    rw [receiverResult_ok, e, if_pos hg]
    exact ⟨by rw [hu, hz], rfl, e.symm⟩

/-- C65, cheating receiver: for every difference `d` there is an involution on pairs of a hash function and a
contribution, exchanging two values of the hash, that leaves the commitment as it is and adds `d` to the
contribution.  So for a receiver that does not hash one of these two values all results are equally likely over
a random hash and a random contribution. -/
theorem C65_receiver_cannot_choose (dbg : Bool) (sha : Bytes → WireBytes) (v d : Bytes) (hd : v.length = d.length) :
    exchanged sha v (xored v d) (xored v d) = sha v ∧
    xored (xored v d) d = v ∧
    exchanged (exchanged sha v (xored v d)) (xored v d) v = sha ∧
    ∀ g : (Bytes → WireBytes) → Bytes → Bytes,
      (∀ sha' : Bytes → WireBytes, (∀ x, x ≠ v → x ≠ xored v d → sha' x = sha x) → g sha' (sha v).toList = g sha (sha v).toList) →
      ∀ w, senderResult ⟨dbg, sha⟩ (g sha) v = some (.ok w) →
        senderResult ⟨dbg, exchanged sha v (xored v d)⟩ (g (exchanged sha v (xored v d))) (xored v d) =
          some (.ok (xored w d)) := by
  have e1 : exchanged sha v (xored v d) (xored v d) = sha v := by
    unfold exchanged
    split
    · rename_i h; rw [h]
    · rw [if_pos rfl]
  have hl := xored_length hd
  refine ⟨e1, xored_cancel hd, ?_, fun g hg w hw => ?_⟩
  · funext x
    unfold exchanged
    generalize xored v d = v'
    by_cases h1 : x = v
    · subst h1
      by_cases h2 : x = v'
      · subst h2; simp
      · simp [h2, Ne.symm h2]
    · by_cases h2 : x = v'
      · subst h2; simp [Ne.symm h1]
      · simp [h1, h2]
  · rw [senderResult_eq] at hw ⊢
    dsimp only at hw ⊢
    simp only [e1]
    rw [hg (exchanged sha v (xored v d)) (fun x h1 h2 => by unfold exchanged; rw [if_neg h1, if_neg h2])]
    split at hw
    · rename_i h
      rw [if_pos (by rw [h, hl, hd])]
      have := Except.ok.inj (Option.some.inj hw)
      rw [← this, xored_assoc, xored_comm d, ← xored_assoc]
    · cases Option.some.inj hw

example := C65_receiver_cannot_choose true toyHash [1, 2, 3] [4, 5, 6] rfl

/-- C65, the limit of that: a receiver that can search all contributions of `N` bytes forces any result it
likes, if they have different hashes. -/
theorem C65_receiver_forces (E : Env) (N : Nat)
    (hinj : ∀ v v' : Bytes, v.length = N → v'.length = N → E.sha256 v = E.sha256 v' → v = v') (w : Bytes) (hw : w.length = N) :
    ∃ g, ∀ v : Bytes, v.length = N → senderResult E g v = some (.ok w) := by
  classical
  refine ⟨fun c => if h : ∃ v : Bytes, v.length = N ∧ (E.sha256 v).toList = c then xored h.choose w else [], fun v hv => ?_⟩
  rw [senderResult_eq]
  have h : ∃ x : Bytes, x.length = N ∧ (E.sha256 x).toList = (E.sha256 v).toList := ⟨v, hv, rfl⟩
  have e : h.choose = v := hinj _ _ h.choose_spec.1 hv (Vector.toList_inj.mp h.choose_spec.2)
  rw [dif_pos h, e, if_pos (by rw [xored_length (by rw [hv, hw]), hv, hw]), xored_comm v, ← xored_comm, xored_comm v w,
    xored_comm, xored_cancel (by rw [hv, hw])]

/-! ### The cases occur -/

/-- A commitment, an opening and two contributions that are accepted. -/
example (E : Env) : ∃ commit f, receiverResult E commit f [1, 2] = some (.ok [4, 6]) ∧
    receiverResult E commit f [0, 0] = some (.ok [5, 4]) :=
  ⟨(E.sha256 [5, 4]).toList, fun _ => [5, 4], (receiverResult_ok ..).mpr ⟨rfl, rfl, rfl⟩, (receiverResult_ok ..).mpr ⟨rfl, rfl, rfl⟩⟩

/-- A receiver that answers with the first bytes of the commitment does not hash anything. -/
example (dbg : Bool) (sha : Bytes → WireBytes) : ∃ w, senderResult ⟨dbg, sha⟩ (fun c => c.take 2) [1, 2] = some (.ok w) := by
  rw [senderResult_eq]
  rw [if_pos (by simp)]
  exact ⟨_, rfl⟩

/-- A hash that does not collide on contributions of up to 32 bytes. -/
example : ∃ E : Env, ∀ v v' : Bytes, v.length = 16 → v'.length = 16 → E.sha256 v = E.sha256 v' → v = v' := by
  refine ⟨⟨true, fun x => Vector.ofFn fun i : Fin 32 => x.getD i.val 0⟩, fun v v' h h' e => ?_⟩
  apply List.ext_getElem (by rw [h, h'])
  intro i h1 h2
  have := congrArg (fun x : WireBytes => x[i]'(by omega)) e
  simpa [List.getD_eq_getElem?_getD, h1, h2] using this

end FP.Props
