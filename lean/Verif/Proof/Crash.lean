import Verif.Model.Crash
import Verif.Spec.Crash
import Verif.Proof.Sizes
/-
A run in which a party fails is a run without the failure, cut short.
-/
namespace FP
open Spec

variable {α β : Type}

/-- The configuration `c` of a run with failures, beside a configuration `d` of a run without. -/
structure Follows (c d : Conf α β) : Prop where
  left : (c.left = d.left ∧ c.toRight = d.toRight) ∨ (∃ e, c.left = .fail e) ∧ c.toRight <+: d.toRight
  right : (c.right = d.right ∧ c.toLeft = d.toLeft) ∨ (∃ e, c.right = .fail e) ∧ c.toLeft <+: d.toLeft

theorem Follows.step {c c' d : Conf α β} (h : Follows c d) (hs : FaultStep c c') :
    ∃ d', Steps d d' ∧ Follows c' d' := by
  obtain ⟨dl, dr, dlr, drl⟩ := d
  obtain ⟨hl, hr⟩ := h
  cases hs with
  | normal hs =>
    cases hs with
    | sendL m p q pq qp =>
      dsimp only at hl hr
      rcases hl with ⟨rfl, rfl⟩ | ⟨⟨e, he⟩, -⟩
      · exact ⟨_, .single (.sendL m p dr pq drl), .inl ⟨rfl, rfl⟩, hr⟩
      · cases he
    | sendR m p q pq qp =>
      dsimp only at hl hr
      rcases hr with ⟨rfl, rfl⟩ | ⟨⟨e, he⟩, -⟩
      · exact ⟨_, .single (.sendR m dl q dlr qp), hl, .inl ⟨rfl, rfl⟩⟩
      · cases he
    | recvL m k q pq qp =>
      dsimp only at hl hr
      rcases hl with ⟨rfl, rfl⟩ | ⟨⟨e, he⟩, -⟩
      · rcases hr with ⟨rfl, rfl⟩ | ⟨he, hpre⟩
        · exact ⟨_, .single (.recvL m k q pq qp), .inl ⟨rfl, rfl⟩, .inl ⟨rfl, rfl⟩⟩
        · obtain ⟨t, rfl⟩ := hpre
          exact ⟨_, .single (.recvL m k dr pq (qp ++ t)), .inl ⟨rfl, rfl⟩, .inr ⟨he, ⟨t, rfl⟩⟩⟩
      · cases he
    | recvR m p k pq qp =>
      dsimp only at hl hr
      rcases hr with ⟨rfl, rfl⟩ | ⟨⟨e, he⟩, -⟩
      · rcases hl with ⟨rfl, rfl⟩ | ⟨he, hpre⟩
        · exact ⟨_, .single (.recvR m p k pq qp), .inl ⟨rfl, rfl⟩, .inl ⟨rfl, rfl⟩⟩
        · obtain ⟨t, rfl⟩ := hpre
          exact ⟨_, .single (.recvR m dl k (pq ++ t) qp), .inr ⟨he, ⟨t, rfl⟩⟩, .inl ⟨rfl, rfl⟩⟩
      · cases he
  | failL p q pq qp e n he =>
    dsimp only at hl hr
    refine ⟨_, .refl _, .inr ⟨⟨e, rfl⟩, ?_⟩, hr⟩
    rcases hl with ⟨-, rfl⟩ | ⟨-, hpre⟩
    · exact List.take_prefix _ _
    · exact (List.take_prefix _ _).trans hpre
  | failR p q pq qp e n he =>
    dsimp only at hl hr
    refine ⟨_, .refl _, hl, .inr ⟨⟨e, rfl⟩, ?_⟩⟩
    rcases hr with ⟨-, rfl⟩ | ⟨-, hpre⟩
    · exact List.take_prefix _ _
    · exact (List.take_prefix _ _).trans hpre

theorem Follows.steps {c c' d : Conf α β} (h : Follows c d) (hs : FaultSteps c c') :
    ∃ d', Steps d d' ∧ Follows c' d' := by
  induction hs generalizing d with
  | refl => exact ⟨d, .refl _, h⟩
  | step h1 _ ih =>
    obtain ⟨d1, hs1, h2⟩ := h.step h1
    obtain ⟨d2, hs2, h3⟩ := ih h2
    exact ⟨d2, hs1.trans hs2, h3⟩

theorem Follows.refl (c : Conf α β) : Follows c c := ⟨.inl ⟨rfl, rfl⟩, .inl ⟨rfl, rfl⟩⟩

/-- A party that has ended stays as it is. -/
theorem Step.left_ended {c d : Conf α β} (h : Step c d) (he : c.left.ended) : d.left = c.left := by
  cases h <;> first | rfl | exact absurd he id

theorem Step.right_ended {c d : Conf α β} (h : Step c d) (he : c.right.ended) : d.right = c.right := by
  cases h <;> first | rfl | exact absurd he id

theorem Steps.left_ended {c d : Conf α β} (h : Steps c d) (he : c.left.ended) : d.left = c.left := by
  obtain ⟨n, h⟩ := h
  induction h with
  | refl => rfl
  | step h _ ih => rw [ih (by rw [h.left_ended he]; exact he), h.left_ended he]

theorem Steps.right_ended {c d : Conf α β} (h : Steps c d) (he : c.right.ended) : d.right = c.right := by
  obtain ⟨n, h⟩ := h
  induction h with
  | refl => rfl
  | step h _ ih => rw [ih (by rw [h.right_ended he]; exact he), h.right_ended he]

/-- Every run without failures stops in the same configuration. -/
theorem final_left {p : Proc α} {q : Proc β} {a : End α} {b : End β} (h : Outcome p q a b) {d : Conf α β}
    (hd : Steps (start p q) d) (he : d.left.ended) : At a d.left := by
  obtain ⟨n, h⟩ := h
  obtain ⟨f, hf, hst⟩ := exists_stuck d
  obtain ⟨m, hm⟩ := hd.trans hf
  have := ((h m f hm).2 hst).1
  rwa [hf.left_ended he] at this

theorem final_right {p : Proc α} {q : Proc β} {a : End α} {b : End β} (h : Outcome p q a b) {d : Conf α β}
    (hd : Steps (start p q) d) (he : d.right.ended) : At b d.right := by
  obtain ⟨n, h⟩ := h
  obtain ⟨f, hf, hst⟩ := exists_stuck d
  obtain ⟨m, hm⟩ := hd.trans hf
  have := ((h m f hm).2 hst).2
  rwa [hf.right_ended he] at this

/-- A configuration that hangs: both parties wait and nothing is in flight. -/
theorem hangs_iff (c : Conf α β) : Hangs c ↔ ∃ k l, c = ⟨.recv k, .recv l, [], []⟩ := by
  obtain ⟨p, q, pq, qp⟩ := c
  constructor
  · rintro ⟨h1, h2, h3⟩
    dsimp only at h1
    match p, q, h1, h2, h3 with
    | .send m p, q, _, h2, _ => exact absurd (.sendL m p q pq qp) (h2 _)
    | p, .send m q, _, h2, _ => exact absurd (.sendR m p q pq qp) (h2 _)
    | .ret _, .ret _, h1, _, _ => exact absurd ⟨trivial, trivial⟩ h1
    | .ret _, .fail _, h1, _, _ => exact absurd ⟨trivial, trivial⟩ h1
    | .fail _, .ret _, h1, _, _ => exact absurd ⟨trivial, trivial⟩ h1
    | .fail _, .fail _, h1, _, _ => exact absurd ⟨trivial, trivial⟩ h1
    | .recv k, .ret a, _, h2, h3 =>
      cases qp with
      | nil => exact absurd (.left k _ pq trivial) h3
      | cons m qp => exact absurd (.recvL m k _ pq qp) (h2 _)
    | .recv k, .fail a, _, h2, h3 =>
      cases qp with
      | nil => exact absurd (.left k _ pq trivial) h3
      | cons m qp => exact absurd (.recvL m k _ pq qp) (h2 _)
    | .ret a, .recv k, _, h2, h3 =>
      cases pq with
      | nil => exact absurd (.right _ k qp trivial) h3
      | cons m pq => exact absurd (.recvR m _ k pq qp) (h2 _)
    | .fail a, .recv k, _, h2, h3 =>
      cases pq with
      | nil => exact absurd (.right _ k qp trivial) h3
      | cons m pq => exact absurd (.recvR m _ k pq qp) (h2 _)
    | .recv k, .recv l, _, h2, _ =>
      cases qp with
      | cons m qp => exact absurd (.recvL m k _ pq qp) (h2 _)
      | nil =>
        cases pq with
        | cons m pq => exact absurd (.recvR m _ l pq _) (h2 _)
        | nil => exact ⟨k, l, rfl⟩
  · rintro ⟨k, l, h⟩
    cases h
    refine ⟨fun h => h.1, (fun _ h => nomatch h), fun h => ?_⟩
    cases h with
    | left _ _ _ h => exact h
    | right _ _ _ h => exact h

theorem FaultSteps.ofSteps {c d : Conf α β} (h : Steps c d) : FaultSteps c d := by
  obtain ⟨n, h⟩ := h
  induction h with
  | refl => exact .refl _
  | step h _ ih => exact .step (.normal h) ih

/-- How many parties have not ended. -/
def alive (c : Conf α β) : Nat :=
  (match c.left with | .ret _ => 0 | .fail _ => 0 | _ => 1) + (match c.right with | .ret _ => 0 | .fail _ => 0 | _ => 1)

theorem alive_step {c d : Conf α β} (h : Step c d) : alive d ≤ alive c := by
  cases h <;> (unfold alive; dsimp only; split <;> split <;> omega)

theorem alive_failL (p : Proc α) (q : Proc β) (pq qp qp' pq' : List Bytes) (e : Fault) (h : ¬ p.ended) :
    alive (⟨.fail e, q, pq', qp'⟩ : Conf α β) < alive ⟨p, q, pq, qp⟩ := by
  cases p with
  | ret a => exact absurd trivial h
  | fail a => exact absurd trivial h
  | send m p => unfold alive; dsimp only; omega
  | recv k => unfold alive; dsimp only; omega

theorem alive_failR (p : Proc α) (q : Proc β) (pq qp qp' pq' : List Bytes) (e : Fault) (h : ¬ q.ended) :
    alive (⟨p, .fail e, pq', qp'⟩ : Conf α β) < alive ⟨p, q, pq, qp⟩ := by
  cases q with
  | ret a => exact absurd trivial h
  | fail a => exact absurd trivial h
  | send m p => unfold alive; dsimp only; omega
  | recv k => unfold alive; dsimp only; omega

/-- No run is infinite, with failures either. -/
theorem fault_terminates (c : Conf α β) : Acc (fun d c : Conf α β => FaultStep c d) c := by
  have main : ∀ n (c : Conf α β), alive c ≤ n → Acc (fun d c : Conf α β => FaultStep c d) c := by
    intro n
    induction n with
    | zero =>
      intro c hc
      have hs := terminates c
      induction hs with
      | intro c _ ih =>
        refine ⟨_, fun d hd => ?_⟩
        cases hd with
        | normal h => exact ih _ h (le_trans (alive_step h) hc)
        | failL p q pq qp e n he => have := alive_failL p q pq qp qp (pq.take n) e he; omega
        | failR p q pq qp e n he => have := alive_failR p q pq qp (qp.take n) pq e he; omega
    | succ n ihn =>
      intro c hc
      have hs := terminates c
      induction hs with
      | intro c _ ih =>
        refine ⟨_, fun d hd => ?_⟩
        cases hd with
        | normal h => exact ih _ h (le_trans (alive_step h) hc)
        | failL p q pq qp e n he =>
          have := alive_failL p q pq qp qp (pq.take n) e he
          exact ihn _ (by omega)
        | failR p q pq qp e n he =>
          have := alive_failR p q pq qp (qp.take n) pq e he
          exact ihn _ (by omega)
  exact main _ c (le_refl _)

/-- The last step of a run. -/
theorem StepsN.last {n : Nat} {c e : Conf α β} (h : StepsN (n + 1) c e) : ∃ d, StepsN n c d ∧ Step d e := by
  induction n generalizing c with
  | zero =>
    cases h with
    | step h1 h2 => cases h2; exact ⟨_, .refl _, h1⟩
  | succ n ih =>
    cases h with
    | step h1 h2 =>
      obtain ⟨d, h3, h4⟩ := ih h2
      exact ⟨d, .step h1 h3, h4⟩

theorem FaultSteps.snoc {c d e : Conf α β} (h1 : FaultSteps c d) (h2 : FaultStep d e) : FaultSteps c e := by
  induction h1 with
  | refl => exact .step h2 (.refl _)
  | step h _ ih => exact .step h (ih h2)

end FP
