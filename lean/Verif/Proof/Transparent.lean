import Verif.Proof.Channel
import Verif.Proof.Sizes
import Verif.Proof.Dialogue
/-
A run on channels with tags ends as the same run on plain channels does.
-/
namespace FP
open Spec

variable {α β γ δ : Type}

/-- A configuration as it looks on channels with tags. -/
def tagConf (tagL tagR : Bytes → Bytes) (checkL checkR : Bytes → Bytes → R Unit) (c : Conf α β) : Conf α β :=
  ⟨c.left.overTags tagL checkL, c.right.overTags tagR checkR, frames tagL c.toRight, frames tagR c.toLeft⟩

section
variable {tagL tagR : Bytes → Bytes} {checkL checkR : Bytes → Bytes → R Unit}

theorem Steps.tags (h1 : ∀ m, checkR m (tagL m) = .ok ()) (h2 : ∀ m, checkL m (tagR m) = .ok ()) {c d : Conf α β}
    (h : Steps c d) : Steps (tagConf tagL tagR checkL checkR c) (tagConf tagL tagR checkL checkR d) := by
  obtain ⟨n, h⟩ := h
  induction h with
  | refl _ => exact .refl _
  | step hs _ ih => exact (step_overTags h1 h2 hs).trans ih

theorem frames_nil_iff (tag : Bytes → Bytes) (l : List Bytes) : frames tag l = [] ↔ l = [] := by
  cases l <;> simp [frames]

/-- A party that can do nothing on plain channels can do nothing on channels with tags. -/
theorem Stuck.tags {c : Conf α β} (h : Stuck c) : Stuck (tagConf tagL tagR checkL checkR c) := by
  obtain ⟨l, r, pq, qp⟩ := c
  intro d hd
  cases l with
  | send m p => exact h _ (.sendL ..)
  | recv k =>
    cases qp with
    | cons m t => exact h _ (.recvL ..)
    | nil =>
      cases r with
      | send m p => exact h _ (.sendR ..)
      | recv k' =>
        cases pq with
        | cons m t => exact h _ (.recvR ..)
        | nil =>
          unfold tagConf at hd
          rw [overTags_recv, overTags_recv] at hd
          cases hd
      | ret b =>
        unfold tagConf at hd
        rw [overTags_recv] at hd
        cases hd
      | fail e =>
        unfold tagConf at hd
        rw [overTags_recv] at hd
        cases hd
  | ret a =>
    cases r with
    | send m p => exact h _ (.sendR ..)
    | recv k' =>
      cases pq with
      | cons m t => exact h _ (.recvR ..)
      | nil =>
        unfold tagConf at hd
        rw [overTags_recv] at hd
        cases hd
    | ret b => cases hd
    | fail e => cases hd
  | fail e =>
    cases r with
    | send m p => exact h _ (.sendR ..)
    | recv k' =>
      cases pq with
      | cons m t => exact h _ (.recvR ..)
      | nil =>
        unfold tagConf at hd
        rw [overTags_recv] at hd
        cases hd
    | ret b => cases hd
    | fail e => cases hd

theorem at_tags (tag : Bytes → Bytes) (check : Bytes → Bytes → R Unit) (p : Proc α) (a : End α) :
    At a (p.overTags tag check) ↔ At a p := by
  cases p with
  | ret b => exact Iff.rfl
  | fail e => exact Iff.rfl
  | send m k =>
    rw [overTags_send]
    cases a <;> simp [At]
  | recv k =>
    rw [overTags_recv]
    cases a <;> simp [At]

/-- How a run ends is what any run that cannot be continued shows. -/
theorem outcome_iff {p : Proc α} {q : Proc β} {a : End α} {b : End β} {d : Conf α β} (h : Steps (start p q) d) (hs : Stuck d) :
    Outcome p q a b ↔ At a d.left ∧ At b d.right := by
  constructor
  · rintro ⟨n, hn⟩
    obtain ⟨m, hm⟩ := h
    exact (hn m d hm).2 hs
  · exact fun hab => Outcome.of_steps h hs hab.1 hab.2

theorem completes_iff {p : Proc α} {q : Proc β} {a : α} {b : β} {d : Conf α β} (h : Steps (start p q) d) (hs : Stuck d) :
    Completes p q a b ↔ d.left = .ret a ∧ d.right = .ret b ∧ d.toRight = [] ∧ d.toLeft = [] := by
  constructor
  · rintro ⟨n, hn⟩
    obtain ⟨m, hm⟩ := h
    exact (hn m d hm).2 hs
  · rintro ⟨h1, h2, h3, h4⟩
    obtain ⟨l, r, pq, qp⟩ := d
    subst h1 h2 h3 h4
    exact Ends.completes h

theorem outcome_tags (h1 : ∀ m, checkR m (tagL m) = .ok ()) (h2 : ∀ m, checkL m (tagR m) = .ok ()) (p : Proc α) (q : Proc β)
    (a : End α) (b : End β) : Outcome (p.overTags tagL checkL) (q.overTags tagR checkR) a b ↔ Outcome p q a b := by
  obtain ⟨d, hd, hs⟩ := exists_stuck (start p q)
  have hd' : Steps (start (p.overTags tagL checkL) (q.overTags tagR checkR)) (tagConf tagL tagR checkL checkR d) :=
    Steps.tags h1 h2 hd
  rw [outcome_iff hd hs, outcome_iff hd' hs.tags]
  exact and_congr (at_tags ..) (at_tags ..)

theorem completes_tags (h1 : ∀ m, checkR m (tagL m) = .ok ()) (h2 : ∀ m, checkL m (tagR m) = .ok ()) (p : Proc α) (q : Proc β)
    (a : α) (b : β) : Completes (p.overTags tagL checkL) (q.overTags tagR checkR) a b ↔ Completes p q a b := by
  obtain ⟨d, hd, hs⟩ := exists_stuck (start p q)
  have hd' : Steps (start (p.overTags tagL checkL) (q.overTags tagR checkR)) (tagConf tagL tagR checkL checkR d) :=
    Steps.tags h1 h2 hd
  rw [completes_iff hd hs, completes_iff hd' hs.tags]
  exact and_congr (at_tags tagL checkL d.left (.returns a)) (and_congr (at_tags tagR checkR d.right (.returns b))
    (and_congr (frames_nil_iff ..) (frames_nil_iff ..)))

end

/-- After a first part that both sides complete, a run ends as the second part does. -/
theorem outcome_after {p : Proc α} {q : Proc β} {x : α} {y : β} (h : Ends p q x y) (k : α → Proc γ) (l : β → Proc δ)
    (a : End γ) (b : End δ) : Outcome (p >>= k) (q >>= l) a b ↔ Outcome (k x) (l y) a b := by
  obtain ⟨d, hd, hs⟩ := exists_stuck (start (k x) (l y))
  have hd' : Steps (start (p >>= k) (q >>= l)) d := (h.andThen k l).trans hd
  rw [outcome_iff hd hs, outcome_iff hd' hs]

theorem completes_after {p : Proc α} {q : Proc β} {x : α} {y : β} (h : Ends p q x y) (k : α → Proc γ) (l : β → Proc δ)
    (a : γ) (b : δ) : Completes (p >>= k) (q >>= l) a b ↔ Completes (k x) (l y) a b := by
  obtain ⟨d, hd, hs⟩ := exists_stuck (start (k x) (l y))
  have hd' : Steps (start (p >>= k) (q >>= l)) d := (h.andThen k l).trans hd
  rw [completes_iff hd hs, completes_iff hd' hs]

/-- Every pair of parties has exactly one outcome. -/
theorem outcome_exists (p : Proc α) (q : Proc β) : ∃ a b, Outcome p q a b := by
  obtain ⟨d, hd, hs⟩ := exists_stuck (start p q)
  have hl : ∃ a, At a d.left := by
    cases e : d.left with
    | ret a => exact ⟨.returns a, rfl⟩
    | fail f => exact ⟨.fails f, rfl⟩
    | recv k => exact ⟨.waits, k, rfl⟩
    | send m k =>
      obtain ⟨l, r, pq, qp⟩ := d
      cases e
      exact absurd (.sendL ..) (hs _)
  have hr : ∃ b, At b d.right := by
    cases e : d.right with
    | ret a => exact ⟨.returns a, rfl⟩
    | fail f => exact ⟨.fails f, rfl⟩
    | recv k => exact ⟨.waits, k, rfl⟩
    | send m k =>
      obtain ⟨l, r, pq, qp⟩ := d
      cases e
      exact absurd (.sendR ..) (hs _)
  obtain ⟨a, ha⟩ := hl
  obtain ⟨b, hb⟩ := hr
  exact ⟨a, b, (outcome_iff hd hs).mpr ⟨ha, hb⟩⟩

theorem at_unique {p : Proc α} {a a' : End α} (h : At a p) (h' : At a' p) : a = a' := by
  cases a <;> cases a' <;> simp only [At] at h h' <;> (try subst h) <;> (try obtain ⟨k, rfl⟩ := h) <;> simp_all

theorem outcome_unique {p : Proc α} {q : Proc β} {a a' : End α} {b b' : End β} (h : Outcome p q a b) (h' : Outcome p q a' b') :
    a = a' ∧ b = b' := by
  obtain ⟨d, hd, hs⟩ := exists_stuck (start p q)
  rw [outcome_iff hd hs] at h h'
  exact ⟨at_unique h.1 h'.1, at_unique h.2 h'.2⟩

/-- One of two parties fails in every run exactly if the outcome says so. -/
theorem oneFails_iff {p : Proc α} {q : Proc β} {a : End α} {b : End β} (h : Outcome p q a b) :
    OneFails p q ↔ (∃ e, a = .fails e) ∨ ∃ e, b = .fails e := by
  obtain ⟨d, hd, hs⟩ := exists_stuck (start p q)
  have hab := (outcome_iff hd hs).mp h
  obtain ⟨n, hn⟩ := hd
  have back : ∀ {γ : Type} {x : End γ} {r : Proc γ} {e}, At x r → r = .fail e → x = .fails e := by
    intro γ x r e hx hr
    exact at_unique hx (show At (.fails e) r from hr)
  constructor
  · rintro ⟨k, hk⟩
    rcases (hk n d hn).2 hs with ⟨e, he⟩ | ⟨e, he⟩
    · exact .inl ⟨e, back hab.1 he⟩
    · exact .inr ⟨e, back hab.2 he⟩
  · intro hf
    refine ⟨n, fun m c hc => ?_⟩
    obtain ⟨j, hj, hr⟩ := stuck_unique hn hs hc
    refine ⟨by omega, fun hst => ?_⟩
    cases hr with
    | refl =>
      rcases hf with ⟨e, rfl⟩ | ⟨e, rfl⟩
      · exact .inl ⟨e, hab.1⟩
      · exact .inr ⟨e, hab.2⟩
    | step h _ => exact absurd h (hst _)

end FP
