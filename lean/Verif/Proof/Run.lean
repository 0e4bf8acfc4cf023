import Verif.Spec.Run
import Verif.Proof.Proc
/-
From one schedule to all schedules.
-/
namespace FP

variable {α β γ δ : Type}

theorem Ends.completes {p : Proc α} {q : Proc β} {a : α} {b : β} (h : Ends p q a b) :
    Spec.Completes p q a b := by
  obtain ⟨n, h⟩ := h
  refine ⟨n, fun m d hd => ?_⟩
  obtain ⟨k, hk, hs⟩ := stuck_unique h (Ends.stuck a b _ _) hd
  refine ⟨by omega, fun hst => ?_⟩
  cases hs with
  | refl => exact ⟨rfl, rfl, rfl, rfl⟩
  | step h _ => exact absurd h (hst _)

theorem EndsErr.bothFail {p : Proc α} {q : Proc β} {e e' : Fault} (h : EndsErr p q e e') :
    Spec.BothFail p q e e' := by
  obtain ⟨n, h⟩ := h
  refine ⟨n, fun m d hd => ?_⟩
  obtain ⟨k, hk, hs⟩ := stuck_unique h (EndsErr.stuck e e' _ _) hd
  refine ⟨by omega, fun hst => ?_⟩
  cases hs with
  | refl => exact ⟨rfl, rfl⟩
  | step h _ => exact absurd h (hst _)

theorem _root_.FP.Spec.Completes.ends {p : Proc α} {q : Proc β} {a : α} {b : β}
    (h : Spec.Completes p q a b) : Ends p q a b := by
  obtain ⟨n, h⟩ := h
  obtain ⟨d, ⟨m, hm⟩, hst⟩ := exists_stuck (start p q)
  obtain ⟨l, r, x, y⟩ := d
  obtain ⟨rfl, rfl, rfl, rfl⟩ := (h m _ hm).2 hst
  exact ⟨m, hm⟩

theorem _root_.FP.Spec.Completes.unique {p : Proc α} {q : Proc β} {a a' : α} {b b' : β}
    (h : Spec.Completes p q a b) (h' : Spec.Completes p q a' b') : a = a' ∧ b = b' := by
  obtain ⟨m, hm⟩ := h.ends
  obtain ⟨n, h'⟩ := h'
  obtain ⟨h1, h2, -, -⟩ := (h' m _ hm).2 (Ends.stuck a b _ _)
  injection h1 with h1
  injection h2 with h2
  exact ⟨h1, h2⟩

theorem bindP_ret (p : Proc α) : (p >>= Proc.ret) = p := by
  induction p with
  | ret a => rfl
  | fail e => rfl
  | send m p ih => simp only [send_bind, ih]
  | recv k ih => simp only [recv_bind, ih]

/-- Continuing only the left party. -/
theorem Ends.bindL {p : Proc α} {q : Proc β} {a : α} {b : β} {k : α → Proc γ} {c : γ}
    (h1 : Ends p q a b) (h2 : k a = .ret c) : Ends (p >>= k) q c b := by
  have := Ends.bind (k := k) (l := Proc.ret) h1 (c := c) (d := b) (by rw [h2]; exact .ret _ _)
  rwa [bindP_ret] at this

theorem Ends.bindR {p : Proc α} {q : Proc β} {a : α} {b : β} {k : β → Proc γ} {c : γ}
    (h1 : Ends p q a b) (h2 : k b = .ret c) : Ends p (q >>= k) a c := by
  have := Ends.bind (k := Proc.ret) (l := k) h1 (c := a) (d := c) (by rw [h2]; exact .ret _ _)
  rwa [bindP_ret] at this

/-- What is left of a run that completes after a part that ends. -/
theorem _root_.FP.Spec.Completes.after {p : Proc α} {q : Proc β} {a : α} {b : β} {k : α → Proc γ} {l : β → Proc δ}
    {c : γ} {d : δ} (h : Spec.Completes (p >>= k) (q >>= l) c d) (h1 : Ends p q a b) : Spec.Completes (k a) (l b) c d := by
  obtain ⟨n, h⟩ := h
  obtain ⟨m, hm⟩ := Steps.andThen h1 k l
  refine ⟨n, fun m' e he => ?_⟩
  have := h _ _ (hm.trans he)
  exact ⟨by omega, this.2⟩

theorem not_completes_right {p : Proc α} {e : Fault} {c : α} {d : β} : ¬ Spec.Completes p (.fail e : Proc β) c d := by
  intro hc
  obtain ⟨n, hrun⟩ := hc.ends
  have key : ∀ (n : Nat) (c d : Conf α β), StepsN n c d → c.right = .fail e → d.right = .fail e := by
    intro n c d hs
    induction hs with
    | refl _ => exact id
    | step h1 _ ih =>
      intro hl
      apply ih
      cases h1 <;> simp_all
  have := key n _ _ hrun rfl
  cases this

/-- A party that is bound to fail later cannot complete. -/
theorem not_completes_right_later {p : Proc α} {r : Proc γ} {k : γ → Proc β} {e : Fault} {c : α} {d : β}
    (hk : ∀ x, k x = .fail e) : ¬ Spec.Completes p (r >>= k) c d := by
  intro hc
  obtain ⟨n, hrun⟩ := hc.ends
  have key : ∀ (n : Nat) (c d : Conf α β), StepsN n c d → (∃ r : Proc γ, c.right = r.bind k) → ∃ r : Proc γ, d.right = r.bind k := by
    intro n c d hs
    induction hs with
    | refl _ => exact id
    | step h1 _ ih =>
      rintro ⟨r, hr⟩
      apply ih
      cases h1 <;> first
        | exact ⟨r, hr⟩
        | (cases r <;> simp_all [Proc.bind] <;> exact ⟨_, rfl⟩)
  obtain ⟨r, hr⟩ := key n _ _ hrun ⟨r, rfl⟩
  cases r <;> simp_all [Proc.bind]

theorem not_completes_left {q : Proc β} {e : Fault} {c : α} {d : β} : ¬ Spec.Completes (.fail e : Proc α) q c d := by
  intro hc
  obtain ⟨n, hrun⟩ := hc.ends
  have key : ∀ (n : Nat) (c d : Conf α β), StepsN n c d → c.left = .fail e → d.left = .fail e := by
    intro n c d hs
    induction hs with
    | refl _ => exact id
    | step h1 _ ih =>
      intro hl
      apply ih
      cases h1 <;> simp_all
  have := key n _ _ hrun rfl
  cases this

end FP
