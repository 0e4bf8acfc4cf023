import Verif.Proof.Proc
/-
C35: scheduling of two communicating parties.
-/
namespace FP.Props

variable {α β : Type}

/-- Both parties have returned a value, and nothing is in flight. -/
def BothDone (c : Conf α β) (a : α) (b : β) : Prop :=
  c.left = .ret a ∧ c.right = .ret b ∧ c.toRight = [] ∧ c.toLeft = []

/-- C35: for any two parties, if some schedule of `n` steps ends with both parties finished with
results `a` and `b`, then every schedule (i) can be continued to that same end, (ii) takes exactly
`n` steps in total until then, (iii) is not stuck before it, and (iv) if it ends, ends there. -/
theorem C35_schedule_independent (p : Proc α) (q : Proc β) (n : Nat) (e : Conf α β) (a : α) (b : β)
    (hrun : StepsN n (start p q) e) (hdone : BothDone e a b)
    (m : Nat) (d : Conf α β) (hd : StepsN m (start p q) d) :
    (∃ k, n = m + k ∧ StepsN k d e) ∧ (Stuck d → d = e ∧ m = n) := by
  obtain ⟨l, r, x, y⟩ := e
  obtain ⟨h1, h2, h3, h4⟩ := hdone
  simp only at h1 h2 h3 h4
  subst h1 h2 h3 h4
  obtain ⟨k, hk, hs⟩ := stuck_unique hrun (Ends.stuck a b _ _) hd
  refine ⟨⟨k, hk, hs⟩, fun hst => ?_⟩
  cases hs with
  | refl => exact ⟨rfl, by omega⟩
  | step h _ => exact absurd h (hst _)

/-- C35: every pair of parties comes to a halt (there is no infinite run), and all halting runs end
in one and the same configuration after the same number of steps, whether it is success, an error
or a deadlock. -/
theorem C35_unique_outcome (p : Proc α) (q : Proc β) :
    Acc (fun d c : Conf α β => Step c d) (start p q) ∧
    ∃ n e, StepsN n (start p q) e ∧ Stuck e ∧
      ∀ m d, StepsN m (start p q) d → Stuck d → d = e ∧ m = n := by
  refine ⟨terminates _, ?_⟩
  obtain ⟨e, ⟨n, he⟩, hst⟩ := exists_stuck (start p q)
  refine ⟨n, e, he, hst, fun m d hd hsd => ?_⟩
  obtain ⟨k, hk, hs⟩ := stuck_unique he hst hd
  cases hs with
  | refl => exact ⟨rfl, by omega⟩
  | step h _ => exact absurd h (hsd _)

/-- C35, errors: if some schedule ends with both parties returning an error, every schedule that
ends does so with the same errors, and none gets stuck before. -/
theorem C35_errors_independent (p : Proc α) (q : Proc β) (e1 e2 : Fault)
    (hrun : EndsErr p q e1 e2) (d : Conf α β) (hd : Steps (start p q) d) :
    Steps d ⟨.fail e1, .fail e2, [], []⟩ := by
  obtain ⟨n, hn⟩ := hrun
  obtain ⟨m, hm⟩ := hd
  obtain ⟨k, -, hs⟩ := stuck_unique hn (EndsErr.stuck e1 e2 _ _) hm
  exact ⟨k, hs⟩

/-- A ping-pong meets the hypotheses: four steps, both orders of the two sends. -/
example : StepsN 4 (start (.send [1] (.recv fun m => .ret m)) (.send [2] (.recv fun m => .ret m)))
    ⟨.ret [2], .ret [1], [], []⟩ :=
  .step (.sendL ..) (.step (.sendR ..) (.step (.recvL ..) (.step (.recvR ..) (.refl _))))

/-- Two parties that both wait first are stuck: the conclusion is not vacuous. -/
example : Stuck (start (.recv fun m => .ret m) (.recv fun m => .ret m) : Conf Bytes Bytes) :=
  fun _ h => nomatch h

end FP.Props
