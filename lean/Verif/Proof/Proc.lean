import Verif.Model.Proc
import Verif.Proof.Monad
/-
Scheduling: confluence of two-party runs, and composition of runs.
-/
namespace FP

variable {α β γ δ : Type}

theorem StepsN.trans {n m : Nat} {c d e : Conf α β} (h1 : StepsN n c d) (h2 : StepsN m d e) :
    StepsN (n + m) c e := by
  induction h1 with
  | refl => simpa using h2
  | step h _ ih =>
    have := StepsN.step h (ih h2)
    rwa [show ∀ k, k + m + 1 = k + 1 + m from fun k => by omega] at this

theorem Steps.trans {c d e : Conf α β} (h1 : Steps c d) (h2 : Steps d e) : Steps c e := by
  obtain ⟨n, h1⟩ := h1
  obtain ⟨m, h2⟩ := h2
  exact ⟨_, h1.trans h2⟩

theorem Steps.refl (c : Conf α β) : Steps c c := ⟨0, .refl c⟩

theorem Steps.single {c d : Conf α β} (h : Step c d) : Steps c d := ⟨1, .step h (.refl d)⟩

theorem Steps.head {c d e : Conf α β} (h1 : Step c d) (h2 : Steps d e) : Steps c e :=
  (Steps.single h1).trans h2

/-- Two different steps from one configuration can be completed to a square. -/
theorem diamond {c d e : Conf α β} (h1 : Step c d) (h2 : Step c e) :
    d = e ∨ ∃ f, Step d f ∧ Step e f := by
  cases h1 with
  | sendL m p q pq qp =>
    cases h2 with
    | sendL => exact .inl rfl
    | sendR m' q' => exact .inr ⟨_, .sendR .., .sendL ..⟩
    | recvR m' k' pq' => exact .inr ⟨_, .recvR _ _ _ (_ ++ [m]) _, .sendL ..⟩
  | sendR m p q pq qp =>
    cases h2 with
    | sendL m' p' => exact .inr ⟨_, .sendL .., .sendR ..⟩
    | sendR => exact .inl rfl
    | recvL m' k' qp' => exact .inr ⟨_, .recvL m' k' _ pq (_ ++ [m]), .sendR ..⟩
  | recvL m k q pq qp =>
    cases h2 with
    | sendR m' q' => exact .inr ⟨_, .sendR .., .recvL m k _ pq (qp ++ [m'])⟩
    | recvL => exact .inl rfl
    | recvR m' k' pq' => exact .inr ⟨_, .recvR .., .recvL ..⟩
  | recvR m p k pq qp =>
    cases h2 with
    | sendL m' p' => exact .inr ⟨_, .sendL .., .recvR m _ k (pq ++ [m']) qp⟩
    | recvL m' k' qp' => exact .inr ⟨_, .recvL .., .recvR ..⟩
    | recvR => exact .inl rfl

/-- If some run from `c` of `n` steps ends stuck, then after any first step the same stuck
configuration is `n - 1` steps away. -/
theorem stuck_step {n : Nat} {c d e : Conf α β} (h : StepsN n c e) (he : Stuck e) (hs : Step c d) :
    ∃ k, n = k + 1 ∧ StepsN k d e := by
  induction n generalizing c d with
  | zero => cases h; exact absurd hs (he _)
  | succ n ih =>
    cases h with
    | step hc htl =>
      rename_i c'
      rcases diamond hs hc with rfl | ⟨f, h1, h2⟩
      · exact ⟨n, rfl, htl⟩
      · obtain ⟨k, rfl, hk⟩ := ih htl h2
        exact ⟨k + 1, rfl, .step h1 hk⟩

/-- If some run from `c` of `n` steps ends stuck, any run from `c` has at most `n` steps and can be
completed to the same end in exactly `n` steps. -/
theorem stuck_unique {n m : Nat} {c d e : Conf α β} (h : StepsN n c e) (he : Stuck e)
    (hd : StepsN m c d) : ∃ k, n = m + k ∧ StepsN k d e := by
  induction hd generalizing n with
  | refl => exact ⟨n, by simp, h⟩
  | step hs _ ih =>
    obtain ⟨k, rfl, hk⟩ := stuck_step h he hs
    obtain ⟨j, rfl, hj⟩ := ih hk
    exact ⟨j, by omega, hj⟩

/-- There are no infinite runs. -/
theorem terminates (c : Conf α β) : Acc (fun d c : Conf α β => Step c d) c := by
  obtain ⟨p, q, pq, qp⟩ := c
  induction p generalizing q pq qp with
  | ret a =>
    induction q generalizing pq qp with
    | ret b => exact ⟨_, fun d h => nomatch h⟩
    | fail e => exact ⟨_, fun d h => nomatch h⟩
    | send m q ih => exact ⟨_, fun d h => by cases h; exact ih _ _⟩
    | recv k ih => exact ⟨_, fun d h => by cases h; exact ih _ _ _⟩
  | fail e =>
    induction q generalizing pq qp with
    | ret b => exact ⟨_, fun d h => nomatch h⟩
    | fail e => exact ⟨_, fun d h => nomatch h⟩
    | send m q ih => exact ⟨_, fun d h => by cases h; exact ih _ _⟩
    | recv k ih => exact ⟨_, fun d h => by cases h; exact ih _ _ _⟩
  | send m p ihp =>
    induction q generalizing pq qp with
    | ret b => exact ⟨_, fun d h => by cases h; exact ihp _ _ _⟩
    | fail e => exact ⟨_, fun d h => by cases h; exact ihp _ _ _⟩
    | send m q ih =>
      exact ⟨_, fun d h => by
        cases h with
        | sendL => exact ihp _ _ _
        | sendR => exact ih _ _⟩
    | recv k ih =>
      exact ⟨_, fun d h => by
        cases h with
        | sendL => exact ihp _ _ _
        | recvR => exact ih _ _ _⟩
  | recv k ihp =>
    induction q generalizing pq qp with
    | ret b => exact ⟨_, fun d h => by cases h; exact ihp _ _ _ _⟩
    | fail e => exact ⟨_, fun d h => by cases h; exact ihp _ _ _ _⟩
    | send m q ih =>
      exact ⟨_, fun d h => by
        cases h with
        | recvL => exact ihp _ _ _ _
        | sendR => exact ih _ _⟩
    | recv k ih =>
      exact ⟨_, fun d h => by
        cases h with
        | recvL => exact ihp _ _ _ _
        | recvR => exact ih _ _ _⟩

theorem exists_stuck (c : Conf α β) : ∃ d, Steps c d ∧ Stuck d := by
  induction terminates c with
  | intro c _ ih =>
    by_cases h : Stuck c
    · exact ⟨c, .refl c, h⟩
    · simp only [Stuck, not_forall, not_not] at h
      obtain ⟨d, hd⟩ := h
      obtain ⟨e, he, hs⟩ := ih d hd
      exact ⟨e, .head hd he, hs⟩

/-! ### Sequential composition -/

@[simp] theorem ret_bind (a : α) (f : α → Proc β) : (Proc.ret a >>= f) = f a := rfl
@[simp] theorem pureP_bind (a : α) (f : α → Proc β) : ((pure a : Proc α) >>= f) = f a := rfl
@[simp] theorem fail_bind (e : Fault) (f : α → Proc β) : (Proc.fail e >>= f) = .fail e := rfl
@[simp] theorem send_bind (m : Bytes) (p : Proc α) (f : α → Proc β) :
    (Proc.send m p >>= f) = .send m (p >>= f) := rfl
@[simp] theorem recv_bind (k : Bytes → Proc α) (f : α → Proc β) :
    (Proc.recv k >>= f) = .recv fun m => k m >>= f := rfl
@[simp] theorem sendP_bind (m : Bytes) (f : Unit → Proc β) : (sendP m >>= f) = .send m (f ()) := rfl
@[simp] theorem recvP_bind (f : Bytes → Proc β) : (recvP >>= f) = .recv f := rfl
@[simp] theorem ofR_ok (a : α) : Proc.ofR (.ok a) = .ret a := rfl
@[simp] theorem ofR_error (e : Fault) : (Proc.ofR (.error e) : Proc α) = .fail e := rfl
@[simp] theorem liftM_ok (a : α) : (liftM (.ok a : R α) : Proc α) = .ret a := rfl
@[simp] theorem liftM_error (e : Fault) : (liftM (.error e : R α) : Proc α) = .fail e := rfl
@[simp] theorem monadLift_ok (a : α) : (monadLift (.ok a : R α) : Proc α) = .ret a := rfl
@[simp] theorem monadLift_error (e : Fault) : (monadLift (.error e : R α) : Proc α) = .fail e := rfl

theorem bindP_assoc (p : Proc α) (f : α → Proc β) (g : β → Proc γ) :
    ((p >>= f) >>= g) = (p >>= fun a => f a >>= g) := by
  induction p with
  | ret a => rfl
  | fail e => rfl
  | send m p ih => simp only [send_bind, ih]
  | recv k ih => simp only [recv_bind, ih]

/-- A configuration whose parties go on after their current code. -/
def Conf.andThen (c : Conf α β) (k : α → Proc γ) (l : β → Proc δ) : Conf γ δ :=
  ⟨c.left >>= k, c.right >>= l, c.toRight, c.toLeft⟩

theorem Step.andThen {c d : Conf α β} (h : Step c d) (k : α → Proc γ) (l : β → Proc δ) :
    Step (c.andThen k l) (d.andThen k l) := by
  cases h with
  | sendL m p q pq qp => exact .sendL m (p >>= k) (q >>= l) pq qp
  | sendR m p q pq qp => exact .sendR m (p >>= k) (q >>= l) pq qp
  | recvL m f q pq qp => exact .recvL m (fun x => f x >>= k) (q >>= l) pq qp
  | recvR m p f pq qp => exact .recvR m (p >>= k) (fun x => f x >>= l) pq qp

theorem Steps.andThen {c d : Conf α β} (h : Steps c d) (k : α → Proc γ) (l : β → Proc δ) :
    Steps (c.andThen k l) (d.andThen k l) := by
  obtain ⟨n, h⟩ := h
  induction h with
  | refl c => exact .refl _
  | step hs _ ih => exact .head (hs.andThen k l) ih

/-- `p` and `q`, run against each other from empty queues, both finish, with results `a` and `b`
and nothing left in flight. -/
def Ends (p : Proc α) (q : Proc β) (a : α) (b : β) : Prop :=
  Steps (start p q) ⟨.ret a, .ret b, [], []⟩

theorem Ends.ret (a : α) (b : β) : Ends (.ret a) (.ret b) a b := .refl _

theorem Ends.sendRecv {m : Bytes} {p : Proc α} {k : Bytes → Proc β} {a : α} {b : β}
    (h : Ends p (k m) a b) : Ends (.send m p) (.recv k) a b :=
  .head (.sendL m p _ [] []) (.head (.recvR m p k [] []) h)

theorem Ends.recvSend {m : Bytes} {k : Bytes → Proc α} {q : Proc β} {a : α} {b : β}
    (h : Ends (k m) q a b) : Ends (.recv k) (.send m q) a b :=
  .head (.sendR m _ q [] []) (.head (.recvL m k q [] []) h)

/-- Both parties send first, then both receive. -/
theorem Ends.cross {m m' : Bytes} {k : Bytes → Proc α} {l : Bytes → Proc β} {a : α} {b : β}
    (h : Ends (k m') (l m) a b) : Ends (.send m (.recv k)) (.send m' (.recv l)) a b :=
  .head (.sendL m _ _ [] []) (.head (.sendR m' _ _ [m] [])
    (.head (.recvL m' k _ [m] []) (.head (.recvR m _ l [] []) h)))

theorem Ends.bind {p : Proc α} {q : Proc β} {a : α} {b : β} {k : α → Proc γ} {l : β → Proc δ}
    {c : γ} {d : δ} (h1 : Ends p q a b) (h2 : Ends (k a) (l b) c d) :
    Ends (p >>= k) (q >>= l) c d :=
  (h1.andThen k l).trans h2

theorem Ends.stuck (a : α) (b : β) (pq qp : List Bytes) : Stuck (⟨.ret a, .ret b, pq, qp⟩ : Conf α β) :=
  fun _ h => nomatch h

/-- Roles can be exchanged. -/
theorem Step.swap {c d : Conf α β} (h : Step c d) :
    Step (⟨c.right, c.left, c.toLeft, c.toRight⟩ : Conf β α) ⟨d.right, d.left, d.toLeft, d.toRight⟩ := by
  cases h with
  | sendL m p q pq qp => exact .sendR m q p qp pq
  | sendR m p q pq qp => exact .sendL m q p qp pq
  | recvL m k q pq qp => exact .recvR m q k qp pq
  | recvR m p k pq qp => exact .recvL m k p qp pq

theorem Ends.swap {p : Proc α} {q : Proc β} {a : α} {b : β} (h : Ends p q a b) : Ends q p b a := by
  obtain ⟨n, h⟩ := h
  refine ⟨n, ?_⟩
  have key : ∀ {n} {c d : Conf α β}, StepsN n c d →
      StepsN n (⟨c.right, c.left, c.toLeft, c.toRight⟩ : Conf β α)
        ⟨d.right, d.left, d.toLeft, d.toRight⟩ := by
    intro n c d h
    induction h with
    | refl c => exact .refl _
    | step hs _ ih => exact .step hs.swap ih
  exact key h

theorem Ends.sendAll (ms : List Bytes) : Ends (sendAll ms) (recvN ms.length) () ms := by
  induction ms with
  | nil => exact .ret _ _
  | cons m ms ih =>
    show Ends (sendP m >>= fun _ => FP.sendAll ms) (recvP >>= fun m => recvN ms.length >>= fun ms => pure (m :: ms)) _ _
    rw [sendP_bind, recvP_bind]
    refine .sendRecv ?_
    have := Ends.bind (k := fun _ => (Proc.ret () : Proc Unit)) (l := fun l => Proc.ret (m :: l)) ih (.ret () (m :: ms))
    have e : ∀ p : Proc Unit, (p >>= fun _ => Proc.ret ()) = p := by
      intro p
      induction p with
      | ret a => rfl
      | fail e => rfl
      | send m p ih => simp only [send_bind, ih]
      | recv k ih => simp only [recv_bind, ih]
    rw [e] at this
    exact this

/-- Both parties end with errors. -/
def EndsErr (p : Proc α) (q : Proc β) (e e' : Fault) : Prop :=
  Steps (start p q) ⟨.fail e, .fail e', [], []⟩

theorem EndsErr.bind {p : Proc α} {q : Proc β} {e e' : Fault} (h : EndsErr p q e e')
    (k : α → Proc γ) (l : β → Proc δ) : EndsErr (p >>= k) (q >>= l) e e' :=
  h.andThen k l

theorem EndsErr.after {p : Proc α} {q : Proc β} {a : α} {b : β} {k : α → Proc γ} {l : β → Proc δ}
    {e e' : Fault} (h1 : Ends p q a b) (h2 : EndsErr (k a) (l b) e e') :
    EndsErr (p >>= k) (q >>= l) e e' :=
  (h1.andThen k l).trans h2

/-- The left party has panicked or returned an error (then it takes no more steps). -/
theorem EndsErr.stuck (e e' : Fault) (pq qp : List Bytes) :
    Stuck (⟨.fail e, .fail e', pq, qp⟩ : Conf α β) :=
  fun _ h => nomatch h

end FP
