import Verif.Spec.Session
import Verif.Proof.Run
/-
Sequences of calls on one connection.
-/
namespace FP
open Spec

variable {α β γ δ : Type}

theorem attempt_steps {n : Nat} {c d : Conf α β} (h : StepsN n c d) :
    StepsN n (⟨attempt c.left, attempt c.right, c.toRight, c.toLeft⟩ : Conf (Except ErrKind α) (Except ErrKind β))
      ⟨attempt d.left, attempt d.right, d.toRight, d.toLeft⟩ := by
  induction h with
  | refl c => exact .refl _
  | step hs _ ih =>
    refine .step ?_ ih
    cases hs with
    | sendL m p q pq qp => exact .sendL m (attempt p) _ pq qp
    | sendR m p q pq qp => exact .sendR m _ (attempt q) pq qp
    | recvL m k q pq qp => exact .recvL m (fun m => attempt (k m)) _ pq qp
    | recvR m p k pq qp => exact .recvR m _ (fun m => attempt (k m)) pq qp

theorem Ends.attempt {p : Proc α} {q : Proc β} {a : α} {b : β} (h : Ends p q a b) :
    Ends (attempt p) (attempt q) (.ok a) (.ok b) := by
  obtain ⟨n, h⟩ := h
  exact ⟨n, attempt_steps h⟩

theorem EndsErr.attempt {p : Proc α} {q : Proc β} {e e' : ErrKind} (h : EndsErr p q (.err e) (.err e')) :
    Ends (Spec.attempt p) (Spec.attempt q) (.error e) (.error e') := by
  obtain ⟨n, h⟩ := h
  exact ⟨n, attempt_steps h⟩

theorem session_ends {ι : Type} (P : ι → Proc α) (Q : ι → Proc β) (a : ι → Except ErrKind α) (b : ι → Except ErrKind β)
    (l : List ι) (h : ∀ i ∈ l, Ends (attempt (P i)) (attempt (Q i)) (a i) (b i)) :
    Ends (session (l.map P)) (session (l.map Q)) (l.map a) (l.map b) := by
  induction l with
  | nil => exact .ret _ _
  | cons i l ih =>
    exact .bind (h i List.mem_cons_self) (.bind (ih fun j hj => h j (List.mem_cons_of_mem _ hj)) (.ret _ _))

end FP
