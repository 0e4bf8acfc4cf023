import Verif.Spec.Served
import Verif.Props.ManyFpake
import Verif.Props.Legacy
/-
Parties that never return.
-/
namespace FP
open Spec

theorem never_left {α β : Type} {p : Proc α} (f : α → Proc β) (h : NeverReturns p) : NeverReturns (p >>= f) := by
  intro inputs b
  show ((Proc.bind p f).against inputs).2 ≠ _
  induction p generalizing inputs with
  | ret a => exact absurd rfl (h [] a)
  | fail e => simp [Proc.bind, Proc.against]
  | send m k ih => exact ih (fun i a => h i a) inputs
  | recv k ih =>
    cases inputs with
    | nil => simp [Proc.bind, Proc.against]
    | cons m rest => exact ih m (fun i a => h (m :: i) a) rest

theorem never_right {α β : Type} (p : Proc α) {f : α → Proc β} (h : ∀ a, NeverReturns (f a)) : NeverReturns (p >>= f) := by
  intro inputs b
  show ((Proc.bind p f).against inputs).2 ≠ _
  induction p generalizing inputs with
  | ret a => exact h a inputs b
  | fail e => simp [Proc.bind, Proc.against]
  | send m k ih => exact ih inputs
  | recv k ih =>
    cases inputs with
    | nil => simp [Proc.bind, Proc.against]
    | cons m rest => exact ih m rest

theorem never_lift {α β : Type} (r : R α) {f : α → Proc β} (h : ∀ a, r = .ok a → NeverReturns (f a)) :
    NeverReturns ((liftM r : Proc α) >>= f) := by
  cases r with
  | ok a => exact h a rfl
  | error e => intro inputs b; exact fun h => by cases h

/-- A party that never returns does not complete. -/
theorem never_completes {α β : Type} {p : Proc α} (h : NeverReturns p) (q : Proc β) (a : α) (b : β) : ¬ Completes p q a b := by
  intro hc
  obtain ⟨n, hrun⟩ := hc.ends
  have key : ∀ (n : Nat) (c d : Conf α β), StepsN n c d → NeverReturns c.left → NeverReturns d.left := by
    intro n c d hs
    induction hs with
    | refl _ => exact id
    | step h1 _ ih =>
      intro hl
      apply ih
      cases h1 with
      | sendL m p q pq qp => exact fun i a => hl i a
      | sendR => exact hl
      | recvL m k q pq qp => exact fun i a => hl (m :: i) a
      | recvR => exact hl
  exact key n _ _ hrun h [] a rfl

theorem many_never (C : Curve) (X : Crypto) {o : ManySend} {messages : List Bytes} {domain len : Nat}
    (hdom : log2R X.dbg 64 messages.length = .ok domain) (hcount : messages.length < 2 ^ 32)
    (hlen : ∀ m ∈ messages, m.length = len) (hn : 0 < messages.length) (hl : 0 < len) (hl31 : len < 2 ^ 31)
    (ho : o.Possible messages.length) (hbad : ¬ Servable X.dbg o.cores messages.length) :
    NeverReturns (o.run C X messages domain) := by
  obtain ⟨d, h1, -, h3⟩ := log2_same X.dbg hn hcount
  rw [h1] at hdom
  obtain rfl := Except.ok.inj hdom
  have hclog : Nat.clog 2 messages.length = d := by
    obtain ⟨e1, e2⟩ := Props.log2R_le X.dbg _ d hn (by omega) h1
    exact le_antisymm (Nat.clog_le_of_le_pow e1) (e2 _ (Nat.le_pow_clog (by decide) _))
  have hsize : 2 * messages.length * len < 2 ^ 64 := by
    calc 2 * messages.length * len ≤ 2 ^ 33 * len := Nat.mul_le_mul_right _ (by omega)
      _ < 2 ^ 33 * 2 ^ 31 := Nat.mul_lt_mul_of_pos_left hl31 (by decide)
      _ = 2 ^ 64 := by decide
  have hord := ho.order
  unfold roundedUp at hord
  rw [hclog] at hord
  have hy := Props.manyY_refuses X o.cores o.order o.keys messages d len h1 h3 hlen hn hsize ho.cores hl hord hbad
  unfold ManySend.run manySender
  exact never_lift _ fun y e => absurd e (hy y)

end FP
