import Verif.Model.ManyFpake
import Verif.Model.Classic
import Verif.Spec.Fpake
import Verif.Spec.Run
/-
Many calls, one after the other, on one connection.
-/
namespace FP.Spec

/-- A caller that looks at the returned `Result` instead of giving up: an `Err` is a value, a panic is still a panic. -/
def attempt {α : Type} : Proc α → Proc (Except ErrKind α)
  | .ret a => .ret (.ok a)
  | .fail (.err e) => .ret (.error e)
  | .fail .panic => .fail .panic
  | .fail .ub => .fail .ub
  | .send m p => .send m (attempt p)
  | .recv k => .recv fun m => attempt (k m)

/-- A caller that makes these calls in this order on the same channel and collects the results. -/
def session {α : Type} : List (Proc α) → Proc (List (Except ErrKind α))
  | [] => pure []
  | p :: ps => do
    let r ← attempt p
    let rs ← session ps
    return r :: rs

/-- Which transfer two parties run, with all their draws. -/
inductive Transfer where
  | base (a b : Nat → Nat)
  | extension (s : OTSend) (r : OTRecv)
  | classic (archS archR : Arch) (coinS coinR : WireBytes) (delta : Vector Byte 16) (bonus : Vector Bool 192)
      (seed0 seed1 : Vector WireBytes 128) (a b : Nat → Nat)

/-- One transfer: its kind, the sender's pairs and the receiver's choices. -/
structure Call where
  kind : Transfer
  msg : List (Bytes × Bytes)
  choices : List Bool

/-- The sender of the call. -/
def Call.sender (C : Curve) (X : Crypto) (c : Call) : Proc Unit :=
  match c.kind with
  | .base a _ => coSender C X a c.msg
  | .extension s _ => s.run C X c.msg
  | .classic archS _ coinS _ delta _ _ _ a _ => classicSender X archS coinS delta (coReceiver C X a) c.msg

/-- The receiver of the call. -/
def Call.receiver (C : Curve) (X : Crypto) (c : Call) : Proc (List Bytes) :=
  match c.kind with
  | .base _ b => coReceiver C X b c.choices
  | .extension _ r => r.run C X c.choices
  | .classic _ archR _ coinR _ bonus seed0 seed1 _ b => classicReceiver X archR coinR bonus seed0 seed1 (coSender C X b) c.choices

/-- The sizes a caller has to respect.  The numbers of pairs and of choices need not agree. -/
def Call.Sound (c : Call) : Prop :=
  c.msg.length < 2 ^ 64 ∧ c.choices.length < 2 ^ 64 ∧ (∀ m ∈ c.msg, m.1.length < 2 ^ 64 ∧ m.2.length < 2 ^ 64) ∧
  match c.kind with
  | .base _ _ => True
  | .extension s r => s.Valid ∧ r.Valid ∧ c.msg.length % 8 = 0 ∧ c.choices.length % 8 = 0 ∧
      (c.msg.length = c.choices.length → 0 < c.msg.length ∧
        ∃ len, 0 < len ∧ len < 65536 ∧ ∀ m ∈ c.msg, m.1.length = len ∧ m.2.length = len)
  | .classic .. => 0 < c.msg.length ∧ c.msg.length % 8 = 0

/-- What the sender has to be told. -/
def Call.sent (c : Call) : Except ErrKind Unit :=
  if c.msg.length = c.choices.length then .ok () else .error .badProperties

/-- What the receiver has to get. -/
def Call.received (c : Call) : Except ErrKind (List Bytes) :=
  if c.msg.length = c.choices.length then .ok (chosen c.msg c.choices) else .error .badProperties

/-- One attempt of two parties to derive a key, with all their draws. -/
structure Attempt where
  g1 : GarblerDraws
  g2 : GarblerDraws
  o1 : OTRecv
  o2 : OTRecv
  p : Bytes
  q : Bytes
  t1 : Nat
  t2 : Nat

/-- The first party's password has a supported length, and so on; the second party's password is arbitrary. -/
def Attempt.Sound (a : Attempt) : Prop :=
  a.g1.Valid ∧ a.g2.Valid ∧ a.o1.Valid ∧ a.o2.Valid ∧ GoodLength a.p.length ∧ a.q.length < 2 ^ 60 ∧ a.t1 < 65535 ∧ a.t2 < 65535

/-- What two parties have to get from an attempt: an error on both sides if the lengths of the passwords differ; otherwise
keys, which are equal if the passwords are within both thresholds, and different if they are within exactly one and output
labels do not collide. -/
def Attempt.Fair (X : Crypto) (a : Attempt) (r r' : Except ErrKind WireBytes) : Prop :=
  (a.q.length ≠ a.p.length → r = .error .badProperties ∧ r' = .error .badProperties) ∧
  (a.q.length = a.p.length → ∃ k k', r = .ok k ∧ r' = .ok k' ∧
    (bitDistance a.p a.q ≤ a.t1 → bitDistance a.p a.q ≤ a.t2 → k = k') ∧
    (a.t1 < bitDistance a.p a.q → bitDistance a.p a.q ≤ a.t2 →
      NoOutputCollision X.toEnv a.g1.rnd (buildCircuit X.dbg (8 * a.p.length) a.t1) → k ≠ k') ∧
    (bitDistance a.p a.q ≤ a.t1 → a.t2 < bitDistance a.p a.q →
      NoOutputCollision X.toEnv a.g2.rnd (buildCircuit X.dbg (8 * a.p.length) a.t2) → k ≠ k'))

end FP.Spec
