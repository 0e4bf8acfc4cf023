import Verif.Spec.Session
import Verif.Spec.ManyFpake
import Verif.Spec.ManyOT
/-
Many 1-out-of-n transfers and many logins on one connection.
-/
namespace FP.Spec

/-- One 1-out-of-n transfer: the sender's messages and draws, the receiver's index and draws. -/
structure Lookup where
  send : ManySend
  base : Nat → Nat
  messages : List Bytes
  index : Nat

/-- A database of messages of one size, an index into it, and rows that can be shared out evenly. -/
def Lookup.Sound (X : Crypto) (l : Lookup) : Prop :=
  ∃ len, 0 < len ∧ len < 2 ^ 32 ∧ Database l.messages len ∧ l.index < l.messages.length ∧
    l.send.Valid X.dbg l.messages.length

/-- One login with the fourth implementation: the server's database and draws, and the client's password, index and
draws. -/
structure Login where
  s : ManyDraws
  c : SingleDraws
  passwords : List Bytes
  password : Bytes
  index : Nat
  ts : Nat
  tc : Nat

/-- A database of a supported size and passwords of a supported length. -/
def Login.Sound (X : Crypto) (l : Login) : Prop :=
  Database l.passwords l.password.length ∧ GoodLength l.password.length ∧ l.index < l.passwords.length ∧
    l.s.many.Valid X.dbg l.passwords.length ∧ l.s.g.Valid ∧ l.s.ot.Valid ∧ l.c.g.Valid ∧ l.c.ot.Valid ∧
    l.ts < 65535 ∧ l.tc < 65535

/-- What the two have to get: keys, which are equal if the client's password is within both thresholds of the entry it asked
for, and different if it is within exactly one and output labels do not collide. -/
def Login.Fair (X : Crypto) (l : Login) (r r' : Except ErrKind WireBytes) : Prop :=
  let d := bitDistance (l.passwords.getD l.index []) l.password
  ∃ k k', r = .ok k ∧ r' = .ok k' ∧ (d ≤ l.ts → d ≤ l.tc → k = k') ∧
    (l.ts < d → d ≤ l.tc → NoOutputCollision X.toEnv l.s.g.rnd (buildCircuit X.dbg (8 * l.password.length) l.ts) → k ≠ k') ∧
    (d ≤ l.ts → l.tc < d → NoOutputCollision X.toEnv l.c.g.rnd (buildCircuit X.dbg (8 * l.password.length) l.tc) → k ≠ k')

end FP.Spec
