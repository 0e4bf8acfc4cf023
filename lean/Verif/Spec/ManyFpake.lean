import Verif.Spec.Fpake
import Verif.Model.ManyFpake
import Verif.Model.Legacy
/-
The database of a one-of-many key exchange.
-/
namespace FP.Spec

/-- A database the 1-out-of-n transfer can serve: a power of two of passwords of equal length. -/
structure Database (passwords : List Bytes) (len : Nat) : Prop where
  power : ∃ k, passwords.length = 2 ^ k
  count : passwords.length < 2 ^ 32
  lengths : ∀ p ∈ passwords, p.length = len

/-- Draws of the sender of a 1-out-of-n transfer that can occur and, if there are more than four messages,
split the rows evenly. -/
structure _root_.FP.ManySend.Valid (dbg : Bool) (count : Nat) (o : ManySend) : Prop where
  cores : 0 < o.cores
  order : IsOrder (workers o.cores count) o.order
  split : count ≤ 4 ∨ CleanSplit dbg o.cores count

/-- Close passwords give the same key in the fourth implementation, for passwords of one length. -/
def ManySameKeyOK (C : Curve) (len ts tc : Nat) : Prop :=
  ∀ (X : Crypto) (s : ManyDraws) (c : SingleDraws) (passwords : List Bytes) (password : Bytes) (index : Nat)
    (_ : Database passwords len) (hi : index < passwords.length), password.length = len →
    s.many.Valid X.dbg passwords.length → s.g.Valid → s.ot.Valid → c.g.Valid → c.ot.Valid →
    bitDistance passwords[index] password ≤ ts → bitDistance passwords[index] password ≤ tc →
    ∃ key, Completes (mfpakeMany C X s passwords ts) (mfpakeSingle C X c password index passwords.length tc) key key

/-- Close passwords give the same half key when the server garbles, third implementation. -/
def Server3OK (C : Curve) (len t : Nat) : Prop :=
  ∀ (X : Crypto) (s : ServerDraws) (c : ClientDraws) (passwords : List Bytes) (password : Bytes) (index : Nat)
    (_ : Database passwords len) (hi : index < passwords.length), password.length = len →
    s.many.Valid X.dbg passwords.length → s.g.Valid → s.ot2.Valid → c.ot.Valid → c.ot2.Valid →
    bitDistance passwords[index] password ≤ t →
    ∃ k mask masked, Completes (garblerServerV3 C X s passwords t)
      (evaluatorClientV3 C X c password passwords.length index) (k, mask) (k, masked)

/-- The same when the client garbles. -/
def Client3OK (C : Curve) (len t : Nat) : Prop :=
  ∀ (X : Crypto) (g : GarblerDraws) (o : OTRecv) (mask : Bytes) (number : Nat) (passwords : List Bytes) (password : Bytes) (index : Nat)
    (_ : ∀ p ∈ passwords, p.length = len) (hi : index < passwords.length), password.length = len →
    mask.length = len → g.Valid → o.Valid →
    bitDistance passwords[index] password ≤ t →
    ∃ k, Completes (evaluatorServerV3 C X o passwords mask)
      (garblerClientV3 C X g password (List.zipWith (· ^^^ ·) mask passwords[index]) index number t) k k

/-- The same when the server garbles, first implementation. -/
def Server1OK (C : Curve) (len t : Nat) : Prop :=
  ∀ (X : Crypto) (s : ServerDraws1) (c : ClientDraws1) (passwords : List Bytes) (password : Bytes) (index : Nat)
    (_ : Database passwords len) (hi : index < passwords.length), password.length = len →
    s.many.Valid X.dbg passwords.length → s.g.Valid → c.ot.Valid →
    bitDistance passwords[index] password ≤ t →
    ∃ k, Completes (garblerServerV1 C X s passwords t) (evaluatorClientV1 C X c password passwords.length index) k k

/-- The same when the client garbles, first implementation. -/
def Client1OK (C : Curve) (len t : Nat) : Prop :=
  ∀ (X : Crypto) (g : ClientGarbler1) (o : OTRecv) (passwords : List Bytes) (password : Bytes) (index : Nat)
    (_ : ∀ p ∈ passwords, p.length = len) (hi : index < passwords.length), password.length = len →
    (X.dbg = true → 2 ≤ passwords.length) → passwords.length < 2 ^ 32 → g.g.Valid → o.Valid →
    bitDistance passwords[index] password ≤ t →
    ∃ k, Completes (evaluatorServerV1 C X o passwords) (garblerClientV1 C X g password index passwords.length t) k k

/-- The same when the server garbles, second implementation. -/
def Server2OK (C : Curve) (len t : Nat) : Prop :=
  ∀ (X : Crypto) (s : ServerDraws) (c : ClientDraws) (passwords : List Bytes) (password : Bytes) (index : Nat)
    (_ : Database passwords len) (hi : index < passwords.length), password.length = len →
    s.many.Valid X.dbg passwords.length → s.g.Valid → s.ot2.Valid → c.ot.Valid → c.ot2.Valid →
    bitDistance passwords[index] password ≤ t →
    ∃ k, Completes (garblerServerV2 C X s passwords t) (evaluatorClientV2 C X c password passwords.length index) k k

/-- The same when the client garbles, second implementation. -/
def Client2OK (C : Curve) (len t : Nat) : Prop :=
  ∀ (X : Crypto) (g : ClientGarbler2) (s : ServerEvaluator2) (passwords : List Bytes) (password : Bytes) (index : Nat)
    (_ : Database passwords len) (hi : index < passwords.length), password.length = len →
    s.many.Valid X.dbg passwords.length → g.g.Valid → s.ot.Valid →
    bitDistance passwords[index] password ≤ t →
    ∃ k, Completes (evaluatorServerV2 C X s passwords) (garblerClientV2 C X g password index passwords.length t) k k

end FP.Spec
