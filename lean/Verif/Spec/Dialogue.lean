import Verif.Model.Legacy
import Verif.Model.Classic
import Verif.Model.Channel
import Mathlib.Data.Nat.Log
/-
Who speaks when.
-/
namespace FP.Spec

/-- What a party does with the connection at one moment. -/
inductive Turn where
  | send
  | receive
  deriving DecidableEq

/-- Whatever the peer delivers, the party sends and receives in the given order.  It may fail at any moment; if it returns,
it has gone through the whole list. -/
def Speaks {α : Type} : Proc α → List Turn → Prop
  | .ret _, D => D = []
  | .fail _, _ => True
  | .send _ k, D => ∃ D', D = .send :: D' ∧ Speaks k D'
  | .recv k, D => ∃ D', D = .receive :: D' ∧ ∀ m, Speaks (k m) D'

/-- The number of messages a list of turns waits for. -/
def waits (D : List Turn) : Nat := D.count .receive

/-! ### The dialogues -/

/-- Both sides tell each other what they are about to do. -/
def hello : List Turn := [.send, .receive]

/-- The sender of a base transfer of `n` pairs. -/
def baseSends (n : Nat) : List Turn := hello ++ (List.replicate n .send ++ (List.replicate n .receive ++ [.send]))

/-- The receiver of a base transfer of `n` pairs. -/
def baseReceives (n : Nat) : List Turn := hello ++ (List.replicate n .receive ++ (List.replicate n .send ++ [.receive]))

/-- The sender of an extended transfer: greeting, coin flip, length of the messages, base transfer, the matrix and two
check values, the ciphertexts. -/
def extSends : List Turn :=
  hello ++ ([.receive, .send, .receive] ++ (.send :: (baseReceives 128 ++ [.receive, .receive, .receive, .send])))

/-- The receiver of an extended transfer. -/
def extReceives : List Turn :=
  hello ++ ([.send, .receive, .send] ++ (.receive :: (baseSends 128 ++ [.send, .send, .send, .receive])))

/-- The sender of the other extended transfer: greeting, base transfer, matrix, coin flip, two check values, two lists. -/
def classicSends : List Turn :=
  hello ++ (baseReceives 128 ++ (.receive :: ([.receive, .send, .receive] ++ [.receive, .receive, .send, .send])))

/-- The receiver of the other extended transfer. -/
def classicReceives : List Turn :=
  hello ++ (baseSends 128 ++ (.send :: ([.send, .receive, .send] ++ [.send, .send, .receive, .receive])))

/-- A transfer of one of `2 ^ d` messages. -/
def manySends (d : Nat) : List Turn := .send :: baseSends d

/-- The same, receiving. -/
def manyReceives (d : Nat) : List Turn := .receive :: baseReceives d

/-- The two sides of a half of the key exchange. -/
def garbles : List Turn := extSends ++ [.send, .send]

/-- The other side. -/
def evaluates : List Turn := extReceives ++ [.receive, .receive]

/-- The garbling server of the third and the second implementation. -/
def serverGarbles (d : Nat) : List Turn := .send :: (extSends ++ (.send :: (manySends d ++ extSends)))

/-- Its client. -/
def clientEvaluates (d : Nat) : List Turn := .receive :: (extReceives ++ (.receive :: (manyReceives d ++ extReceives)))

/-- The garbling client of the third implementation. -/
def clientGarbles : List Turn := .send :: .send :: (extSends ++ [.send])

/-- Its server. -/
def serverEvaluates : List Turn := .receive :: .receive :: (extReceives ++ [.receive])

/-- The garbling client of the second implementation. -/
def clientGarbles2 (d : Nat) : List Turn := .send :: .send :: (extSends ++ (manyReceives d ++ [.send]))

/-- Its server. -/
def serverEvaluates2 (d : Nat) : List Turn := .receive :: .receive :: (extReceives ++ (manySends d ++ [.receive]))

/-- On a channel with tags every message is followed by its tag. -/
def tagged (D : List Turn) : List Turn := D.flatMap fun t => [t, t]

/-! ### Two parties -/

/-- In every run of the two parties, whatever the scheduler does: there are at most `n` steps, and a run that cannot be
continued has ended after exactly `n` steps with both results and no message left over, or one of the parties has failed. -/
def NeverHangs {α β : Type} (p : Proc α) (q : Proc β) (n : Nat) : Prop :=
  ∀ m c, StepsN m (start p q) c →
    m ≤ n ∧ (Stuck c → (m = n ∧ (∃ a b, c.left = .ret a ∧ c.right = .ret b) ∧ c.toRight = [] ∧ c.toLeft = []) ∨
      (∃ e, c.left = .fail e) ∨ ∃ e, c.right = .fail e)

/-- In every run of the two parties, whatever the scheduler does, the number of steps is bounded and one of the parties fails. -/
def OneFails {α β : Type} (p : Proc α) (q : Proc β) : Prop :=
  ∃ n, ∀ m c, StepsN m (start p q) c → m ≤ n ∧ (Stuck c → (∃ e, c.left = .fail e) ∨ ∃ e, c.right = .fail e)

end FP.Spec
