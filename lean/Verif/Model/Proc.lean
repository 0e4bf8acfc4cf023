import Verif.Model.Basic
/-
Protocol parties and the channel between two of them (src/common.rs:5-52).
-/
namespace FP

/-- A protocol party: sequential code that sends and receives byte messages on one channel.
Models code written against `Channel = (Box<dyn ChannelSender>, Box<dyn ChannelReceiver>)`
(src/common.rs:5-13).  Random draws are not steps: they are arguments of the party. -/
inductive Proc (α : Type) where
  | ret (a : α)
  | fail (e : Fault)
  | send (m : Bytes) (k : Proc α)
  | recv (k : Bytes → Proc α)

/-- Sequential composition; a failure (`?`, panic) ends the party (`?`, e.g. src/fpake.rs:48-57). -/
def Proc.bind {α β} : Proc α → (α → Proc β) → Proc β
  | .ret a, f => f a
  | .fail e, _ => .fail e
  | .send m k, f => .send m (k.bind f)
  | .recv k, f => .recv fun m => (k m).bind f

/-- `?` sequencing as do-notation (e.g. src/fpake.rs:48-57). -/
instance : Monad Proc where
  pure := .ret
  bind := .bind

/-- Local computation inside a party (e.g. src/fpake.rs:29-44). -/
def Proc.ofR {α} : R α → Proc α
  | .ok a => .ret a
  | .error e => .fail e

/-- Local computation as a step of a party (e.g. src/fpake.rs:29-44). -/
instance : MonadLift R Proc where
  monadLift := Proc.ofR

/-- `s.send(&m)?` (src/common.rs:5-7). -/
def sendP (m : Bytes) : Proc Unit := .send m (.ret ())

/-- `r.recv()?` (src/common.rs:9-11). -/
def recvP : Proc Bytes := .recv .ret

/-- `for m in ms { s.send(m)?; }` (src/ot/chou_orlandi.rs:52-54 and 149-151). -/
def sendAll : List Bytes → Proc Unit
  | [] => pure ()
  | m :: ms => do sendP m; sendAll ms

/-- `(0..n).map(|_| r.recv())` collected (src/ot/chou_orlandi.rs:58-61 and 120-123). -/
def recvN : Nat → Proc (List Bytes)
  | 0 => pure []
  | n + 1 => do
    let m ← recvP
    let ms ← recvN n
    return m :: ms

/-- Two parties and the messages in flight in each direction.  `local_channel_pair`
(src/common.rs:38-52) connects two unbounded FIFO queues crosswise; a TCP connection behaves the
same way as long as the operating system buffers what is in flight. -/
structure Conf (α β : Type) where
  left : Proc α
  right : Proc β
  toRight : List Bytes
  toLeft : List Bytes

/-- One step of either party.  Which party moves is up to the scheduler; a receive on an empty
queue blocks (src/common.rs:23-35). -/
inductive Step {α β : Type} : Conf α β → Conf α β → Prop where
  | sendL (m p q pq qp) : Step ⟨.send m p, q, pq, qp⟩ ⟨p, q, pq ++ [m], qp⟩
  | sendR (m p q pq qp) : Step ⟨p, .send m q, pq, qp⟩ ⟨p, q, pq, qp ++ [m]⟩
  | recvL (m k q pq qp) : Step ⟨.recv k, q, pq, m :: qp⟩ ⟨k m, q, pq, qp⟩
  | recvR (m p k pq qp) : Step ⟨p, .recv k, m :: pq, qp⟩ ⟨p, k m, pq, qp⟩

/-- Runs of a given number of steps (src/common.rs:23-35). -/
inductive StepsN {α β : Type} : Nat → Conf α β → Conf α β → Prop where
  | refl (c) : StepsN 0 c c
  | step {n c d e} : Step c d → StepsN n d e → StepsN (n + 1) c e

/-- Runs of any length (src/common.rs:23-35). -/
def Steps {α β : Type} (c d : Conf α β) : Prop := ∃ n, StepsN n c d

/-- Two parties at the start, with empty queues (src/common.rs:38-44). -/
def start {α β : Type} (p : Proc α) (q : Proc β) : Conf α β := ⟨p, q, [], []⟩

/-- No party can move (src/common.rs:30-35). -/
def Stuck {α β : Type} (c : Conf α β) : Prop := ∀ d, ¬ Step c d

/-- One party run against an arbitrary peer, reduced to the messages the peer delivers: what the
party sends and how it ends (`none`: still waiting for a message) (src/common.rs:23-35). -/
def Proc.against {α : Type} : Proc α → List Bytes → List Bytes × Option (R α)
  | .ret a, _ => ([], some (.ok a))
  | .fail e, _ => ([], some (.error e))
  | .send m p, inp => let r := p.against inp; (m :: r.1, r.2)
  | .recv _, [] => ([], none)
  | .recv k, m :: inp => (k m).against inp

end FP
