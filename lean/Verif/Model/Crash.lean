import Verif.Model.Proc
/-
Parties that crash and connections that break.
-/
namespace FP

/-- The party has returned, with a result, an error or a panic; its channel is closed then (src/common.rs:5-13: a
channel end is a value that its owner drops). -/
def Proc.ended {α : Type} : Proc α → Prop
  | .ret _ => True
  | .fail _ => True
  | .send _ _ => False
  | .recv _ => False

/-- One step of a run in which anything may break: besides the steps of `Step`, a party that has not ended may fail at
any point, for any reason: the process is killed, the machine stops, `send` or `recv` returns an error because the
connection is lost (`self.0.send_raw(&data)?` and `self.0.recv_raw()?`, src/common.rs:23-35; unwrapped at
src/ot/chou_orlandi.rs:59 and 121).  Any number of the messages it sent last may get lost; what arrives still arrives in
order. -/
inductive FaultStep {α β : Type} : Conf α β → Conf α β → Prop where
  | normal {c d} : Step c d → FaultStep c d
  | failL (p q pq qp e n) : ¬ p.ended → FaultStep ⟨p, q, pq, qp⟩ ⟨.fail e, q, pq.take n, qp⟩
  | failR (p q pq qp e n) : ¬ q.ended → FaultStep ⟨p, q, pq, qp⟩ ⟨p, .fail e, pq, qp.take n⟩

/-- Runs in which anything may break (src/common.rs:23-35). -/
inductive FaultSteps {α β : Type} : Conf α β → Conf α β → Prop where
  | refl (c) : FaultSteps c c
  | step {c d e} : FaultStep c d → FaultSteps d e → FaultSteps c e

/-- What the channel does by itself: a `recv` with nothing left to read returns an error once the other side has ended,
as local channels do when the sender is dropped and sockets at the end of the stream (src/common.rs:30-35). -/
inductive Notices {α β : Type} : Conf α β → Prop where
  | left (k q pq) : q.ended → Notices ⟨.recv k, q, pq, []⟩
  | right (p k qp) : p.ended → Notices ⟨p, .recv k, [], qp⟩

end FP
