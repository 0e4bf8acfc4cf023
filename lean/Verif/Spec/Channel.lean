import Verif.Model.Channel
/-
What an authenticated channel does, in terms of the frames on the wire.
-/
namespace FP.Spec

/-- The frames a list of messages is sent as: each message, then its code. -/
def frames (tag : Bytes → Bytes) (messages : List Bytes) : List Bytes := messages.flatMap fun m => [m, tag m]

/-- What ends a sequence of receives. -/
inductive After where
  | waiting
  | rejected
  deriving DecidableEq

/-- The messages a receiver accepts out of arbitrary frames, two at a time, until a code is wrong or
frames are missing. -/
def accepted (valid : Bytes → Bytes → Bool) : List Bytes → List Bytes × After
  | data :: code :: rest => if valid data code then ((data :: (accepted valid rest).1), (accepted valid rest).2) else ([], .rejected)
  | _ => ([], .waiting)

/-- A party that, once everything acceptable is consumed, asks for more: it fails if the next message is
rejected, otherwise it waits. -/
def outcome {α : Type} (e : Fault) : After → Option (R α) → Option (R α)
  | _, some r => some r
  | .rejected, none => some (.error e)
  | .waiting, none => none

end FP.Spec
