import Verif.Spec.Outcome
/-
What a transfer of messages of different sizes amounts to.
-/
namespace FP.Spec

/-- The message followed by zeros up to `len` bytes. -/
def zeroPadded (len : Nat) (m : Bytes) : Bytes := m ++ List.replicate (len - m.length) 0

/-- Both messages of a pair, each followed by zeros up to `len` bytes. -/
def paddedPair (len : Nat) (m : Bytes × Bytes) : Bytes × Bytes := (zeroPadded len m.1, zeroPadded len m.2)

/-- A message the sender cannot encrypt once it has settled on `len` bytes a message: a longer one, and in a build with
assertions also a shorter one. -/
def Unfit (dbg : Bool) (len : Nat) (m : Bytes) : Prop := len < m.length ∨ (dbg = true ∧ m.length ≠ len)

open Classical in
/-- How a run of the OT extension on arbitrary messages ends, for the sender and for the receiver.  `len` is the size of
the very first message. -/
noncomputable def mixedEnds (dbg : Bool) (msg : List (Bytes × Bytes)) (choices : List Bool) (len : Nat) (accepted : Prop) :
    End Unit × End (List Bytes) :=
  if dbg = true ∧ msg.length % 8 ≠ 0 then (.fails .panic, .fails .panic)
  else if msg = [] then (.fails .panic, .waits)
  else if ¬ accepted then (.fails (.err .polychromatic), .waits)
  else if len = 0 then (.fails .panic, .waits)
  else if ∃ m ∈ msg, Unfit dbg len m.1 ∨ Unfit dbg len m.2 then (.fails .panic, .waits)
  else if len < 65536 then (.returns (), .returns (chosen (msg.map (paddedPair len)) choices))
  else (.returns (), .fails .panic)

end FP.Spec
