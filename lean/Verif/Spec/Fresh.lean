import Verif.Model.Fpake
/-
The same setting with another hash function, and processes without their results.
-/
namespace FP.Spec

/-- The same build and generators with another hash function. -/
def rehash (X : Crypto) (sha : Bytes → WireBytes) : Crypto := { X with sha256 := sha }

/-- The other hash function differs at most on inputs of 42 bytes. -/
def AgreeBut42 (sha sha' : Bytes → WireBytes) : Prop := ∀ m : Bytes, m.length ≠ 42 → sha' m = sha m

/-- What a party does, leaving out what it returns: the messages it sends after each sequence of messages received,
and whether it returns, waits or fails, and how. -/
def Forget {α : Type} (p : Proc α) : Proc Unit := p >>= fun _ => .ret ()

end FP.Spec
