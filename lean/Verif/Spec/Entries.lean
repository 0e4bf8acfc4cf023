import Verif.Spec.Views
import Verif.Spec.ManyFpake
/-
What the parties of a one-of-many login hold at the end.
-/
namespace FP.Spec

/-- `mfpake_many`, step by step, with the key, the mask and everything the server holds of the half in which it evaluates as
its result. -/
def recorderMany (C : Curve) (X : Crypto) (r : ManyDraws) (passwords : List Bytes) (threshold : Nat) :
    Proc (WireBytes × Bytes × Held) := do
  let passwordBytes := (← idxR passwords 0).length
  let mask := drawMask r.mask passwordBytes
  let masked ← maskPasswords X.dbg mask passwordBytes passwords
  let domain ← log2R X.dbg 64 passwords.length
  r.many.run C X masked domain
  let k1 ← HalfKey.garbler C X r.g mask threshold
  let held ← recorder X.toEnv (r.ot.run C X) mask
  return (combine k1 held.key, mask, held)

/-- `mfpake_single`, step by step, with the key, the masked entry and everything the client holds of the half in which it
evaluates as its result. -/
def recorderSingle (C : Curve) (X : Crypto) (r : SingleDraws) (password : Bytes) (index number threshold : Nat) :
    Proc (WireBytes × Bytes × Held) := do
  let domain ← log2R X.dbg 32 number
  let masked ← manyRecv C X r.many index domain
  let mixed ← xorBytesInplace X.dbg masked password
  let held ← recorder X.toEnv (r.ot.run C X) mixed
  let k2 ← HalfKey.garbler C X r.g mixed threshold
  return (combine held.key k2, masked, held)

end FP.Spec
