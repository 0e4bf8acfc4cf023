import Verif.Spec.Served
/-
Databases whose passwords have different lengths.
-/
namespace FP.Spec

/-- The number of bytes of the first password. -/
def firstLength (passwords : List Bytes) : Nat := (passwords.headD []).length

/-- Every password reduced to as many bytes as the first one has. -/
def cutAll (passwords : List Bytes) : List Bytes := passwords.map (·.take (firstLength passwords))

/-- No password is shorter than the first one. -/
def NoneShorter (passwords : List Bytes) : Prop := ∀ p ∈ passwords, firstLength passwords ≤ p.length

/-- All passwords have the length of the first one. -/
def AllEqual (passwords : List Bytes) : Prop := ∀ p ∈ passwords, p.length = firstLength passwords

end FP.Spec
