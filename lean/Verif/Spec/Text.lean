/-
Passwords written as text.
-/
namespace FP.Spec

/-- A bit string written with the digits `0` and `1`. -/
def bitText (bits : List Bool) : String := String.ofList (bits.map fun b => if b then '1' else '0')

end FP.Spec
