/-
Hamming distance of bit strings.
-/
namespace FP.Spec

/-- Number of positions at which two bit strings differ. -/
def hamming : List Bool → List Bool → Nat
  | a :: as, b :: bs => (if a = b then 0 else 1) + hamming as bs
  | _, _ => 0

/-- Number of ones. -/
def weight : List Bool → Nat
  | [] => 0
  | a :: as => (if a then 1 else 0) + weight as

/-- Bitwise exclusive or. -/
def xorBits (a b : List Bool) : List Bool := List.zipWith (· ^^ ·) a b

/-- Bits as circuit inputs. -/
def bitsNat (a : List Bool) : List Nat := a.map Bool.toNat

end FP.Spec
