import Verif.Model.Crypto
/-
What the 1-out-of-n sender broadcasts, written without reference to the sender's code.
-/
namespace FP.Spec

/-- An index as four bytes, most significant first. -/
def indexBytes (i : Nat) : Bytes :=
  [BitVec.ofNat 8 (i / 2 ^ 24), BitVec.ofNat 8 (i / 2 ^ 16), BitVec.ofNat 8 (i / 2 ^ 8), BitVec.ofNat 8 i]

/-- Key `b` of position `j`. -/
def keyOf (keys : Nat → WireBytes × WireBytes) (j : Nat) (b : Bool) : Bytes :=
  if b then (keys j).2.toList else (keys j).1.toList

/-- The seed of the mask that key `b` of position `j` stands for in row `i`: the hash of the index
followed by the key. -/
def maskSeed (sha : Bytes → WireBytes) (keys : Nat → WireBytes × WireBytes) (i j : Nat) (b : Bool) :
    WireBytes :=
  sha (indexBytes i ++ keyOf keys j b)

/-- Byte `k` of row `i`: the byte of message `i`, and for every position `j` one byte of the
stream of the key that bit `j` of `i` selects, all added modulo two. -/
def broadcastByte (X : Crypto) (keys : Nat → WireBytes × WireBytes) (domain : Nat) (m : Bytes)
    (i k : Nat) : Byte :=
  (List.range domain).foldl
    (fun byte j => byte ^^^ X.chacha20 (maskSeed X.sha256 keys i j (i.testBit j)) k) (m.getD k 0)

/-- Row `i`. -/
def broadcastRow (X : Crypto) (keys : Nat → WireBytes × WireBytes) (domain : Nat) (m : Bytes) (i : Nat) :
    Bytes :=
  (List.range m.length).map (broadcastByte X keys domain m i)

/-- Byte `k` of what a release build hands to a receiver that asks for message `i` with a width of `domain`
bits.  The sender reads the bits of the index in a 64-bit word and the receiver in a 32-bit word, both with
wrap-around; where the two readings differ, two different masks are added. -/
def openedByte (X : Crypto) (keys : Nat → WireBytes × WireBytes) (domain : Nat) (m : Bytes) (i k : Nat) : Byte :=
  (List.range domain).foldl
    (fun byte j => byte ^^^ (X.chacha20 (maskSeed X.sha256 keys i j (i.testBit (j % 64))) k ^^^
      X.chacha20 (maskSeed X.sha256 keys i j (i.testBit (j % 32))) k)) (m.getD k 0)

/-- All of it. -/
def opened (X : Crypto) (keys : Nat → WireBytes × WireBytes) (domain : Nat) (m : Bytes) (i : Nat) : Bytes :=
  (List.range m.length).map (openedByte X keys domain m i)

/-- The seeds of the masks are all different. -/
def DistinctSeeds (sha : Bytes → WireBytes) (keys : Nat → WireBytes × WireBytes) (domain : Nat) : Prop :=
  ∀ i < 2 ^ domain, ∀ j < domain, ∀ i' < 2 ^ domain, ∀ j' < domain, ∀ b b' : Bool,
    maskSeed sha keys i j b = maskSeed sha keys i' j' b' → i = i' ∧ j = j' ∧ b = b'

/-- `s` is the seed of a mask that needs a key the receiver with index `choice` did not choose. -/
def Unopened (sha : Bytes → WireBytes) (keys : Nat → WireBytes × WireBytes) (domain choice : Nat)
    (s : WireBytes) : Prop :=
  ∃ i < 2 ^ domain, ∃ j < domain, s = maskSeed sha keys i j (!choice.testBit j)

end FP.Spec
