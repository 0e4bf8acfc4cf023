import Verif.Model.Basic
import Mathlib.Algebra.Group.Basic
/-
External cryptographic libraries, as parameters.
-/
namespace FP

/-- `Env` and the stream ciphers.  `chacha20 seed i` is byte `i` of the output of
`ChaCha20Rng::from_seed(seed)` (rand_chacha), `chacha8` the same for `ChaCha8Rng`
(src/util.rs:67-88, src/ot/apricot.rs:503-513, src/ot/chou_orlandi.rs:86-93). -/
structure Crypto extends Env where
  chacha20 : WireBytes → Nat → Byte
  chacha8 : WireBytes → Nat → Byte

/-- `prg.fill_bytes(buffer)` on a fresh generator: the first `len` bytes of its output
(src/ot/apricot.rs:503-513, 177-179 and 441-442, src/ot/one_of_many.rs:24-25). -/
def Crypto.fill (X : Crypto) (seed : WireBytes) (len : Nat) : Bytes :=
  (List.range len).map (X.chacha20 seed)

/-- `(0..size).map(|_| stream.gen::<u8>())` on a fresh generator.  `gen::<u8>()` takes a whole
32-bit word and keeps its low byte, so it returns bytes 0, 4, 8, ... of the output
(src/ot/chou_orlandi.rs:86-88, 91-93 and 164-166). -/
def Crypto.genBytes (X : Crypto) (seed : WireBytes) (len : Nat) : Bytes :=
  (List.range len).map fun i => X.chacha20 seed (4 * i)

/-- `(0..size).map(|_| rng.gen::<u8>())` on a fresh `ChaCha8Rng`
(src/ot/apricot_classic.rs:144-146, 149-151 and 275-277). -/
def Crypto.gen8 (X : Crypto) (seed : WireBytes) (len : Nat) : Bytes :=
  (List.range len).map fun i => X.chacha8 seed (4 * i)

/-- The Edwards curve of curve25519-dalek as the code uses it: an abelian group with a base point,
compression to 32 bytes and decompression.  Scalars are natural numbers acting by repeated
addition.  The one law the code relies on is that decompressing a compressed point gives the point
back (src/ot/chou_orlandi.rs:43-46, 72-82 and 132-142). -/
structure Curve where
  Pt : Type
  [grp : AddCommGroup Pt]
  base : Pt
  compress : Pt → WireBytes
  decompress : WireBytes → Option Pt
  decompress_compress : ∀ P, decompress (compress P) = some P

attribute [instance] Curve.grp

end FP
