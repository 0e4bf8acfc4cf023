import Verif.Model.Apricot
/-
The parallel loops of src/ot/apricot.rs and src/ot/one_of_many.rs on shared memory: every row of the buffer is
computed by a few steps, and the steps of different rows may be executed in any interleaving.  Workers get whole rows and
do the steps of a row in order; nothing else orders the steps.  `runJobs` in Verif/Model/OT.lean is the special case in
which each worker runs undisturbed.
-/
namespace FP

/-- Execute steps of rows on shared memory (`rayon::scope`, src/ot/apricot.rs:154-197, 373-395 and 422-455,
src/ot/one_of_many.rs:89-120).  `tasks r` are the steps of row `r`, `pc r` says how many of them have been executed,
`modify r f` applies `f` to row `r` of the memory.  The list names the row whose next step is executed. -/
def interleave {σ ρ : Type} (modify : Nat → (ρ → R ρ) → σ → R σ) (tasks : Nat → List (ρ → R ρ)) :
    List Nat → (Nat → Nat) → σ → R σ
  | [], _, memory => .ok memory
  | r :: rest, pc, memory => do
    let step ← idxR (tasks r) (pc r)
    let memory ← modify r step memory
    interleave modify tasks rest (fun i => if i = r then pc r + 1 else pc i) memory

/-- Row `r` of one buffer with rows of `len` bytes (`vector_row_mut`, src/util.rs:130-134; `vector_slice_mut` with both
halves of a pair, src/util.rs:141-146). -/
def modifyFlat (len : Nat) (r : Nat) (f : Bytes → R Bytes) (memory : Bytes) : R Bytes := updateRow memory r len f

/-- Row `r` of a vector of vectors (`chunk[i]`, src/ot/apricot.rs:442 and 448). -/
def modifyRows (r : Nat) (f : Bytes → R Bytes) (memory : List Bytes) : R (List Bytes) := do
  setR memory r (← f (← idxR memory r))

/-- The steps of one pair in "Randomize" (src/ot/apricot.rs:168-190): stream over the first half, xor with the first
message, stream over the second half, xor with the second message. -/
def randomizeSteps (X : Crypto) (delta qT : Bytes) (msg : List (Bytes × Bytes)) (msgSize r : Nat) :
    List (Bytes → R Bytes) :=
  [ fun row => updateSlice row 0 msgSize fun plain => do
      let qRow ← vectorRow qT r 16
      return X.fill (X.sha256 (beBytes 8 r ++ qRow)) plain.length,
    fun row => updateSlice row 0 msgSize fun plain => do apXorInplace X.dbg plain (← idxR msg r).1,
    fun row => updateSlice row msgSize msgSize fun plain => do
      let qRow ← vectorRow qT r 16
      let qBuffer ← apXor X.dbg (List.replicate 16 0) qRow delta
      return X.fill (X.sha256 (beBytes 8 r ++ qBuffer)) plain.length,
    fun row => updateSlice row msgSize msgSize fun plain => do apXorInplace X.dbg plain (← idxR msg r).2 ]

/-- The step of one row in "Compute v" (src/ot/apricot.rs:383-389). -/
def vSteps (X : Crypto) (t : Bytes) (r : Nat) : List (Bytes → R Bytes) :=
  [ fun row => do
      let tRow ← vectorRow t r 16
      apXorInplace X.dbg row (X.sha256 (beBytes 8 r ++ tRow)).toList ]

/-- The steps of one row in "De-randomize" (src/ot/apricot.rs:433-449): the stream, then xor with the chosen
ciphertext. -/
def derandomizeSteps (X : Crypto) (v d packed : Bytes) (msgSize r : Nat) : List (Bytes → R Bytes) :=
  [ fun row => do
      let vRow ← vectorRow v r 32
      let seed ← arrayFromSlice vRow
      return X.fill seed row.length,
    fun row => do
      let b := r % 8
      let choice := (((← idxR packed ((r - b) / 8)) >>> b) &&& 1).toNat
      let dRow ← vectorSlice d (r * msgSize * 2 + choice * msgSize) msgSize
      apXorInplace X.dbg row dRow ]

/-- The steps of one row in "Compute y" (src/ot/one_of_many.rs:99-113): xor with the message, then with one mask for
each bit of the index. -/
def manySteps (X : Crypto) (messages : List Bytes) (keys : List (Bytes × Bytes)) (domain len r : Nat) :
    List (Bytes → R Bytes) :=
  (fun row => do xorBytesInplace X.dbg row (← idxR messages r)) ::
  (List.range domain).map fun j row => do
    let k ← idxR keys j
    let key := if (r >>> (j % 64)) % 2 = 1 then k.2 else k.1
    xorBytesInplace X.dbg row (fk X key (r % 2 ^ 32) len)

end FP
