/-
How rows are spread over worker threads.
-/
namespace FP.Spec

/-- Rows given to one worker: the rows divided, rounding down, by the number of cores or by the
number of rows if that is smaller. -/
def rowsPerWorker (cores rows : Nat) : Nat := rows / min rows cores

/-- The number of workers that are started: enough to reach every row. -/
def workers (cores rows : Nat) : Nat :=
  (rows + rowsPerWorker cores rows - 1) / rowsPerWorker cores rows

/-- `order` is an order in which the `n` workers may run. -/
def IsOrder (n : Nat) (order : List Nat) : Prop := order.Perm (List.range n)

/-- The split is clean: every worker has the same number of rows.  A build with debug assertions
insists that the number of threads divides the number of rows. -/
def CleanSplit (dbg : Bool) (cores rows : Nat) : Prop :=
  rowsPerWorker cores rows ∣ rows ∧ (dbg = true → min rows cores ∣ rows)

end FP.Spec
