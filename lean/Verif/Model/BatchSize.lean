import Verif.Model.Mpi

/-!
# The batches handed out for any whole number given as batch size

`Model/Mpi` has batch sizes that are natural numbers.  The command line accepts every whole number (postprocess_cli.py 490-496,
`type=int`), and slices with negative bounds mean something in Python.
-/

namespace GwEcc.Mpi

variable {α : Type}

/-- postprocess_cli.py 397-404 and 424-431: the batch for the worker that asks, and the new `next_batch_idx`; nothing stands for
`_STOP`. -/
def nextBatch (items : List α) (batchSize next : ℤ) : Option (List α × ℤ) :=
  if next < items.length then
    let endIdx := min (next + batchSize) items.length
    some (pySlice items next endIdx, endIdx)
  else none

/-- What the first `k` requests get when `next_batch_idx` is `next`: batches, or nothing for `_STOP`. -/
def batches (items : List α) (batchSize : ℤ) : ℕ → ℤ → List (Option (List α))
  | 0, _ => []
  | k + 1, next =>
    match nextBatch items batchSize next with
    | some (b, next) => some b :: batches items batchSize k next
    | none => none :: batches items batchSize k next

end GwEcc.Mpi
