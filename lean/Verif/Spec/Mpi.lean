import Verif.Model.Mpi

/-!
# What a user expects of posterior post-processing
-/

namespace GwEcc.Mpi

variable {Idx P V : Type} [DecidableEq Idx]

/-- The table a user expects: the selected rows, in their order, each with the value of that sample. -/
def expectedTable (job : Job Idx P V) : List (Row Idx P V) :=
  job.rows.map fun r => (r.1, r.2, some (job.value r.1 r.2))

/-- A checkpoint whose entries are right, as far as selected samples are concerned. -/
def Correct (job : Job Idx P V) (file : Option (List (Idx × V))) : Prop :=
  ∀ x ∈ file.getD [], ∀ p, (x.1, p) ∈ job.rows → x.2 = job.value x.1 p

/-- A run, serial or with workers, that was started with checkpoint file `f` and killed at some point (or ended), leaving
checkpoint file `f'`. -/
inductive KilledRun (job : Job Idx P V) : Option (List (Idx × V)) → Option (List (Idx × V)) → Prop
  | serial (f : Option (List (Idx × V))) (j : ℕ) :
    KilledRun job f (serialLoop job ((toProcess job f).take j) (initialStore job f)).file
  | serialEnd (f : Option (List (Idx × V))) : KilledRun job f (serialRun job f).1.file
  | mpi (f : Option (List (Idx × V))) (W bs : ℕ) (sched : List (Label W)) (s : Sys Idx P V W)
      (h : mpiRun job f W bs sched = some s) : KilledRun job f s.store.file

/-- Any number of killed runs, one after the other. -/
inductive KilledRuns (job : Job Idx P V) : Option (List (Idx × V)) → Option (List (Idx × V)) → Prop
  | none (f : Option (List (Idx × V))) : KilledRuns job f f
  | more {f f' f'' : Option (List (Idx × V))} (h : KilledRuns job f f') (h' : KilledRun job f' f'') :
    KilledRuns job f f''

end GwEcc.Mpi
