import Verif.Py
import Mathlib.Data.List.Basic
import Mathlib.Logic.Function.Basic

/-!
# Model of `gw_eccentricity/postprocess/postprocess_cli.py`: `master` and `worker`

The master and the workers are a labelled transition system: a label says which process makes the next move (and, for a
master blocked in `recv(ANY_SOURCE)`, whose message it gets), so a schedule is a list of labels.  The serial run is a
function.  What is on disk is part of the master's state, so a crash is a prefix of an execution.

Simplifications.  `run_postprocess(sample_index, params, config)` is a parameter `value : Idx → P → V` (it never raises
once the command line guard has passed, see C55, and is assumed deterministic).  A result is the pair of its sample
index and value.  Writing and reading the parquet file gives back the same rows (in reality `None` becomes `NaN`).  Log
messages and the progress tracker are not modelled.  Channels are FIFO and unbounded; `C50_no_buffering` shows that no
channel ever holds more than one message.
-/

namespace GwEcc.Mpi

variable {Idx P V : Type} [DecidableEq Idx]

/-- What one run of the program works on: `rows` are the selected posterior rows, i.e. `row_indices` and `param_list`
of postprocess_cli.py 307-313; `saveEvery` is `config["save_every"]`. -/
structure Job (Idx P V : Type) where
  rows : List (Idx × P)
  value : Idx → P → V
  saveEvery : Option ℤ

/-- postprocess_cli.py 308-313: `posterior.loc[samples]` (all of `posterior.index` when `samples` is `None`): every row
with the requested label, in the order of the request; a label that does not occur raises `KeyError`. -/
def selectRows (posterior : List (Idx × P)) (samples : Option (List Idx)) : Py (List (Idx × P)) :=
  let labels := samples.getD (posterior.map Prod.fst)
  if labels.all (fun i => decide (i ∈ posterior.map Prod.fst)) then
    .ok (labels.flatMap fun i => posterior.filter fun r => r.1 = i)
  else .error .keyError

/-- The state of the master that matters for the output: `results` (330), the checkpoint file on disk (`none`: no file)
and `samples_since_checkpoint` (371). -/
structure Store (Idx V : Type) where
  results : List (Option (Idx × V))
  file : Option (List (Idx × V))
  since : ℕ
  deriving DecidableEq

/-- postprocess_cli.py 187, 207: the results that are not `None`. -/
def valid (results : List (Option (Idx × V))) : List (Idx × V) := results.filterMap id

/-- postprocess_cli.py 335: `{idx: pos for pos, idx in enumerate(row_indices)}`; a later position overrides. -/
def posMap (l : List Idx) : Dict Idx ℕ := l.zipIdx.foldl (fun d p => Dict.set d p.1 p.2) []

/-- postprocess_cli.py 317-321: `processed_indices`. -/
def processed (file : Option (List (Idx × V))) : List Idx :=
  match file with
  | none => []
  | some t => t.map Prod.fst

/-- postprocess_cli.py 323-326: `to_process`, items (position, sample index, params). -/
def toProcess (job : Job Idx P V) (file : Option (List (Idx × V))) : List (ℕ × Idx × P) :=
  (job.rows.zipIdx.map fun r => (r.2, r.1.1, r.1.2)).filter fun it => it.2.1 ∉ processed file

/-- postprocess_cli.py 338-350: one checkpoint row is put at the position of its sample, if it was selected. -/
def loadRow (pm : Dict Idx ℕ) (results : List (Option (Idx × V))) (row : Idx × V) : List (Option (Idx × V)) :=
  match Dict.get? pm row.1 with
  | none => results
  | some pos => results.set pos (some row)

/-- postprocess_cli.py 330-350: `results` before any work. -/
def initialResults (job : Job Idx P V) (file : Option (List (Idx × V))) : List (Option (Idx × V)) :=
  match file with
  | none => List.replicate job.rows.length none
  | some t => t.foldl (loadRow (posMap (job.rows.map Prod.fst))) (List.replicate job.rows.length none)

/-- The master's store when the work starts. -/
def initialStore (job : Job Idx P V) (file : Option (List (Idx × V))) : Store Idx V :=
  ⟨initialResults job file, file, 0⟩

/-- postprocess_cli.py 381, 419: `checkpoint_interval and samples_since_checkpoint >= checkpoint_interval`. -/
def due (job : Job Idx P V) (since : ℕ) : Bool :=
  match job.saveEvery with
  | none => false
  | some k => decide (k ≠ 0) && decide (k ≤ since)

/-- postprocess_cli.py 185-190 `save_checkpoint`: the file is overwritten with the results held in memory. -/
def saveCheckpoint (s : Store Idx V) : Store Idx V := { s with file := some (valid s.results) }

/-- postprocess_cli.py 377-383 and 414-421: record one result and write a checkpoint when it is due. -/
def record (job : Job Idx P V) (pos : ℕ) (res : Idx × V) (s : Store Idx V) : Store Idx V :=
  let s1 : Store Idx V := { s with results := s.results.set pos (some res), since := s.since + 1 }
  if due job s1.since then { saveCheckpoint s1 with since := 0 } else s1

/-- postprocess_cli.py 385-386, 433-434: the checkpoint after the last sample. -/
def lastCheckpoint (job : Job Idx P V) (s : Store Idx V) : Store Idx V :=
  match job.saveEvery with
  | none => s
  | some k => if k ≠ 0 ∧ 0 < s.since then saveCheckpoint s else s

/-- A row of the final table: the posterior row, joined with the value found for it (`none`: NaN). -/
abbrev Row (Idx P V : Type) := Idx × P × Option V

/-- postprocess_cli.py 219: left merge on the sample index, for one posterior row: one output row per matching result,
or a single row with missing values. -/
def mergeRow (t : List (Idx × V)) (r : Idx × P) : List (Row Idx P V) :=
  match t.filter (fun x => x.1 = r.1) with
  | [] => [(r.1, r.2, none)]
  | l => l.map fun x => (r.1, r.2, some x.2)

/-- postprocess_cli.py 193-227 `save_final`: the table that is written.  With no result at all the data frame has no
`sample_index` column and line 216 raises `KeyError`. -/
def saveFinal (job : Job Idx P V) (results : List (Option (Idx × V))) : Py (List (Row Idx P V)) :=
  match valid results with
  | [] => .error .keyError
  | t => .ok (job.rows.flatMap (mergeRow t))

/-- postprocess_cli.py 374-383: the serial loop, for a list of pending items. -/
def serialLoop (job : Job Idx P V) (items : List (ℕ × Idx × P)) (s : Store Idx V) : Store Idx V :=
  items.foldl (fun s it => record job it.1 (it.2.1, job.value it.2.1 it.2.2) s) s

/-- postprocess_cli.py 267-389 with one process: final store and final table. -/
def serialRun (job : Job Idx P V) (file : Option (List (Idx × V))) : Store Idx V × Py (List (Row Idx P V)) :=
  let items := toProcess job file
  let s0 := initialStore job file
  match items with
  | [] => (s0, saveFinal job s0.results)
  | items =>
    let s := lastCheckpoint job (serialLoop job items s0)
    (s, saveFinal job s.results)

/-! ## The checkpoint file and a crash while it is written -/

/-- What is at the path of the checkpoint. -/
inductive FileState (Idx V : Type)
  | absent
  | table (t : List (Idx × V))
  | truncated                         -- opened for writing, not finished: not a parquet file

/-- postprocess_cli.py 178-182 `load_checkpoint` (304: a table without the required columns is ignored; a table written by
`save_checkpoint` has them unless it is empty, and it is never empty).  Reading an incomplete file raises. -/
def loadCheckpoint : FileState Idx V → Py (Option (List (Idx × V)))
  | .absent => .ok none
  | .table t => .ok (some t)
  | .truncated => .error .valueError

/-- postprocess_cli.py 189 `results_df.to_parquet(checkpoint_path)`: the states the file goes through (the file is written
in place, not written elsewhere and renamed). -/
def writeStates (t : List (Idx × V)) : List (FileState Idx V) := [.truncated, .table t]

/-- A serial run started on what is at the path of the checkpoint. -/
def startRun (job : Job Idx P V) (fs : FileState Idx V) : Py (Store Idx V × Py (List (Row Idx P V))) :=
  match loadCheckpoint fs with
  | .error e => .error e
  | .ok file => .ok (serialRun job file)

/-! ## Master and workers -/

/-- Messages to a worker: `_STOP` or `(batch_indices, batch_params)`. -/
inductive Msg (Idx P : Type)
  | stop
  | batch (l : List (Idx × P))
  deriving DecidableEq

/-- Control state of a worker (postprocess_cli.py 439-446). -/
inductive Mode (Idx P : Type)
  | waiting                           -- blocked in `comm.recv`
  | computing (l : List (Idx × P))    -- in `run_postprocess_batch`
  | stopped                           -- left the loop
  deriving DecidableEq

/-- A worker with its incoming messages and its messages to the master (oldest first). -/
structure Worker (Idx P V : Type) where
  inbox : List (Msg Idx P)
  outbox : List (List (Idx × V))
  mode : Mode Idx P
  deriving DecidableEq

/-- Control state of the master. -/
inductive Ctl (Idx V : Type) (W : ℕ)
  | prime (k : ℕ)                                  -- loop 396-404, about to serve worker `k` (counted from 0)
  | loop                                           -- condition of the loop 407 / blocked in `recv` 409
  | handle (w : Fin W) (rest : List (Idx × V))         -- loop 412-421 on the batch received from `w`
  | finishing                                      -- 433-436
  | stopping (k : ℕ)                               -- 363-364, about to stop worker `k`
  | done                                           -- returned
  | failed                                         -- raised
  deriving DecidableEq

/-- The whole system.  `log` is a history variable: the results recorded by the master, in order. -/
structure Sys (Idx P V : Type) (W : ℕ) where
  ctl : Ctl Idx V W
  next : ℕ
  completed : ℕ
  store : Store Idx V
  table : Option (List (Row Idx P V))
  workers : Fin W → Worker Idx P V
  log : List (Idx × V)

/-- A worker before any message. -/
def freshWorker : Worker Idx P V := ⟨[], [], .waiting⟩

/-- Who moves next. -/
inductive Label (W : ℕ)
  | master (source : Fin W)     -- `source`: whose message a blocked master receives
  | worker (w : Fin W)

variable {W : ℕ}

/-- `comm.send(msg, dest=w)`. -/
def send (ws : Fin W → Worker Idx P V) (w : Fin W) (m : Msg Idx P) : Fin W → Worker Idx P V :=
  Function.update ws w { ws w with inbox := (ws w).inbox ++ [m] }

/-- postprocess_cli.py 397-404 and 424-431: the next batch, or `_STOP`, to worker `w`. -/
def feed (items : List (ℕ × Idx × P)) (batchSize : ℕ) (w : Fin W) (s : Sys Idx P V W) : Sys Idx P V W :=
  if s.next < items.length then
    let endIdx := min (s.next + batchSize) items.length
    let b := ((items.take endIdx).drop s.next).map Prod.snd
    { s with workers := send s.workers w (.batch b), next := endIdx }
  else { s with workers := send s.workers w .stop }

/-- One step of the master; `none` when it is blocked or finished. -/
def masterStep (job : Job Idx P V) (items : List (ℕ × Idx × P)) (batchSize : ℕ) (src : Fin W)
    (s : Sys Idx P V W) : Option (Sys Idx P V W) :=
  match s.ctl with
  | .prime k =>
    if h : k < W then some { feed items batchSize ⟨k, h⟩ s with ctl := .prime (k + 1) }
    else some { s with ctl := .loop }
  | .loop =>
    if s.completed < items.length then
      match (s.workers src).outbox with
      | [] => none
      | b :: rest =>
        some { s with ctl := .handle src b,
                      workers := Function.update s.workers src { s.workers src with outbox := rest } }
    else some { s with ctl := .finishing }
  | .handle w [] =>
    some { feed items batchSize w s with ctl := .loop }
  | .handle w (r :: rest) =>
    match Dict.get? (posMap (job.rows.map Prod.fst)) r.1 with
    | none => some { s with ctl := .failed }
    | some pos =>
      some { s with ctl := .handle w rest, store := record job pos r s.store,
                    completed := s.completed + 1, log := s.log ++ [r] }
  | .finishing =>
    let st := lastCheckpoint job s.store
    match saveFinal job st.results with
    | .error _ => some { s with store := st, ctl := .failed }
    | .ok t => some { s with store := st, table := some t, ctl := .done }
  | .stopping k =>
    if h : k < W then some { s with workers := send s.workers ⟨k, h⟩ .stop, ctl := .stopping (k + 1) }
    else some { s with ctl := .done }
  | .done => none
  | .failed => none

/-- One step of a worker (postprocess_cli.py 439-446); `none` when it is blocked or has left its loop. -/
def workerStep (job : Job Idx P V) (w : Fin W) (s : Sys Idx P V W) : Option (Sys Idx P V W) :=
  let wk := s.workers w
  match wk.mode with
  | .waiting =>
    match wk.inbox with
    | [] => none
    | .stop :: rest => some { s with workers := Function.update s.workers w { wk with inbox := rest, mode := .stopped } }
    | .batch b :: rest =>
      some { s with workers := Function.update s.workers w { wk with inbox := rest, mode := .computing b } }
  | .computing b =>
    let results := b.map fun it => (it.1, job.value it.1 it.2)
    some { s with workers := Function.update s.workers w { wk with outbox := wk.outbox ++ [results], mode := .waiting } }
  | .stopped => none

/-- One step of the system. -/
def sysStep (job : Job Idx P V) (items : List (ℕ × Idx × P)) (batchSize : ℕ) (l : Label W)
    (s : Sys Idx P V W) : Option (Sys Idx P V W) :=
  match l with
  | .master src => masterStep job items batchSize src s
  | .worker w => workerStep job w s

/-- The system when the master starts (postprocess_cli.py 352-371): with nothing to do the final table is written first
(360) and the workers are stopped afterwards (362-364). -/
def sysInit (job : Job Idx P V) (file : Option (List (Idx × V))) (W : ℕ) : Sys Idx P V W :=
  let s0 := initialStore job file
  match toProcess job file with
  | [] =>
    match saveFinal job s0.results with
    | .error _ => ⟨.failed, 0, 0, s0, none, fun _ => freshWorker, []⟩
    | .ok t => ⟨.stopping 0, 0, 0, s0, some t, fun _ => freshWorker, []⟩
  | _ => ⟨.prime 0, 0, 0, s0, none, fun _ => freshWorker, []⟩

/-- The system when the master is called (postprocess_cli.py 267-371): the selection of samples comes first, and an
exception of the master (308-310, 360) leaves the workers in `comm.recv`. -/
def sysStart (posterior : List (Idx × P)) (samples : Option (List Idx)) (value : Idx → P → V) (saveEvery : Option ℤ)
    (file : Option (List (Idx × V))) (W : ℕ) : Sys Idx P V W :=
  match selectRows posterior samples with
  | .error _ => ⟨.failed, 0, 0, ⟨[], file, 0⟩, none, fun _ => freshWorker, []⟩
  | .ok rows => sysInit ⟨rows, value, saveEvery⟩ file W

/-- An execution: the steps named by a schedule, one after the other; `none` when a named step is not enabled. -/
def exec (job : Job Idx P V) (items : List (ℕ × Idx × P)) (batchSize : ℕ) :
    List (Label W) → Sys Idx P V W → Option (Sys Idx P V W)
  | [], s => some s
  | l :: ls, s => (sysStep job items batchSize l s).bind (exec job items batchSize ls)

/-- `master`/`worker` on `W` workers, run along a schedule. -/
def mpiRun (job : Job Idx P V) (file : Option (List (Idx × V))) (W batchSize : ℕ) (schedule : List (Label W)) :
    Option (Sys Idx P V W) :=
  exec job (toProcess job file) batchSize schedule (sysInit job file W)

end GwEcc.Mpi
