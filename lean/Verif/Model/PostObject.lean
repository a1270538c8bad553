import Verif.Model.Cli

/-!
# Model of the classes `PostProcess` (postprocess/postprocess.py) and `PostProcessForBilby`
(postprocess/postprocess_for_bilby.py)

An object answers requests one after the other and keeps the result of the last post-processing.  The plots are not
modelled.
-/

namespace GwEcc.PostObject

open Post Mpi Cli

variable {F J D V X K : Type}

/-- What the classes ask of the outside world besides what the command line program asks. -/
structure ClassEnv (F J D V X K : Type) extends Env F J D V X where
  /-- `pd.read_csv(file, sep=" ").to_dict(orient="records")` -/
  readCsv : Str → Py (List (Dict Str X))
  /-- `measure_eccentricity` at all times of the waveform followed by `get_fref_bounds` (core.py 181-188) -/
  bounds : Str → J → D → Py (K × K)

/-- The two methods a subclass overrides: postprocess.py 74-89 `get_posterior` (`none`: something that is not a data frame)
and 91-100 `get_injection_params`. -/
structure Overrides (X : Type) where
  getPosterior : Option (List Str) → Py (Option (Frame X))
  getInjection : Frame X → Option Str → Py (Dict Str X)

/-- postprocess.py 74-100: the base class itself raises `NotImplementedError` from both. -/
def base : Overrides X := ⟨fun _ => .error .exception, fun _ _ => .error .exception⟩

/-- postprocess_for_bilby.py 22-49 `get_posterior`.  The result read is kept on the object and would be used again; the
constructor is its only caller.  A missing file raises `FileNotFoundError` either way. -/
def bilbyGetPosterior (env : ClassEnv F J D V X K) (file : Str) (cols : Option (List Str)) : Py (Option (Frame X)) := do
  let f ← env.bilby file
  match cols with
  | some cols => return some (← filterPosteriorColumns f cols)
  | none => return some f

/-- `"minimum_frequency"` -/
def minFreq : Str := "minimum_frequency".toList

/-- postprocess_for_bilby.py 51-63 `get_injection_params`: the first row of the file; a missing minimum frequency is taken
from the first row of the posterior. -/
def bilbyInjection (env : ClassEnv F J D V X K) (post : Frame X) (file : Option Str) : Py (Dict Str X) :=
  match file with
  | none => .error .valueError
  | some file => do
    let rows ← env.readCsv file
    let injection ← pyGet rows 0
    if injection.has minFreq then return injection
    else do
      let row ← pyGet post.rows 0
      let x ← Dict.getItem row.2 minFreq
      return injection.set minFreq x

/-- The class `PostProcessForBilby`. -/
def bilbyClass (env : ClassEnv F J D V X K) (file : Str) : Overrides X := ⟨bilbyGetPosterior env file, bilbyInjection env⟩

/-- An object of the class; `generator` already has its extra options. -/
structure PostObj (D V X : Type) where
  posterior : Frame X
  generator : Dict Str X → Py (Option D)
  injectionFile : Option Str
  result : Option (List (Result ℤ V))

/-- postprocess.py 25-72 `__init__`.  `gen = none`: something that is not callable. -/
def construct (env : ClassEnv F J D V X K) (cls : Overrides X) (gen : Option (Gen J D X)) (cols : Option (List Str))
    (extraKwargs : Option J) (injectionFile : Option Str) : Py (PostObj D V X) := do
  match ← cls.getPosterior cols with
  | none => .error .typeError
  | some f =>
    match gen with
    | none => .error .typeError
    | some g => return ⟨f, fun p => g p (extraKwargs.getD env.empty), injectionFile, none⟩

/-- What can be asked of an object: postprocess.py 207-254 `postprocess`, 256-268 `postprocess_summary`, 270-284
`get_gw_eccentricity_posterior`, 368-400 `get_fref_bounds`, 102-118 `get_injection_data_dict`, 120-147
`get_injection_egw_and_lgw` (without `debug`). -/
inductive Request (F J : Type)
  | postprocess (method : Str) (kwargs : Option J) (tref fref : Option F) (samples : Option (List ℤ))
  | summary
  | gwPosterior
  | frefBounds (method : Str) (kwargs : Option J) (samples : Option (List ℤ))
  | injectionData
  | injectionValues (method : Str) (kwargs : Option J) (tref fref : Option F)

/-- What is returned. -/
inductive Answer (D V K : Type)
  | results (l : List (Result ℤ V))
  | summary (s : Summary V K)
  | values (egw lgw : List (Option V))
  | ranges (l : List (Bounds ℤ K))
  | data (d : D)
  | pair (e l : V)

/-- postprocess.py 111-118 `get_injection_data_dict`. -/
def injectionData (cls : Overrides X) (o : PostObj D V X) : Py D :=
  if o.injectionFile.isNone then .error .valueError
  else do
    let p ← cls.getInjection o.posterior o.injectionFile
    getDataDict o.generator p

/-- postprocess.py 386-400 `get_fref_bounds`. -/
def frefBounds (env : ClassEnv F J D V X K) (o : PostObj D V X) (method : Str) (kwargs : Option J)
    (samples : Option (List ℤ)) : Py (List (Bounds ℤ K)) := do
  let samples := samples.getD (o.posterior.rows.map Prod.fst)
  let rows ← selectRows o.posterior.rows (some samples)
  return (samples.zip (rows.map Prod.snd)).map fun s =>
    frefBoundsForSample o.generator (env.bounds method (kwargs.getD env.empty)) s.1 s.2

/-- postprocess.py 265-284: the summary of the results kept, if there are any. -/
def keptSummary [Field K] (o : PostObj D V X) : Py (Summary V K) :=
  match o.result with
  | none => .error .valueError
  | some rs => getSummary rs

/-- One request: the answer and the object afterwards.  Only `postprocess`, when it returns, changes the object
(postprocess.py 253). -/
def answer [Field K] (env : ClassEnv F J D V X K) (cls : Overrides X) (o : PostObj D V X) :
    Request F J → Py (Answer D V K) × PostObj D V X
  | .postprocess method kwargs tref fref samples =>
    match postprocess o.generator (env.measure method (kwargs.getD env.empty)) o.posterior.rows samples tref fref with
    | .ok rs => (.ok (.results rs), { o with result := some rs })
    | .error e => (.error e, o)
  | .summary => ((keptSummary o).map .summary, o)
  | .gwPosterior => ((keptSummary (K := K) o).map fun s => .values s.egw s.lgw, o)
  | .frefBounds method kwargs samples => ((frefBounds env o method kwargs samples).map .ranges, o)
  | .injectionData => ((injectionData cls o).map .data, o)
  | .injectionValues method kwargs tref fref =>
    (if oneGiven tref fref = false then .error .valueError
     else do
      let d ← injectionData cls o
      let r ← env.measure method (kwargs.getD env.empty) d tref fref
      return .pair r.1 r.2, o)

/-- A session: requests one after the other, an exception being caught by the caller. -/
def session [Field K] (env : ClassEnv F J D V X K) (cls : Overrides X) :
    PostObj D V X → List (Request F J) → List (Py (Answer D V K)) × PostObj D V X
  | o, [] => ([], o)
  | o, q :: qs =>
    let r := answer env cls o q
    let rest := session env cls r.2 qs
    (r.1 :: rest.1, rest.2)

end GwEcc.PostObject
