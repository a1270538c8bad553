import Verif.Model.Postprocess

/-!
# Model of the command line program, `gw_eccentricity/postprocess/postprocess_cli.py`

Texts are lists of characters.  What the program asks of the outside world (`float`, `json.loads`, the file system, the
import of modules, bilby's reader of results and `measure_eccentricity`) is a parameter.
-/

namespace GwEcc.Cli

open Post Mpi

/-- A text. -/
abbrev Str := List Char

/-- How the program can end before it has done anything: argparse prints the usage and exits with status 2, or an
exception leaves `main`. -/
inductive CliErr
  | usage
  | raised (e : Err)
  deriving DecidableEq

/-- An exception that leaves `main`. -/
def lift {α : Type} : Py α → Except CliErr α
  | .ok a => .ok a
  | .error e => .error (.raised e)

/-- What `json.loads` returns: an object, or some other JSON value. -/
inductive Json (J : Type)
  | object (d : J)
  | other
  deriving DecidableEq

/-- What a name of a module is bound to: something callable, or not. -/
inductive Obj (G : Type)
  | function (g : G)
  | other

/-- The posterior: a pandas data frame with integer labels; a row maps the columns to values (duplicate column names are
not modelled). -/
structure Frame (X : Type) where
  columns : List Str
  rows : List (ℤ × Dict Str X)

variable {F J D V X : Type}

/-- A waveform generator: parameters and extra options to a dictionary (`none`: something else). -/
abbrev Gen (J D X : Type) := Dict Str X → J → Py (Option D)

/-- The outside world. -/
structure Env (F J D V X : Type) where
  /-- `float(text)` -/
  float : Str → Py F
  /-- `json.loads(text)`; its `JSONDecodeError` is a `ValueError` -/
  loads : Str → Py (Json J)
  /-- the empty dictionary -/
  empty : J
  /-- `Path(p).expanduser().resolve().exists()` -/
  fileExists : Str → Bool
  /-- postprocess_cli.py 105-109: the names of the module made from a file; `ValueError` if there is no loader -/
  fromFile : Str → Py (Dict Str (Obj (Gen J D X)))
  /-- `importlib.import_module(p)` -/
  fromName : Str → Py (Dict Str (Obj (Gen J D X)))
  /-- `bilby.result.read_in_result(path).posterior` -/
  bilby : Str → Py (Frame X)
  /-- `measure_eccentricity(dataDict=…, tref_in=…, fref_in=…, method=…, **kwargs)`: eccentricity and mean anomaly -/
  measure : Str → J → D → Option F → Option F → Py (V × V)

/-- postprocess_cli.py 48-51 `parse_int_or_none`. -/
def parseIntOrNone (value : Str) : Py (Option ℤ) :=
  if value.map Char.toLower = "none".toList then .ok none else (pyInt value).map some

/-- postprocess_cli.py 82-91 `parse_json_dict`. -/
def parseJsonDict (env : Env F J D V X) (value : Str) : Py J :=
  if value.isEmpty then .ok env.empty
  else
    match env.loads value with
    | .error _ => .error .valueError
    | .ok .other => .error .valueError
    | .ok (.object d) => .ok d

/-- `text.rsplit(":", 1)` for a text with a colon. -/
def rsplitColon (s : Str) : Str × Str :=
  (((s.reverse.dropWhile fun c => decide (c ≠ ':')).drop 1).reverse,
    (s.reverse.takeWhile fun c => decide (c ≠ ':')).reverse)

/-- postprocess_cli.py 101-111: the names of the module. -/
def loadModule (env : Env F J D V X) (modulePath : Str) : Py (Dict Str (Obj (Gen J D X))) :=
  if ".py".toList <:+ modulePath ∨ '/' ∈ modulePath then
    if env.fileExists modulePath = false then .error .valueError else env.fromFile modulePath
  else env.fromName modulePath

/-- postprocess_cli.py 94-115 `load_callable`. -/
def loadCallable (env : Env F J D V X) (importPath : Str) : Py (Gen J D X) :=
  if ':' ∉ importPath then .error .valueError
  else do
    let module ← loadModule env (rsplitColon importPath).1
    match Dict.get? module (rsplitColon importPath).2 with
    | none => .error .attributeError
    | some .other => .error .valueError
    | some (.function g) => .ok g

/-- The options argparse knows (postprocess_cli.py 457-519). -/
def optionList : List String :=
  ["--posterior-type", "--posterior-path", "--parameter-columns", "--output-dir", "--output-format", "--save-every",
   "--samples", "--fref", "--tref", "--method", "--batch-size", "--data-dict-generator",
   "--data-dict-generator-extra-kwargs", "--gw-eccentricity-kwargs"]

/-- postprocess_cli.py 457-519: what argparse checks of one option and its value (`choices`, `type`). -/
def validOption (env : Env F J D V X) (o : String × Str) : Bool :=
  decide (o.1 ∈ optionList) &&
  (if o.1 = "--posterior-type" then decide (o.2 = "bilby".toList)
   else if o.1 = "--output-format" then decide (o.2 ∈ ["json".toList, "csv".toList, "parquet".toList])
   else if o.1 = "--save-every" then (parseIntOrNone o.2).isOk
   else if o.1 = "--fref" ∨ o.1 = "--tref" then (env.float o.2).isOk
   else if o.1 = "--batch-size" then (pyInt o.2).isOk
   else true)

/-- The value argparse keeps: the last one given. -/
def given (argv : List (String × Str)) (name : String) : Option Str := List.lookup name argv.reverse

/-- postprocess_cli.py 26-41 `PostProcessConfig` (`posterior_type` is always `bilby`). -/
structure Config (F J D X : Type) where
  posteriorPath : Str
  parameterColumns : Option (List Str)
  outputDir : Str
  outputFormat : Str
  saveEvery : Option ℤ
  samples : Option (List ℤ)
  fref : Option F
  tref : Option F
  method : Str
  batchSize : ℤ
  generator : Gen J D X
  extraKwargs : J
  eccKwargs : J

/-- postprocess_cli.py 530-533: the columns of `--parameter-columns`. -/
def parseColumns (value : Option Str) : Option (List Str) :=
  match value with
  | none => none
  | some value => if value.isEmpty then none else some ((value.splitOn ',').map strip)

/-- postprocess_cli.py 453-548 `build_config_from_cli`.  `argv` is the command line as pairs of an option and its value
(abbreviated options, `--name=value` and values that look like options are left to argparse). -/
def buildConfig (env : Env F J D V X) (argv : List (String × Str)) : Except CliErr (Config F J D X) :=
  if argv.all (validOption env) = false then .error .usage
  else
    match given argv "--posterior-path", given argv "--data-dict-generator" with
    | some path, some generator =>
      let fref := (given argv "--fref").bind fun x => (env.float x).toOption
      let tref := (given argv "--tref").bind fun x => (env.float x).toOption
      if oneGiven tref fref = false then .error .usage
      else do
        let samples ← lift (parseSamples (some ((given argv "--samples").getD "all".toList)))
        let generator ← lift (loadCallable env generator)
        let extraKwargs ← lift (parseJsonDict env ((given argv "--data-dict-generator-extra-kwargs").getD "{}".toList))
        let eccKwargs ← lift (parseJsonDict env ((given argv "--gw-eccentricity-kwargs").getD "{}".toList))
        return {
          posteriorPath := path
          parameterColumns := parseColumns (given argv "--parameter-columns")
          outputDir := (given argv "--output-dir").getD ".".toList
          outputFormat := (given argv "--output-format").getD "csv".toList
          saveEvery := (given argv "--save-every").bind fun x => ((parseIntOrNone x).toOption).join
          samples := samples
          fref := fref
          tref := tref
          method := (given argv "--method").getD "AmplitudeFits".toList
          batchSize := ((given argv "--batch-size").bind fun x => (pyInt x).toOption).getD 100
          generator := generator
          extraKwargs := extraKwargs
          eccKwargs := eccKwargs }
    | _, _ => .error .usage

/-- The columns of a row in the order of `cols`. -/
def restrict (cols : List Str) (row : Dict Str X) : Dict Str X :=
  cols.filterMap fun c => (Dict.get? row c).map fun x => (c, x)

/-- `posterior[cols]` of pandas: `KeyError` for a missing column. -/
def selectColumns (f : Frame X) (cols : List Str) : Py (Frame X) :=
  if cols.all (fun c => decide (c ∈ f.columns)) then
    .ok ⟨cols, f.rows.map fun r => (r.1, restrict cols r.2)⟩
  else .error .keyError

/-- postprocess_cli.py 230-237 `get_bilby_posterior`. -/
def bilbyPosterior (env : Env F J D V X) (path : Str) (cols : Option (List Str)) : Py (Frame X) := do
  let f ← env.bilby path
  match cols with
  | none => return f
  | some cols => selectColumns f cols

/-- core.py 85-107 `filter_posterior_columns`. -/
def filterPosteriorColumns (f : Frame X) (cols : List Str) : Py (Frame X) :=
  if (cols.filter fun c => decide (c ∉ f.columns)) ≠ [] then .error .valueError else selectColumns f cols

/-- postprocess_cli.py 122-134 `run_postprocess`. -/
def runPostprocess (env : Env F J D V X) (c : Config F J D X) (index : ℤ) (params : Dict Str X) : Py (Result ℤ V) :=
  postprocessSample (fun p => c.generator p c.extraKwargs) (env.measure c.method c.eccKwargs) index params c.tref c.fref

/-- postprocess_cli.py 137-148 `run_postprocess_batch`, 151-160 `extract_batch_data`: the indices and the parameters are
taken apart, paired again and processed in order; the first exception leaves the loop. -/
def runBatch (env : Env F J D V X) (c : Config F J D X) (batch : List (ℕ × ℤ × Dict Str X)) : Py (List (Result ℤ V)) :=
  ((batch.map fun it => it.2.1).zip (batch.map fun it => it.2.2)).mapM fun s => runPostprocess env c s.1 s.2

/-- The columns of the results (core.py 10-16) besides `sample_index`. -/
def resultColumns : List Str := ["status".toList, "egw".toList, "lgw".toList, "error_message".toList]

/-- postprocess_cli.py 217-221: the columns of the final table.  `sample_index` is added (or overwritten); a left merge on
it puts the columns of the results after those of the posterior, and appends `_x` and `_y` to a name that occurs on both
sides (that a name with a suffix may occur already is not modelled); then the column `status` is read. -/
def outputColumns (cols : List Str) : Py (List Str) :=
  let left := if "sample_index".toList ∈ cols then cols else cols ++ ["sample_index".toList]
  let merged := left.map (fun c => if c ∈ resultColumns then c ++ "_x".toList else c) ++
    resultColumns.map (fun c => if c ∈ left then c ++ "_y".toList else c)
  if "status".toList ∈ merged then .ok merged else .error .keyError

/-- postprocess_cli.py 167-175 `write_df`: is the format supported? -/
def writeDf (format : Str) : Py Unit :=
  if format ∈ ["json".toList, "csv".toList, "parquet".toList] then .ok () else .error .valueError

/-- What the program leaves on disk: the path of the final table, its columns and its rows.  The value of a row is what
`run_postprocess` gave for it. -/
structure Output (V X : Type) where
  path : Str
  columns : List Str
  rows : List (Row ℤ (Dict Str X) (Py (Result ℤ V)))

/-- postprocess_cli.py 222: the path of the final table. -/
def outputPath (c : Config F J D X) : Str := c.outputDir ++ "/eccentricity_results.".toList ++ c.outputFormat

/-- The work of a run (postprocess_cli.py 307-313): the selected rows, what is computed for them, and how often the
results are saved. -/
def jobOf (env : Env F J D V X) (c : Config F J D X) (post : Frame X) :
    Py (Job ℤ (Dict Str X) (Py (Result ℤ V))) := do
  let rows ← selectRows post.rows c.samples
  return ⟨rows, runPostprocess env c, c.saveEvery⟩

/-- postprocess_cli.py 222-226: what is written once the rows of the table are known. -/
def output (c : Config F J D X) (post : Frame X) (rows : List (Row ℤ (Dict Str X) (Py (Result ℤ V)))) :
    Py (Output V X) := do
  let columns ← outputColumns post.columns
  writeDf c.outputFormat
  return ⟨outputPath c, columns, rows⟩

/-- postprocess_cli.py 555-573 `main` with one process, `checkpoint` being what is at the path of the checkpoint.  An
exception of `run_postprocess` would end the program; here it would be a value in the table. `C91_never_raises` shows that
there is none. -/
def program (env : Env F J D V X) (argv : List (String × Str))
    (checkpoint : FileState ℤ (Py (Result ℤ V))) : Except CliErr (Output V X) := do
  let c ← buildConfig env argv
  let post ← lift (bilbyPosterior env c.posteriorPath c.parameterColumns)
  let file ← lift (loadCheckpoint checkpoint)
  let job ← lift (jobOf env c post)
  let rows ← lift (serialRun job file).2
  lift (output c post rows)

end GwEcc.Cli
