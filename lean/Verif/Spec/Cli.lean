import Verif.Model.Cli

/-!
# What a user of the command line program expects
-/

namespace GwEcc.Cli

open Post Mpi

variable {F J D V X : Type}

/-- The option is given, for the last time with value `v`. -/
def LastGiven (argv : List (String × Str)) (name : String) (v : Str) : Prop :=
  ∃ before after, argv = before ++ (name, v) :: after ∧ ∀ o ∈ after, o.1 ≠ name

/-- The option is not given. -/
def NotGiven (argv : List (String × Str)) (name : String) : Prop := ∀ o ∈ argv, o.1 ≠ name

/-- The text in force for an option with a default. -/
def TextFor (argv : List (String × Str)) (name : String) (default v : Str) : Prop :=
  LastGiven argv name v ∨ (NotGiven argv name ∧ v = default)

/-- An option of the command line help, with a value of the announced kind. -/
structure Valid (env : Env F J D V X) (o : String × Str) : Prop where
  known : o.1 ∈ ["--posterior-type", "--posterior-path", "--parameter-columns", "--output-dir", "--output-format",
    "--save-every", "--samples", "--fref", "--tref", "--method", "--batch-size", "--data-dict-generator",
    "--data-dict-generator-extra-kwargs", "--gw-eccentricity-kwargs"]
  type : o.1 = "--posterior-type" → o.2 = "bilby".toList
  format : o.1 = "--output-format" → o.2 = "json".toList ∨ o.2 = "csv".toList ∨ o.2 = "parquet".toList
  every : o.1 = "--save-every" → o.2.map Char.toLower = "none".toList ∨ ∃ n, pyInt o.2 = .ok n
  reference : o.1 = "--fref" ∨ o.1 = "--tref" → ∃ x, env.float o.2 = .ok x
  batch : o.1 = "--batch-size" → ∃ n, pyInt o.2 = .ok n

/-- `path` names the callable `g`: `module:name`, where the module is a file if it ends in `.py` or contains a slash. -/
def Names (env : Env F J D V X) (path : Str) (g : Gen J D X) : Prop :=
  ∃ modulePath name names, path = modulePath ++ ':' :: name ∧ ':' ∉ name ∧
    ((".py".toList <:+ modulePath ∨ '/' ∈ modulePath) ∧ env.fileExists modulePath = true ∧
        env.fromFile modulePath = .ok names ∨
      ¬ (".py".toList <:+ modulePath ∨ '/' ∈ modulePath) ∧ env.fromName modulePath = .ok names) ∧
    Dict.get? names name = some (.function g)

/-- The text is empty, or it is a JSON object. -/
def IsObject (env : Env F J D V X) (text : Str) (d : J) : Prop :=
  (text = [] ∧ d = env.empty) ∨ (text ≠ [] ∧ env.loads text = .ok (.object d))

/-- The command line is well formed and means the configuration `c`. -/
structure Accepts (env : Env F J D V X) (argv : List (String × Str)) (c : Config F J D X) : Prop where
  valid : ∀ o ∈ argv, Valid env o
  posteriorPath : LastGiven argv "--posterior-path" c.posteriorPath
  columns : ∃ v, TextFor argv "--parameter-columns" [] v ∧
    (v = [] ∧ c.parameterColumns = none ∨ v ≠ [] ∧ c.parameterColumns = some ((v.splitOn ',').map strip))
  outputDir : TextFor argv "--output-dir" ".".toList c.outputDir
  outputFormat : TextFor argv "--output-format" "csv".toList c.outputFormat
  saveEvery : ∃ v, TextFor argv "--save-every" "none".toList v ∧
    (v.map Char.toLower = "none".toList ∧ c.saveEvery = none ∨
      v.map Char.toLower ≠ "none".toList ∧ ∃ n, pyInt v = .ok n ∧ c.saveEvery = some n)
  samples : ∃ v, TextFor argv "--samples" "all".toList v ∧ parseSamples (some v) = .ok c.samples
  reference : (NotGiven argv "--tref" ∧ c.tref = none ∧
      ∃ v x, LastGiven argv "--fref" v ∧ env.float v = .ok x ∧ c.fref = some x) ∨
    (NotGiven argv "--fref" ∧ c.fref = none ∧
      ∃ v x, LastGiven argv "--tref" v ∧ env.float v = .ok x ∧ c.tref = some x)
  method : TextFor argv "--method" "AmplitudeFits".toList c.method
  batchSize : (NotGiven argv "--batch-size" ∧ c.batchSize = 100) ∨
    ∃ v, LastGiven argv "--batch-size" v ∧ pyInt v = .ok c.batchSize
  generator : ∃ v, LastGiven argv "--data-dict-generator" v ∧ Names env v c.generator
  extraKwargs : ∃ v, TextFor argv "--data-dict-generator-extra-kwargs" "{}".toList v ∧ IsObject env v c.extraKwargs
  eccKwargs : ∃ v, TextFor argv "--gw-eccentricity-kwargs" "{}".toList v ∧ IsObject env v c.eccKwargs

/-- The line of the table for one sample: with both values and status success if the generator returned a dictionary for
the parameters and the measurement, with the method, the options and the reference point of the command line, returned
these values; with status fail, no values and the exception otherwise (`TypeError` if the generator returned something
that is not a dictionary). -/
def LineFor (env : Env F J D V X) (c : Config F J D X) (params : Dict Str X) (r : Result ℤ V) : Prop :=
  (∃ d e l, c.generator params c.extraKwargs = .ok (some d) ∧
      env.measure c.method c.eccKwargs d c.tref c.fref = .ok (e, l) ∧
      r.success = true ∧ r.egw = some e ∧ r.lgw = some l ∧ r.error = none) ∨
  (∃ err, (c.generator params c.extraKwargs = .error err ∨
        (c.generator params c.extraKwargs = .ok none ∧ err = .typeError) ∨
        ∃ d, c.generator params c.extraKwargs = .ok (some d) ∧
          env.measure c.method c.eccKwargs d c.tref c.fref = .error err) ∧
      r.success = false ∧ r.egw = none ∧ r.lgw = none ∧ r.error = some err)

end GwEcc.Cli
