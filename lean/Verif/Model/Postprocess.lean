import Verif.Model.Mpi
import Mathlib.Algebra.Order.Field.Basic

/-!
# Model of `gw_eccentricity/postprocess/core.py`, `PostProcess.postprocess` and `parse_samples`
-/

namespace GwEcc.Post

/-! ## One sample (core.py) -/

section sample

variable {Idx P D T F V : Type}

/-- core.py 12-18 `PostProcessResult` (the message of a failed sample is reduced to the exception class). -/
structure Result (Idx V : Type) where
  index : Idx
  success : Bool
  egw : Option V
  lgw : Option V
  error : Option Err
  deriving DecidableEq

/-- core.py 110-144 `get_data_dict`.  `gen params = .ok none` stands for a generator that returns something that is not a
dictionary. -/
def getDataDict (gen : P → Py (Option D)) (params : P) : Py D :=
  match gen params with
  | .error e => .error e
  | .ok none => .error .typeError
  | .ok (some d) => .ok d

/-- core.py 256: exactly one of `tref`, `fref` is given. -/
def oneGiven (tref : Option T) (fref : Option F) : Bool := tref.isNone ^^ fref.isNone

/-- core.py 204-284 `postprocess_sample`.  `measure` is `measure_eccentricity` with the method and options fixed, reduced to
the pair (eccentricity, mean anomaly).  `except Exception` catches every exception class of `Err`;
`KeyboardInterrupt` and other `BaseException`s are not modelled. -/
def postprocessSample (gen : P → Py (Option D)) (measure : D → Option T → Option F → Py (V × V)) (index : Idx)
    (params : P) (tref : Option T) (fref : Option F) : Py (Result Idx V) :=
  if oneGiven tref fref = false then .error .valueError
  else
    match (getDataDict gen params).bind fun d => measure d tref fref with
    | .ok (e, l) => .ok ⟨index, true, some e, some l, none⟩
    | .error err => .ok ⟨index, false, none, none, some err⟩

/-- core.py 41-47 `FrefBoundsResult`: `bounds = none` is status `"fail"`. -/
structure Bounds (Idx K : Type) where
  index : Idx
  bounds : Option (K × K)
  deriving DecidableEq

/-- core.py 147-202 `get_fref_bounds_for_sample`; `measureBounds` stands for `measure_eccentricity` over the whole time
array followed by `get_fref_bounds`. -/
def frefBoundsForSample {K : Type} (gen : P → Py (Option D)) (measureBounds : D → Py (K × K)) (index : Idx)
    (params : P) : Bounds Idx K :=
  match (getDataDict gen params).bind measureBounds with
  | .ok b => ⟨index, some b⟩
  | .error _ => ⟨index, none⟩

/-- postprocess.py 240-253: `zip(samples, param_list)` with `param_list = posterior.loc[samples]`, processed in order
(joblib returns the results in the order of its input). -/
def postprocess [DecidableEq Idx] (gen : P → Py (Option D)) (measure : D → Option T → Option F → Py (V × V))
    (posterior : List (Idx × P)) (samples : Option (List Idx)) (tref : Option T) (fref : Option F) :
    Py (List (Result Idx V)) :=
  if oneGiven tref fref = false then .error .valueError
  else
    let samples := samples.getD (posterior.map Prod.fst)
    match Mpi.selectRows posterior (some samples) with
    | .error e => .error e
    | .ok rows => (samples.zip (rows.map Prod.snd)).mapM fun s => postprocessSample gen measure s.1 s.2 tref fref

end sample

/-! ## Summaries (core.py) -/

section summary

variable {Idx V K : Type}

/-- core.py 31-39 `PostProcessResults.get_summary`. -/
structure Summary (V K : Type) where
  total : ℕ
  percentage : K
  egw : List (Option V)
  lgw : List (Option V)

/-- core.py 26-39: `success_only` and `get_summary`; the percentage of an empty list is a division by zero. -/
def getSummary [Field K] (rs : List (Result Idx V)) : Py (Summary V K) :=
  let successful := rs.filter fun r => r.success
  if rs.length = 0 then .error .zeroDivisionError
  else .ok ⟨rs.length, ((successful.length : K) / (rs.length : K)) * 100, successful.map Result.egw,
    successful.map Result.lgw⟩

/-- Python `max` and `min` of a non-empty list. -/
def pyMax [LinearOrder K] : List K → Py K
  | [] => .error .valueError
  | a :: l => .ok (l.foldl max a)

@[inherit_doc pyMax] def pyMin [LinearOrder K] : List K → Py K
  | [] => .error .valueError
  | a :: l => .ok (l.foldl min a)

/-- core.py 57-82 `FrefBoundsResults.get_minmax_fref`: `get_summary` divides by the number of results first; the
percentage vanishes iff no sample succeeded. -/
def getMinmaxFref [LinearOrder K] (rs : List (Bounds Idx K)) : Py (K × K) :=
  let successful := rs.filterMap Bounds.bounds
  if rs.length = 0 then .error .zeroDivisionError
  else if successful.length = 0 then .error .exception
  else do
    let lo ← pyMax (successful.map Prod.fst)
    let hi ← pyMin (successful.map Prod.snd)
    return (lo, hi)

end summary

/-! ## `--samples` (postprocess_cli.py 54-79) -/

/-- `str.strip()`, for ASCII white space. -/
def strip (cs : List Char) : List Char :=
  ((cs.dropWhile Char.isWhitespace).reverse.dropWhile Char.isWhitespace).reverse

/-- Digits of `int(...)`: groups of decimal digits separated by single underscores. -/
def pyNat (cs : List Char) : Py ℕ :=
  let groups := cs.splitOn '_'
  if groups.all (fun g => !g.isEmpty && g.all Char.isDigit) then .ok (Nat.ofDigitChars 10 groups.flatten 0)
  else .error .valueError

/-- Python `int(text)` for ASCII text. -/
def pyInt (cs : List Char) : Py ℤ :=
  match strip cs with
  | '-' :: ds => (pyNat ds).map fun n : ℕ => -(n : ℤ)
  | '+' :: ds => (pyNat ds).map fun n : ℕ => (n : ℤ)
  | ds => (pyNat ds).map fun n : ℕ => (n : ℤ)

/-- Python `list(range(start, stop, step))`. -/
def pyRange (start stop step : ℤ) : Py (List ℤ) :=
  if step = 0 then .error .valueError
  else
    let n := if 0 < step then ((stop - start + step - 1) / step).toNat else ((start - stop - step - 1) / (-step)).toNat
    .ok ((List.range n).map fun i : ℕ => start + step * (i : ℤ))

/-- postprocess_cli.py 69-75: a text with a colon. -/
def parseRange (parts : List (List Char)) : Py (List ℤ) :=
  match parts with
  | [a, b] => do
    let start ← if a.isEmpty then .ok 0 else pyInt a
    let stop ← pyInt b
    pyRange start stop 1
  | [a, b, c] => do
    let start ← if a.isEmpty then .ok 0 else pyInt a
    let stop ← pyInt b
    let step ← if c.isEmpty then .ok 1 else pyInt c
    pyRange start stop step
  | _ => .error .valueError

/-- postprocess_cli.py 54-79 `parse_samples`; the result `none` means all samples. -/
def parseSamples (value : Option (List Char)) : Py (Option (List ℤ)) :=
  match value with
  | none => .ok none
  | some value =>
    let text := (strip value).map Char.toLower
    if text = "all".toList ∨ text = "none".toList then .ok none
    else if ':' ∈ text then (parseRange (text.splitOn ':')).map some
    else if ',' ∈ text then
      (((text.splitOn ',').filter fun x => !(strip x).isEmpty).mapM fun x => pyInt (strip x)).map some
    else (pyInt text).map fun n => some [n]

end GwEcc.Post
