import Verif.Model.LoadFiles
import Verif.Model.Postprocess

/-!
# Model of the download of SXS waveforms and of the loaders of SXS catalogue files (`gw_eccentricity/load_data.py`)

Directories are dictionaries from file names to contents; what the libraries make of the contents of a file is a parameter.
Warnings are not modelled.
-/

namespace GwEcc.Sxs

open Load

variable {B K C : Type}

/-! ## Download -/

/-- The directories on disk, by the components of their path, with the files they hold. -/
abbrev Disk (B : Type) := Dict (List String) (Dict String B)

/-- The world outside: the files of the simulations of one release of the catalogue (name of the file to link), and
`sxs.utilities.download_file`, which makes the file at the destination have these contents one after the other and then
ends (with the final content) or raises. -/
structure Remote (B : Type) where
  catalogue : Dict String (Dict String String)
  fetch : String → List B × Py B

/-- load_data.py 794 `sxs_id.replace(":", "_")`. -/
def safeId (id : String) : String := String.ofList (id.toList.map fun c => if c = ':' then '_' else c)

/-- load_data.py 794-796: the components of the path.  `lev` is the formatted number; `expanduser` is not modelled. -/
def targetDir (dataDir id lev : String) : List String := [dataDir, safeId id, "Lev" ++ lev]

/-- load_data.py 810-815: `order` is the formatted number. -/
def fileNames (order : String) : List String :=
  ["Strain_N" ++ order ++ ".h5", "Strain_N" ++ order ++ ".json", "metadata.json", "Horizons.h5"]

/-- load_data.py 817-822: one pass of the loop.  The contents the directory has on the way, and the one at the end. -/
def fetchFile (r : Remote B) (files : Dict String String) (lev name : String) (d : Dict String B) :
    List (Dict String B) × Py (Dict String B) :=
  if d.has name then ([], .ok d)
  else
    match files.get? ("Lev" ++ lev ++ ":" ++ name) with
    | none => ([], .error .keyError)
    | some url => ((r.fetch url).1.map fun b => d.set name b, (r.fetch url).2.map fun b => d.set name b)

/-- load_data.py 817-822: the loop over the files. -/
def fetchAll (r : Remote B) (files : Dict String String) (lev : String) :
    List String → Dict String B → List (Dict String B) × Py (Dict String B)
  | [], d => ([], .ok d)
  | name :: names, d =>
    match fetchFile r files lev name d with
    | (states, .error e) => (states, .error e)
    | (states, .ok d') => (states ++ d' :: (fetchAll r files lev names d').1, (fetchAll r files lev names d').2)

/-- load_data.py 797 `os.makedirs(target_dir, exist_ok=True)`. -/
def makeDir (disk : Disk B) (dir : List String) : Disk B := if disk.has dir then disk else disk.set dir []

/-- load_data.py 746-824 `download_sxs_waveform`: the states the disk goes through, the first being the one before the call and the
last the one after it, and the outcome.  A process that is killed leaves one of these states. -/
def download (r : Remote B) (dataDir id lev order : String) (disk : Disk B) : List (Disk B) × Py (List String) :=
  let dir := targetDir dataDir id lev
  let disk1 := makeDir disk dir
  match r.catalogue.get? id with
  | none => ([disk, disk1], .error .valueError)
  | some files =>
    let run := fetchAll r files lev (fileNames order) ((disk1.get? dir).getD [])
    (disk :: disk1 :: run.1.map fun d => disk1.set dir d, run.2.map fun _ => dir)

/-! ## Loading -/

/-- What `sxs.load` gives for a pair of strain files: times, the first and last `ell`, and one column of data per mode. -/
structure Strain (K C : Type) where
  t : List K
  ellMin : ℤ
  ellMax : ℤ
  columns : List (List C)
  deriving DecidableEq

/-- `sf.LM_index`. -/
def lmIndex (ellMin : ℤ) (k : LM) : ℤ := k.1 * (k.1 + 1) - ellMin ^ 2 + k.2

/-- `waveform.index(ell, m)`; not negative for a mode of the waveform. -/
def Strain.index (w : Strain K C) (k : LM) : Py ℕ :=
  if k.1 < w.ellMin ∨ w.ellMax < k.1 ∨ k.1 < |k.2| then .error .valueError else .ok (lmIndex w.ellMin k).toNat

/-- What the metadata say: two masses, two spins and the relaxation time. -/
abbrev Meta (K : Type) := K × K × List K × List K × K

/-- What the libraries make of the contents of files. -/
structure SxsLib (B K C : Type) extends LoadLib K C where
  /-- `sxs.load` of the h5 file and the json file -/
  strain : B → B → Py (Strain K C)
  /-- `sxs.waveforms.memory.J_E` from a starting time on -/
  memory : Strain K C → K → Py (Strain K C)
  /-- the difference of two values -/
  sub : C → C → C
  /-- real and imaginary parts interpolated from the first times to the second -/
  interp : List K → List C → List K → Py (List C)
  /-- old format: times and values of a mode at an extrapolation order -/
  oldMode : B → String → LM → Py (List K × List C)
  /-- `Horizons.h5`: times and unwrapped orbital phase (1534-1545) -/
  horizons : B → Py (List K × List K)
  /-- the lines of a text file -/
  lines : B → Py (List (List Char))
  /-- `float` -/
  float : List Char → Py K
  /-- `json.load`, and the five entries read from it (1303-1312) -/
  json : B → Py (Meta K)

/-- `open(os.path.join(data_dir, name))`. -/
def open? (d : Dict String B) (name : String) : Py B :=
  match d.get? name with
  | some b => .ok b
  | none => .error .exception

/-- `line.split("=")[-1]` -/
def afterEq (line : List Char) : List Char := (line.splitOn '=').getLastD []

/-- The values found in the text metadata; `none` is an unbound variable. -/
structure TxtVars (K : Type) where
  m1 : Option K
  m2 : Option K
  chi1 : Option (List K)
  chi2 : Option (List K)
  tRelax : Option K

/-- load_data.py 1292-1302: one line of the text metadata. -/
def txtLine (float : List Char → Py K) (v : TxtVars K) (line : List Char) : Py (TxtVars K) := do
  let has := fun (s : String) => (findIdx s.toList line).isSome
  let v ← (if has "reference-dimensionless-spin1" then do
    let x ← ((afterEq line).splitOn ',').mapM fun s => float (Post.strip s)
    pure { v with chi1 := some x } else pure v : Py (TxtVars K))
  let v ← (if has "reference-dimensionless-spin2" then do
    let x ← ((afterEq line).splitOn ',').mapM fun s => float (Post.strip s)
    pure { v with chi2 := some x } else pure v : Py (TxtVars K))
  let v ← (if has "reference-mass1" then do
    let x ← float (Post.strip (afterEq line))
    pure { v with m1 := some x } else pure v : Py (TxtVars K))
  let v ← (if has "reference-mass2" then do
    let x ← float (Post.strip (afterEq line))
    pure { v with m2 := some x } else pure v : Py (TxtVars K))
  if has "relaxation-time" then do
    let x ← float (Post.strip (afterEq line))
    pure { v with tRelax := some x } else pure v

/-- load_data.py 1288-1302, and the use of the variables from 1317 on. -/
def metaTxt (lib : SxsLib B K C) (b : B) : Py (Meta K) := do
  let v ← (← lib.lines b).foldlM (txtLine lib.float) ⟨none, none, none, none, none⟩
  match v.m1, v.m2, v.chi1, v.chi2, v.tRelax with
  | some m1, some m2, some chi1, some chi2, some tRelax => pure (m1, m2, chi1, chi2, tRelax)
  | _, _, _, _, _ => .error .nameError

/-- Options of the SXS loaders after the defaults were set. -/
structure SxsFileKw (K : Type) extends SxsKw K where
  /-- documented, but never read -/
  metadataPath : Option String
  deltaT : K
  modeArray : List LM
  extrapOrder : String

section
variable [Field K] [LinearOrder K]

/-- load_data.py 1281-1333 `get_params_dict_from_sxs_metadata`, for a directory whose own path contains neither of the two names. -/
def paramsFrom (lib : SxsLib B K C) (d : Dict String B) (name : String) : Py (K × List K × List K × K) := do
  let b ← open? d name
  let (m1, m2, chi1, chi2, tRelax) ← (if name = "metadata.txt" then metaTxt lib b else lib.json b)
  paramsFromMetadata m1 m2 chi1 chi2 tRelax

/-- `a - b` for two tables with the same rows; numpy raises for different numbers of columns (a single column is not
considered). -/
def subColumns (sub : C → C → C) (a b : List (List C)) : Py (List (List C)) :=
  if a.length = b.length then .ok (List.zipWith (List.zipWith sub) a b) else .error .valueError

/-- load_data.py 1232-1257: the modes read, without the memory contribution if this is asked for. -/
def readModes (lib : SxsLib B K C) (d : Dict String B) (kw : SxsFileKw K) : Py (Strain K C) := do
  let h5 ← open? d ("Strain_N" ++ kw.extrapOrder ++ ".h5")
  let json ← open? d ("Strain_N" ++ kw.extrapOrder ++ ".json")
  let w ← lib.strain h5 json
  if kw.keepMemory then pure w
  else do
    let p ← paramsFrom lib d "metadata.json"
    let mem ← lib.memory w p.2.2.2
    let cols ← subColumns lib.sub w.columns (pySliceFrom mem.columns (lmIndex mem.ellMin (2, -2)))
    pure { w with columns := cols }

/-- `np.arange(time[0], time[-1], deltaT)` -/
def grid [FloorRing K] (time : List K) (deltaT : K) : Py (List K) := do
  let a ← pyGet time 0
  let b ← (match time.getLast? with
    | some b => .ok b
    | none => .error .indexError : Py K)
  arange a b deltaT

/-- load_data.py 1225-1278 `get_modes_dict_from_sxs_catalog_format`. -/
def newModes [FloorRing K] (lib : SxsLib B K C) (d : Dict String B) (kw : SxsFileKw K) : Py (List K × Dict LM (List C)) := do
  let w ← readModes lib d kw
  let t ← grid w.t kw.deltaT
  let modes ← kw.modeArray.foldlM (fun (acc : Dict LM (List C)) k => do
    let i ← w.index k
    let h ← pyGet w.columns i
    let x ← lib.interp w.t h t
    pure (acc.set k x)) []
  pure (t, modes)

/-- load_data.py 1195-1224 `get_modes_dict_from_sxs_catalog_old_format`: the times of the first mode are used for all. -/
def oldModes [FloorRing K] (lib : SxsLib B K C) (d : Dict String B) (kw : SxsFileKw K) : Py (List K × Dict LM (List C)) := do
  let b ← open? d "rhOverM_Asymptotic_GeometricUnits_CoM.h5"
  match kw.modeArray with
  | [] => .error .nameError
  | first :: _ => do
    let (time, _) ← lib.oldMode b kw.extrapOrder first
    let t ← grid time kw.deltaT
    let modes ← kw.modeArray.foldlM (fun (acc : Dict LM (List C)) k => do
      let (_, h) ← lib.oldMode b kw.extrapOrder k
      let x ← lib.interp time h t
      pure (acc.set k x)) []
    pure (t, modes)

/-- load_data.py 827-983 `load_sxs_catalogformat` (`newFormat`) and 986-1035 `load_sxs_catalogformat_old`, after the defaults were
set; `dir` is the directory given, if any, and what it holds, if it exists. -/
def loadSxs [FloorRing K] [SMul K C] (fuel : ℕ) (lib : SxsLib B K C) (newFormat : Bool) (dir : Option (Option (Dict String B)))
    (kw : SxsFileKw K) : Option (Py (Wave K C × Option (K × List K × List K × K))) :=
  let needMetadata := kw.includeZeroEcc || kw.includeParams || !kw.keepMemory
  match checkSxsDir newFormat kw.extrapOrder needMetadata (dir.map fun d => d.map Dict.keys), dir with
  | .error e, _ => some (.error e)
  | .ok horizons, some (some d) =>
    match (if newFormat then newModes lib d kw else oldModes lib d kw) with
    | .error e => some (.error e)
    | .ok (t, modes) =>
      let duration : Option (Py K) :=
        if horizons then some (do
          let b ← open? d "Horizons.h5"
          let (time, phase) ← lib.horizons b
          horizonDuration lib.pi time phase kw.numOrbits)
        else none
      let metadata : Py (Meta K) :=
        if d.has "metadata.txt" then (do metaTxt lib (← open? d "metadata.txt"))
        else (do lib.json (← open? d "metadata.json"))
      makeSxs fuel lib.toLoadLib t modes duration metadata kw.toSxsKw
  | .ok _, _ => some (.error .exception)

end

end GwEcc.Sxs
