import Verif.Model.DataDict
import Verif.Loop
import Mathlib.Algebra.Order.Floor.Ring
import Mathlib.Algebra.Module.Defs

/-!
# Model of `gw_eccentricity/load_data.py`

Files, `lalsimulation`, `scri`, `sxs` and the interpolation splines are parameters.  Warnings are not modelled.
-/

namespace GwEcc.Load

variable {K C : Type}

/-! ## Origins and options -/

/-- The loading functions: load_data.py 212 `load_LAL_waveform`, 827 `load_sxs_catalogformat`, 986
`load_sxs_catalogformat_old`, 561 `load_lvcnr_waveform`, 1771 `load_lvcnr_hack`, 1735 `load_EOB_waveform`, 1891
`load_EMRI_waveform`. -/
inductive Loader
  | lal
  | sxs
  | sxsOld
  | lvcnr
  | lvcnrHack
  | eob
  | emri
  deriving DecidableEq

/-- load_data.py 30-37: the origins and their loading functions, in order. -/
def originDict : Dict String Loader :=
  [("LAL", .lal), ("SXSCatalog", .sxs), ("SXSCatalog_old", .sxsOld), ("LVCNR", .lvcnr), ("LVCNR_hack", .lvcnrHack), ("EOB", .eob),
    ("EMRI", .emri)]

/-- load_data.py 39 `get_available_waveform_origins()`. -/
def origins : List String := originDict.keys

/-- load_data.py 142-163 `make_a_sub_dict`. -/
def makeSubDict {V : Type} (super : Dict String V) : List String → Py (Dict String V)
  | [] => .ok []
  | kw :: rest => do
    let v ← (match super.get? kw with
      | some v => .ok v
      | none => .error .exception : Py V)
    let r ← makeSubDict super rest
    pure ((kw, v) :: r)

/-- Option values; only what the defaults contain. -/
inductive Val
  | none
  | bool (b : Bool)
  | num (q : ℚ)
  | str (s : String)
  | modes (l : List LM)
  deriving DecidableEq

/-- load_data.py 547-558 `get_defaults_for_nr`. -/
def nrDefaults : Dict String Val :=
  [("filepath", .none), ("data_dir", .none), ("deltaTOverM", .num (1 / 10)), ("Momega0", .num 0), ("include_zero_ecc", .bool false),
   ("include_params_dict", .bool false), ("zero_ecc_approximant", .str "IMRPhenomT"), ("metadata_path", .none),
   ("num_orbits_to_remove_as_junk", .num 2), ("mode_array", .modes [(2, 2)]), ("extrap_order", .num 2), ("keep_memory", .bool false)]

/-- load_data.py 52-139 `get_load_waveform_defaults`. -/
def defaults (origin : String) : Py (Dict String Val) :=
  if origin = "LAL" then
    .ok [("approximant", .none), ("q", .none), ("chi1", .none), ("chi2", .none), ("ecc", .none), ("mean_ano", .none),
      ("Momega0", .none), ("deltaTOverM", .num (1 / 10)), ("physicalUnits", .bool false), ("M", .none), ("D", .none),
      ("include_zero_ecc", .bool false)]
  else if origin = "SXSCatalog" ∨ origin = "SXSCatalog_old" then
    let kws := ["data_dir", "metadata_path", "deltaTOverM", "include_zero_ecc", "include_params_dict", "zero_ecc_approximant",
      "num_orbits_to_remove_as_junk", "mode_array", "extrap_order"]
    makeSubDict nrDefaults (if origin = "SXSCatalog" then kws ++ ["keep_memory"] else kws)
  else if origin = "LVCNR" then
    makeSubDict nrDefaults ["filepath", "deltaTOverM", "Momega0", "include_zero_ecc", "include_params_dict",
      "zero_ecc_approximant", "num_orbits_to_remove_as_junk"]
  else if origin = "LVCNR_hack" then
    makeSubDict nrDefaults ["filepath", "deltaTOverM", "include_zero_ecc", "include_params_dict", "zero_ecc_approximant",
      "num_orbits_to_remove_as_junk"]
  else if origin = "EOB" then
    .ok [("filepath", .none), ("include_zero_ecc", .bool false), ("filepath_zero_ecc", .none)]
  else if origin = "EMRI" then
    .ok [("filepath", .none), ("include_zero_ecc", .bool false), ("filepath_zero_ecc", .none), ("start_time", .none),
      ("end_time", .none), ("deltaT", .none), ("include_geodesic_ecc", .bool false)]
  else .error .exception

/-- The defaults that each loading function compares its options with: load_data.py 250, 967, 1019, 636, 1826, 1757, 1926. -/
def Loader.defaultsOf : Loader → String
  | .lal => "LAL"
  | .sxs => "SXSCatalog"
  | .sxsOld => "SXSCatalog_old"
  | .lvcnr => "LVCNR"
  | .lvcnrHack => "LVCNR_hack"
  | .eob => "EOB"
  | .emri => "EMRI"

/-- The beginning of every loading function (load_data.py 250-253, 965-969, 1017-1021, 634-639, 1824-1828, 1755-1759, 1924-1928):
options are checked and completed; `body` is the rest. -/
def callLoader {α : Type} (body : Loader → Dict String Val → Py α) (l : Loader) (kwargs : Dict String Val) : Py α := do
  let d ← defaults l.defaultsOf
  let full ← checkKwargs (some kwargs) d
  body l full

/-- load_data.py 166-209 `load_waveform`: dispatch on the origin. -/
def loadWaveform {α : Type} (body : Loader → Dict String Val → Py α) (origin : String) (kwargs : Dict String Val) : Py α :=
  match originDict.get? origin with
  | some l => callLoader body l kwargs
  | none => .error .exception

/-! ## Waveforms from LALSimulation -/

section lal
variable [Field K] [LinearOrder K]

/-- Arguments of `lalsim.SimInspiralChooseTDWaveform` (424-428). -/
structure LalArgs (K : Type) where
  m1 : K
  m2 : K
  chi1 : List K
  chi2 : List K
  distance : K
  inclination : K
  phiRef : K
  longAscNodes : K
  eccentricity : K
  meanPerAno : K
  deltaT : K
  fLow : K
  fRef : K
  approximant : String
  deriving DecidableEq

/-- Constants and libraries. -/
structure LoadLib (K C : Type) where
  pi : K
  /-- `lal.MSUN_SI`, `lal.MTSUN_SI`, `lal.PC_SI`, `lal.C_SI`, `lal.G_SI` -/
  msun : K
  mtsun : K
  pc : K
  c : K
  G : K
  /-- `hp - 1j * hc` from `SimInspiralChooseTDWaveform` -/
  choose : LalArgs K → Py (List C)
  /-- division by the spherical harmonic (2, 2) at inclination and phase 0 -/
  divYlm : C → C
  /-- `amplitude_using_all_modes(·)` -/
  amplitude : Dict LM (List C) → Py (List K)
  /-- `-np.unwrap(np.angle(·))` -/
  phase : List C → List K
  /-- `SimIMRSEOBNRv4ROMFrequencyOfTime`: inspiral time, masses, spins -/
  freqOfTime : K → K → K → K → K → Py K

/-- Time array and modes; the quasicircular ones if asked for. -/
structure Wave (K C : Type) where
  t : List K
  hlm : Dict LM (List C)
  zeroecc : Option (List K × Dict LM (List C))
  deriving DecidableEq

/-- Options of `load_LAL_waveform` after the defaults were set. -/
structure LalKw (K : Type) where
  approximant : Option String
  q : Option K
  chi1 : Option (List K)
  chi2 : Option (List K)
  ecc : Option K
  meanAno : Option K
  momega0 : Option K
  deltaTOverM : K
  physicalUnits : Bool
  M : Option K
  D : Option K
  includeZeroEcc : Bool

/-- load_data.py 442-454 `time_dimless_to_mks`. -/
def timeToMks (lib : LoadLib K C) (M : K) : K := M * lib.mtsun

/-- load_data.py 457-471 `amplitude_dimless_to_mks`. -/
def ampToMks (lib : LoadLib K C) (M D : K) : K := lib.G * M * lib.msun / (lib.c ^ 2 * D * 10 ^ 6 * lib.pc)

/-- `np.sum(np.sqrt(chi[:2]**2))`. -/
def inPlane (chi : List K) : K := ((chi.take 2).map fun x => |x|).sum

/-- load_data.py 376-387: spins of an aligned-spin approximant; small in-plane components are set to 0. -/
def alignSpin (chi : List K) : List K := if inPlane chi ≠ 0 then (chi.take 2).map (fun _ => 0) ++ chi.drop 2 else chi

/-- load_data.py 376-397: the checks of the spins, in order.  `np.sqrt(x) > 1` is `x > 1`. -/
def checkSpins (chi1 chi2 : List K) : Py (List K × List K) :=
  if inPlane chi1 > 1 / 10 ^ 5 ∨ inPlane chi2 > 1 / 10 ^ 5 then .error .exception
  else
    let chi1 := alignSpin chi1
    let chi2 := alignSpin chi2
    if (chi1.map (· ^ 2)).sum > 1 then .error .exception
    else if (chi2.map (· ^ 2)).sum > 1 then .error .exception
    else if chi1.length ≠ 3 then .error .exception
    else if chi2.length ≠ 3 then .error .exception
    else .ok (chi1, chi2)

/-- load_data.py 323-439 `generate_LAL_waveform`, as called from 307: aligned spins, no tides, `longAscNodes` 0. -/
def generateLAL [SMul K C] (lib : LoadLib K C) (approximant : String) (q : K) (chi1 chi2 : List K) (deltaTOverM momega0 : K)
    (inclination phiRef eccentricity : K) (meanPerAno : K) (physicalUnits : Bool) (M D : Option K) : Py (List K × List C) := do
  let (chi1, chi2) ← checkSpins chi1 chi2
  let (M, distance) ← (if physicalUnits then
    match M, D with
    | none, _ => .error .exception
    | some _, none => .error .exception
    | some M, some D => .ok (M, D * 10 ^ 6 * lib.pc)
    else .ok (10, 10 ^ 6 * lib.pc) : Py (K × K))
  let MT := M * lib.mtsun
  if lib.pi = 0 ∨ MT = 0 ∨ 1 + q = 0 then .error .zeroDivisionError
  else do
    let fLow := momega0 / lib.pi / MT
    let h ← lib.choose
      { m1 := M * lib.msun * q / (1 + q), m2 := M * lib.msun / (1 + q), chi1 := chi1, chi2 := chi2, distance := distance,
        inclination := inclination, phiRef := phiRef, longAscNodes := 0, eccentricity := eccentricity, meanPerAno := meanPerAno,
        deltaT := deltaTOverM * MT, fLow := fLow, fRef := fLow, approximant := approximant }
    let ks := (List.range h.length).map fun (k : ℕ) => (k : K)
    if physicalUnits then pure (ks.map (deltaTOverM * MT * ·), h)
    else pure (ks.map (deltaTOverM * ·), h.map ((distance / MT / lib.c) • ·))

/-- load_data.py 296-320 `load_LAL_waveform_using_hack`.  The argument `mean_ano` is not used. -/
def loadHack [SMul K C] (lib : LoadLib K C) (approximant : String) (q : K) (chi1 chi2 : List K) (ecc _meanAno momega0 deltaTOverM : K)
    (physicalUnits : Bool) (M D : Option K) : Py (List K × Dict LM (List C)) := do
  let (t, h) ← generateLAL lib approximant q chi1 chi2 deltaTOverM momega0 0 0 ecc 0 physicalUnits M D
  let modes : Dict LM (List C) := [((2, 2), h.map lib.divYlm)]
  let amp ← lib.amplitude modes
  let peak ← peakTime t amp
  pure (t.map (· - peak.1), modes)

/-- load_data.py 248-270: the waveform asked for; `None` for a required option raises. -/
def loadBase [SMul K C] (lib : LoadLib K C) (kw : LalKw K) : Py (List K × Dict LM (List C)) :=
  match kw.approximant, kw.q, kw.chi1, kw.chi2, kw.ecc, kw.meanAno, kw.momega0 with
  | some approximant, some q, some chi1, some chi2, some ecc, some meanAno, some momega0 =>
    loadHack lib approximant q chi1 chi2 ecc meanAno momega0 kw.deltaTOverM kw.physicalUnits kw.M kw.D
  | _, _, _, _, _, _, _ => .error .exception

/-- load_data.py 286-288: one pass of the loop that lengthens the quasicircular waveform; the state is the starting frequency and
the waveform. -/
def lengthenStep (gen : K → Py (List K × Dict LM (List C))) (factor start : K) (s : K × List K × Dict LM (List C)) :
    (K × List K × Dict LM (List C)) ⊕ Py (List K × Dict LM (List C)) :=
  match pyGet s.2.1 0 with
  | .error e => .inr (.error e)
  | .ok z0 =>
    if start < z0 then
      match gen (s.1 * factor) with
      | .error e => .inr (.error e)
      | .ok w => .inl (s.1 * factor, w)
    else .inr (.ok s.2)

/-- load_data.py 212-293 `load_LAL_waveform`.  `fuel` bounds the number of passes of the loop. -/
def loadLAL [SMul K C] (fuel : ℕ) (lib : LoadLib K C) (kw : LalKw K) : Option (Py (Wave K C)) :=
  match loadBase lib kw with
  | .error e => some (.error e)
  | .ok (t, hlm) =>
    if kw.includeZeroEcc then
      let ecc : K := if kw.approximant = some "EccentricTD" then 1 / 10 ^ 5 else 0
      let gen := fun (momega0 : K) => loadBase lib { kw with ecc := some ecc, includeZeroEcc := false, momega0 := some momega0 }
      match kw.momega0 with
      | none => some (.error .exception)
      | some m0 =>
        match gen m0, pyGet t 0 with
        | .error e, _ => some (.error e)
        | .ok _, .error e => some (.error e)
        | .ok w, .ok start => (runLoop (lengthenStep gen (9 / 10) start) fuel (m0, w)).map fun r => do
            let z ← r
            pure ⟨t, hlm, some z⟩
    else some (.ok ⟨t, hlm, none⟩)

/-! ## Numerical relativity -/

/-- load_data.py 1311-1333: parameters from the masses, spins and relaxation time of SXS metadata. -/
def paramsFromMetadata (m1 m2 : K) (chi1 chi2 : List K) (tRelax : K) : Py (K × List K × List K × K) :=
  if m2 = 0 then .error .zeroDivisionError
  else
    let q := m1 / m2
    let dq := 1 - q
    if 0 < dq then
      if dq < 5 / 10 ^ 4 then .ok (1, chi1, chi2, tRelax) else .error .exception
    else .ok (q, chi1, chi2, tRelax)

/-- load_data.py 1450-1452 and 1505-1508: the arrays from sample `idx` on. -/
def cutModes (idx : ℕ) (t : List K) (modes : Dict LM (List C)) : List K × Dict LM (List C) :=
  (t.drop idx, modes.map fun p => (p.1, p.2.drop idx))

/-- load_data.py 1421-1454 `reomve_junk_from_nr_data`. -/
def removeJunk (lib : LoadLib K C) (t : List K) (modes : Dict LM (List C)) (numOrbits : K) : Py (List K × Dict LM (List C)) := do
  let h22 ← modes.getItem (2, 2)
  let phase := lib.phase h22
  let p0 ← pyGet phase 0
  let idx ← argmin (phase.map fun p => |p - (p0 + numOrbits * 4 * lib.pi)|)
  pure (cutModes idx t modes)

/-- load_data.py 1513-1551 `get_num_orbits_duration_from_horizon_data`, from the times and the unwrapped orbital phase. -/
def horizonDuration (pi : K) (time phase : List K) (numOrbits : K) : Py K := do
  let p0 ← pyGet phase 0
  let idx ← argmin (phase.map fun p => |p - (p0 + numOrbits * 2 * pi)|)
  let a ← pyGet time idx
  let b ← pyGet time 0
  pure (a - b)

/-- load_data.py 1457-1510 `remove_junk_from_sxs_catalogformat_using_horizons_data`, after the duration was found. -/
def removeJunkHorizons (t : List K) (modes : Dict LM (List C)) (duration : K) : Py (List K × Dict LM (List C)) := do
  let idx ← argmin (t.map fun x => |x - duration|)
  pure (cutModes idx t modes)

/-- Parameters handed to the generator of the quasicircular partner. -/
structure NrParams (K : Type) where
  approximant : String
  q : K
  chi1 : List K
  chi2 : List K
  meanAno : Option K

/-- load_data.py 1336-1418 `get_zeroecc_dataDict_for_nr`. -/
def zeroeccForNr [SMul K C] (fuel : ℕ) (lib : LoadLib K C) (t : List K) (hlm : Dict LM (List C)) (p : NrParams K) :
    Option (Py (List K × Dict LM (List C))) :=
  let prepare : Py (K × K) := do
    let amp ← lib.amplitude hlm
    let merger ← peakTime t amp
    let start ← pyGet t 0
    let time := (merger.1 - start) * timeToMks lib 10
    if 1 + p.q = 0 then .error .zeroDivisionError
    else do
      let s1 ← pyGet p.chi1 2
      let s2 ← pyGet p.chi2 2
      let f0 ← lib.freqOfTime time (p.q * 10 / (1 + p.q) * lib.msun) (10 / (1 + p.q) * lib.msun) s1 s2
      pure (start, f0 * timeToMks lib 10 * lib.pi)
  match prepare with
  | .error e => some (.error e)
  | .ok (start, m0) =>
    let gen := fun (momega0 : K) => loadBase lib
      { approximant := some p.approximant, q := some p.q, chi1 := some p.chi1, chi2 := some p.chi2, ecc := some 0,
        meanAno := p.meanAno, momega0 := some momega0, deltaTOverM := 1 / 10, physicalUnits := false, M := none, D := none,
        includeZeroEcc := false }
    match gen m0 with
    | .error e => some (.error e)
    | .ok w => (runLoop (lengthenStep gen (1 / 2) start) fuel (m0, w)).map fun r => do
      let (tz, hz) ← r
      let idx ← argmin (tz.map fun x => |x - start|)
      let from_ : ℤ := (idx : ℤ) - 10
      pure (pySliceFrom tz from_, hz.map fun q => (q.1, pySliceFrom q.2 from_))

/-- Options of the SXS loaders that matter after the modes were read. -/
structure SxsKw (K : Type) where
  numOrbits : K
  includeZeroEcc : Bool
  includeParams : Bool
  /-- `kwargs.get("keep_memory", True)` -/
  keepMemory : Bool
  approximant : String

/-- load_data.py 1139-1192 `make_return_dict_for_sxs_catalog_format`; `duration` is given if the horizon file exists, `metadata` are
the two masses, the spins and the relaxation time. -/
def makeSxs [SMul K C] (fuel : ℕ) (lib : LoadLib K C) (t : List K) (modes : Dict LM (List C)) (duration : Option (Py K))
    (metadata : Py (K × K × List K × List K × K)) (kw : SxsKw K) : Option (Py (Wave K C × Option (K × List K × List K × K))) :=
  let prepare : Py ((List K × Dict LM (List C)) × Option (K × List K × List K × K)) := do
    let (t, modes) ← (match duration with
      | some d => do
        let d ← d
        removeJunkHorizons t modes d
      | none => removeJunk lib t modes kw.numOrbits)
    let amp ← lib.amplitude modes
    let peak ← peakTime t amp
    if kw.includeZeroEcc || kw.includeParams || !kw.keepMemory then do
      let (m1, m2, chi1, chi2, tRelax) ← metadata
      let p ← paramsFromMetadata m1 m2 chi1 chi2 tRelax
      pure ((t.map (· - peak.1), modes), some p)
    else pure ((t.map (· - peak.1), modes), none)
  match prepare with
  | .error e => some (.error e)
  | .ok ((t, modes), params) =>
    let out := if kw.includeParams then params else none
    if kw.includeZeroEcc then
      match params with
      | none => some (.error .nameError)
      | some (q, chi1, chi2, _) =>
        (zeroeccForNr fuel lib t modes ⟨kw.approximant, q, chi1, chi2, some 0⟩).map fun r => do
          let z ← r
          pure (⟨t, modes, some z⟩, out)
    else some (.ok (⟨t, modes, none⟩, out))

/-- load_data.py 1065-1136 `check_sxs_data_dir`: whether the horizon file exists; `dir` is the directory if one was given, `present`
the files in it. -/
def checkSxsDir (newFormat : Bool) (extrapOrder : String) (needMetadata : Bool) (dir : Option (Option (List String))) : Py Bool :=
  match dir with
  | none => .error .exception
  | some none => .error .exception
  | some (some present) =>
    let files := if newFormat then ["Strain_N" ++ extrapOrder ++ ".h5", "Strain_N" ++ extrapOrder ++ ".json"]
      else ["rhOverM_Asymptotic_GeometricUnits_CoM.h5"]
    let files := if needMetadata then files ++ [if newFormat then "metadata.json" else "metadata.txt"] else files
    if files.all (present.contains ·) then .ok (present.contains "Horizons.h5") else .error .exception

/-- `np.arange(a, b, d)`. -/
def arange [FloorRing K] (a b d : K) : Py (List K) :=
  if d = 0 then .error .zeroDivisionError
  else .ok ((List.range ⌈(b - a) / d⌉.toNat).map fun (k : ℕ) => a + k * d)

/-- load_data.py 1208-1224 and 1259-1278: the modes on a uniform grid; `interp` interpolates the real and imaginary parts of one mode
from the first times to the second. -/
def resample [FloorRing K] (interp : List K → List C → List K → Py (List C)) (time : List K) (deltaT : K)
    (modes : Dict LM (List C)) : Py (List K × Dict LM (List C)) := do
  let a ← pyGet time 0
  let b ← (match time.getLast? with
    | some b => .ok b
    | none => .error .indexError : Py K)
  let t ← arange a b deltaT
  let r ← modes.mapM fun p => do
    let h ← interp time p.2 t
    pure (p.1, h)
  pure (t, r)

/-! ## Extreme mass ratios -/

/-- load_data.py 1929-1946: the part of the waveform between the times given, shifted to the peak; `t -= tpeak`. -/
def emriCut (lib : LoadLib K C) (t : List K) (h22 : List C) (startTime endTime : Option K) : Py (List K × List C × ℤ × ℤ) := do
  let amp ← lib.amplitude [((2, 2), h22)]
  let peak ← peakTime t amp
  let t := t.map (· - peak.1)
  let start ← (match startTime with
    | some s => (argmin (t.map fun x => |x - s|)).map fun (i : ℕ) => (i : ℤ)
    | none => .ok 0 : Py ℤ)
  let stop ← (match endTime with
    | some e => (argmin (t.map fun x => |x - e|)).map fun (i : ℕ) => (i : ℤ)
    | none => .ok (-1) : Py ℤ)
  pure (pySlice t start stop, pySlice h22 start stop, start, stop)

end lal

end GwEcc.Load
