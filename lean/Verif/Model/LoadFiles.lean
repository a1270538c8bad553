import Verif.Model.LoadData

/-!
# Model of the loaders of `gw_eccentricity/load_data.py` that read waveform files: LVCNR, EOB and EMRI

Reading a file is a parameter from paths to contents, so are `lalsimulation` and the interpolation splines.  Paths are lists of
characters.  Warnings are not modelled.
-/

namespace GwEcc.Load

variable {K C : Type}

/-- `s.find(pat)`, if found. -/
def findIdx (pat : List Char) : List Char → Option ℕ
  | [] => if pat = [] then some 0 else none
  | c :: s => if pat.isPrefixOf (c :: s) then some 0 else (findIdx pat s).map (· + 1)

/-- `s.find(pat)`. -/
def pyFind (pat s : List Char) : ℤ :=
  match findIdx pat s with
  | some k => k
  | none => -1

/-- What an LVCNR file holds (595-656, 710-730, 1842-1870): masses, starting frequency, spins and, if they are numbers, eccentricity
and mean anomaly; the (2, 2) mode's amplitude and phase, each with its own times. -/
structure LvcnrFile (K : Type) where
  m1 : K
  m2 : K
  fLower : K
  chi1 : List K
  chi2 : List K
  ecc : Option K
  meanAno : Option K
  amp : List K × List K
  phase : List K × List K

/-- Files and functions used by the loaders. -/
structure FileLib (K C : Type) extends LoadLib K C where
  /-- `a + 1j * b` -/
  complex : K → K → C
  /-- `np.abs` -/
  modulus : C → K
  /-- `np.unwrap(np.angle(·))` -/
  angles : List C → List K
  /-- `a * np.exp(1j * p)` -/
  polar : K → K → C
  /-- `np.sqrt(2 * np.pi)` -/
  sqrtTwoPi : K
  /-- `interpolate(newX, oldX, oldY)` -/
  interp : List K → List K → List K → Py (List K)
  /-- the rows of `Dataset1`: time, real and imaginary part -/
  emri : List Char → Py (List (K × K × K))
  /-- column 1 of `Dataset1` of a file of eccentricities -/
  emriEcc : List Char → Py (List K)
  /-- the times and the (2, 2) mode of an EOB file -/
  eob : List Char → Py (List K × List C)
  lvcnr : List Char → Py (LvcnrFile K)
  /-- `SimInspiralNRWaveformGetHlms` (664-678): time step, masses, distance, starting frequency, spins and path to the list of modes -/
  nrModes : K → K → K → K → K → List K → List K → List Char → Py (List (LM × List C))

/-! ## EMRI -/

/-- Options of `load_EMRI_waveform` after the defaults were set. -/
structure EmriKw (K : Type) where
  filepath : Option (List Char)
  includeZeroEcc : Bool
  filepathZeroEcc : Option (List Char)
  startTime : Option K
  endTime : Option K
  deltaT : Option K
  includeGeodesic : Bool

/-- What `load_EMRI_waveform` returns. -/
structure EmriWave (K C : Type) where
  t : List K
  h22 : List C
  zeroecc : Option (List K × List C)
  geodesic : Option (List K)
  deriving DecidableEq

section
variable [Field K] [LinearOrder K] [SMul K C]

/-- load_data.py 1962-1965: the path of the circular waveform if none was given. -/
def partnerPath (path : List Char) : List Char := pySliceTo path (pyFind "e0".toList path) ++ "e0.000.h5".toList

/-- load_data.py 1977: the path of the eccentricities. -/
def eccPath (path : List Char) : List Char := pySliceTo path (-3) ++ "_ecc.h5".toList

/-- load_data.py 1929-1946: the file, cut to the times asked for. -/
def emriRead (lib : FileLib K C) (path : List Char) (startTime endTime : Option K) : Py (List K × List C × ℤ × ℤ) := do
  let rows ← lib.emri path
  emriCut lib.toLoadLib (rows.map fun r => r.1) (rows.map fun r => lib.complex r.2.1 r.2.2) startTime endTime

/-- load_data.py 1949-1953: the times to interpolate to. -/
def emriTimes [FloorRing K] (tNew : List K) (deltaT : K) : Py (List K) := do
  let a ← pyGet tNew 0
  let b ← (match tNew.getLast? with
    | some b => .ok b
    | none => .error .indexError : Py K)
  let t ← arange a b deltaT
  pure (t.filter fun x => decide (a ≤ x ∧ x ≤ b))

/-- load_data.py 1891-1984 `load_EMRI_waveform`.  The circular waveform is loaded by the same function with default options, so it
is `emriRead` without times. -/
def loadEmri [FloorRing K] (lib : FileLib K C) (kw : EmriKw K) : Py (EmriWave K C) :=
  match kw.filepath with
  | none => .error .keyError
  | some path => do
    let (tNew, hNew, start, stop) ← emriRead lib path kw.startTime kw.endTime
    let (t, h) ← (match kw.deltaT with
      | none => .ok (tNew, hNew)
      | some d => do
        let t ← emriTimes tNew d
        let amp ← lib.interp t tNew (hNew.map lib.modulus)
        let phase ← lib.interp t tNew (lib.angles hNew)
        pure (t, List.zipWith lib.polar amp phase) : Py (List K × List C))
    let z ← (if kw.includeZeroEcc then do
        let (tz, hz, _, _) ← emriRead lib (kw.filepathZeroEcc.getD (partnerPath path)) none none
        pure (some (tz, hz.map (lib.sqrtTwoPi⁻¹ • ·)))
      else .ok none : Py (Option (List K × List C)))
    let e ← (if kw.includeGeodesic then do
        let all ← lib.emriEcc (eccPath path)
        let e := pySlice all start stop
        match kw.deltaT with
          | none => pure (some e)
          | some _ => do
            let e ← lib.interp t tNew (e.map fun x => |x|)
            pure (some e)
      else .ok none : Py (Option (List K)))
    pure ⟨t, h, z, e⟩

/-! ## EOB -/

/-- load_data.py 1712-1718: one file. -/
def eobRead (lib : FileLib K C) (path : List Char) : Py (List K × Dict LM (List C)) := do
  let (t, h) ← lib.eob path
  let modes : Dict LM (List C) := [((2, 2), h)]
  let amp ← lib.amplitude modes
  let peak ← peakTime t amp
  pure (t.map (· - peak.1), modes)

/-- load_data.py 1697-1768 `load_EOB_waveform`, `load_EOB_EccTest_file`. -/
def loadEob (lib : FileLib K C) (filepath filepathZeroEcc : Option (List Char)) (includeZeroEcc : Bool) : Py (Wave K C) :=
  match filepath with
  | none => .error .exception
  | some path =>
    if includeZeroEcc = true ∧ filepathZeroEcc = none then .error .exception
    else if pyFind "EccTest".toList path = -1 then .error .exception
    else do
      let (t, hlm) ← eobRead lib path
      if includeZeroEcc then
        match filepathZeroEcc with
          | none => .error .exception
          | some pz => do
            let z ← eobRead lib pz
            pure ⟨t, hlm, some z⟩
      else pure ⟨t, hlm, none⟩

/-- The five arrays read from an EOB file with both waveforms (1681-1689), by their paths in the file: `data/t`,
`data/hCoOrb/Amp_l2m2`, `data/hCoOrb/phi_l2m2` and the last two again under `nonecc_data`. -/
structure H22File (K : Type) where
  t : List K
  amp : List K
  phase : List K
  ampNonecc : List K
  phaseNonecc : List K

/-- What `load_h22_from_EOBfile` returns: four arrays.  Times of the circular waveform, if the file has any, are not read (1686). -/
structure H22Wave (K C : Type) where
  t : List K
  hlm : List C
  tZeroecc : List K
  hlmZeroecc : List C

/-- load_data.py 1679-1694 `load_h22_from_EOBfile`; reading the file is a parameter.  Amplitude and phase of different lengths do
not broadcast (lengths 1 are not modelled). -/
def loadH22 (read : List Char → Py (H22File K)) (polar : K → K → C) (path : List Char) : Py (H22Wave K C) := do
  let f ← read path
  if f.amp.length ≠ f.phase.length ∨ f.ampNonecc.length ≠ f.phaseNonecc.length then .error .valueError
  else pure ⟨f.t, List.zipWith polar f.amp f.phase, f.t, List.zipWith polar f.ampNonecc f.phaseNonecc⟩

/-- The dictionary of 1691-1693 as `measure_eccentricity` sees it: arrays of complex numbers in the places of dictionaries of modes. -/
def H22Wave.dataDict (w : H22Wave K C) : DataV K C :=
  [("t", .arr w.t), ("hlm", .other), ("t_zeroecc", .arr w.tZeroecc), ("hlm_zeroecc", .other)]

/-! ## LVCNR -/

/-- Options of `load_lvcnr_waveform` and `load_lvcnr_hack` after the defaults were set; the latter has no `Momega0`. -/
structure LvcnrKw (K : Type) where
  filepath : List Char
  deltaTOverM : K
  momega0 : K
  includeZeroEcc : Bool
  includeParams : Bool
  approximant : String
  numOrbits : K

/-- 735-740, 1873-1878: the parameters handed back. -/
structure LvcnrParams (K : Type) where
  q : K
  chi1 : List K
  chi2 : List K
  ecc : Option K
  meanAno : Option K
  deriving DecidableEq

/-- load_data.py 680-685: the linked list of modes as a dictionary, in dimensionless units. -/
def lvcnrModes (scale : K) (l : List (LM × List C)) : Dict LM (List C) :=
  l.foldl (fun d p => d.set p.1 (p.2.map (scale⁻¹ • ·))) []

/-- load_data.py 621-735: times and modes relative to the merger, without the junk, and the parameters.  Masses of zero would divide
by zero in numpy (inf or nan); here they raise. -/
def lvcnrRead (lib : FileLib K C) (kw : LvcnrKw K) : Py (List K × Dict LM (List C) × LvcnrParams K) := do
  let MT := timeToMks lib.toLoadLib 10
  let dt := kw.deltaTOverM * MT
  let f ← lib.lvcnr kw.filepath
  let fLow := if kw.momega0 / lib.pi / MT = 0 then f.fLower / 10 else kw.momega0 / lib.pi / MT
  if f.m1 + f.m2 = 0 ∨ f.m2 = 0 then .error .zeroDivisionError
  else do
    let m1 := f.m1 * 10 / (f.m1 + f.m2) * lib.msun
    let m2 := f.m2 * 10 / (f.m1 + f.m2) * lib.msun
    let l ← lib.nrModes dt m1 m2 (10 ^ 6 * lib.pc) fLow f.chi1 f.chi2 kw.filepath
    let modes := lvcnrModes (ampToMks lib.toLoadLib 10 1) l
    let h22 ← modes.getItem (2, 2)
    let t := (List.range h22.length).map fun (k : ℕ) => k * dt / MT
    let amp ← lib.amplitude modes
    let peak ← peakTime t amp
    let (t, modes) ← removeJunk lib.toLoadLib (t.map (· - peak.1)) modes kw.numOrbits
    pure (t, modes, ⟨m1 / m2, f.chi1, f.chi2, f.ecc, f.meanAno⟩)

/-- load_data.py 1837-1878 `load_lvcnr_hack` up to the parameters; a mass of zero as in `lvcnrRead`. -/
def lvcnrHackRead [FloorRing K] (lib : FileLib K C) (kw : LvcnrKw K) : Py (List K × Dict LM (List C) × LvcnrParams K) := do
  let f ← lib.lvcnr kw.filepath
  let a0 ← pyGet f.amp.1 0
  let p0 ← pyGet f.phase.1 0
  let a1 ← (match f.amp.1.getLast? with
    | some b => .ok b
    | none => .error .indexError : Py K)
  let p1 ← (match f.phase.1.getLast? with
    | some b => .ok b
    | none => .error .indexError : Py K)
  let t ← arange (max a0 p0) (min a1 p1) kw.deltaTOverM
  let amp ← lib.interp t f.amp.1 f.amp.2
  let phase ← lib.interp t f.phase.1 f.phase.2
  let (t, modes) ← removeJunk lib.toLoadLib t [((2, 2), List.zipWith lib.polar amp phase)] kw.numOrbits
  if f.m2 = 0 then .error .zeroDivisionError
  else pure (t, modes, ⟨f.m1 / f.m2, f.chi1, f.chi2, f.ecc, f.meanAno⟩)

/-- load_data.py 732-743 and 1869-1888: the end of both LVCNR loaders; `anomaly` is the mean anomaly handed on. -/
def lvcnrFinish (fuel : ℕ) (lib : FileLib K C) (kw : LvcnrKw K) (anomaly : Option K → Option K) (r : Py (List K × Dict LM (List C) × LvcnrParams K)) :
    Option (Py (Wave K C × Option (LvcnrParams K))) :=
  match r with
  | .error e => some (.error e)
  | .ok (t, modes, p) =>
    let out := if kw.includeParams then some p else none
    if kw.includeZeroEcc then
      (zeroeccForNr fuel lib.toLoadLib t modes ⟨kw.approximant, p.q, p.chi1, p.chi2, anomaly p.meanAno⟩).map fun r => do
        let z ← r
        pure (⟨t, modes, some z⟩, out)
    else some (.ok (⟨t, modes, none⟩, out))

/-- load_data.py 561-743 `load_lvcnr_waveform`. -/
def loadLvcnr (fuel : ℕ) (lib : FileLib K C) (kw : LvcnrKw K) : Option (Py (Wave K C × Option (LvcnrParams K))) :=
  lvcnrFinish fuel lib kw id (lvcnrRead lib kw)

/-- load_data.py 1771-1888 `load_lvcnr_hack`.  The mean anomaly is handed on as it is in the file, number or text; it is not looked at
(`C62_ignored_violation`), so 0 stands for a text. -/
def loadLvcnrHack [FloorRing K] (fuel : ℕ) (lib : FileLib K C) (kw : LvcnrKw K) : Option (Py (Wave K C × Option (LvcnrParams K))) :=
  lvcnrFinish fuel lib kw (fun m => some (m.getD 0)) (lvcnrHackRead lib kw)

end

end GwEcc.Load
