import Verif.Model.Measure
import Verif.Model.Modes

/-!
# Model of the preparation of the waveform data

Python source: `gw_eccentricity/eccDefinition.py` 613-1174 (`process_data_dict` and what it calls) and
`gw_eccentricity/load_data.py` 1618-1676.

In this file the caller's dictionary is a value; `Model/Heap.lean` has the same functions working on objects in memory,
where sharing and in-place updates matter, and `Lemmas/Heap.lean` proves that both compute the same data.
-/

namespace GwEcc

/-- What an entry of `dataDict` may be: an array of times, a dictionary of real modes (amplitude, phase, frequency), a
dictionary of complex modes, or anything else (ignored by the code). -/
inductive Entry (K C : Type)
  | arr (l : List K)
  | modesR (d : Dict LM (List K))
  | modesC (d : Dict LM (List C))
  | other

/-- Contents of a `dataDict`. -/
abbrev DataV (K C : Type) := Dict String (Entry K C)

/-- Numerical routines on modes and the rotation library. -/
structure WaveLib (K C : Type) where
  /-- `np.pi` -/
  pi : K
  /-- the complex number 0 -/
  zero : C
  /-- `np.abs` -/
  abs : List C → List K
  /-- `-np.unwrap(np.angle(·))` -/
  phase : List C → List K
  /-- `amp * np.exp(-1j * phase)`; raises for arrays of different lengths -/
  polar : List K → List K → Py (List C)
  /-- `scri`: modes in the coprecessing frame from times and packed modes in the inertial frame -/
  rotate : List K → List (List C) → Py (List (List C))
  /-- `amplitude_using_all_modes(·, "amplm")` (sample by sample it is `ampAllAmplm`); raises for arrays of different
  lengths -/
  totalAmp : List (List K) → Py (List K)

/-- The `precessing` argument.  Besides the two Booleans Python accepts anything; what matters is its truth value and
whether it is the object `True`. -/
inductive Flag
  | isTrue | isFalse
  /-- true in a condition but not the object `True`: `1`, `np.True_`, … -/
  | truthy
  /-- false in a condition but not the object `False` -/
  | falsy
  deriving DecidableEq

/-- `bool(flag)` -/
def Flag.truth : Flag → Bool
  | .isTrue | .truthy => true
  | .isFalse | .falsy => false

section data

variable {K C : Type} [Field K] [LinearOrder K]

/-- `dataDict[key]` used as an array. -/
def getArr (v : DataV K C) (key : String) : Py (List K) := do
  match ← v.getItem key with
  | .arr l => pure l
  | _ => .error .typeError

/-- `dataDict[key]` used as a dictionary of real modes. -/
def getR (v : DataV K C) (key : String) : Py (Dict LM (List K)) := do
  match ← v.getItem key with
  | .modesR d => pure d
  | _ => .error .typeError

/-- `dataDict[key]` used as a dictionary of complex modes. -/
def getC (v : DataV K C) (key : String) : Py (Dict LM (List C)) := do
  match ← v.getItem key with
  | .modesC d => pure d
  | _ => .error .typeError

/-- `d.update(e)` -/
def Dict.update {κ V : Type} [DecidableEq κ] (d e : Dict κ V) : Dict κ V := e.foldl (fun acc p => acc.set p.1 p.2) d

/-- eccDefinition.py 804-823: the checks on which keys are given. -/
def checkShape (has : String → Bool) : Py Unit :=
  if has "hlm" && (has "amplm" || has "phaselm") then .error .exception
  else if has "hlm_zeroecc" && (has "amplm_zeroecc" || has "phaselm_zeroecc") then .error .exception
  else if !has "hlm" && (!has "amplm" || !has "phaselm") then .error .exception
  else .ok ()

/-- One pass of the loops of eccDefinition.py 677-688 and 704-717: the modes of `name + suffix`, given or computed
from the complex modes. -/
def realModes (conv : List C → List K) (name suffix : String) (v : DataV K C) : Py (Dict LM (List K)) :=
  if v.has (name ++ suffix) then do
    let d ← getR v (name ++ suffix)
    pure (Dict.update [] d)
  else if v.has ("hlm" ++ suffix) then do
    let d ← getC v ("hlm" ++ suffix)
    pure (d.foldl (fun acc p => acc.set p.1 (conv p.2)) [])
  else if suffix = "" then .error .exception
  else .ok []

/-- eccDefinition.py 689-692, 718-721: the zeroecc modes are added if there are any. -/
def withZeroecc (name : String) (a z : Dict LM (List K)) : DataV K C :=
  (name, Entry.modesR a) :: (if z.isEmpty then [] else [(name ++ "_zeroecc", Entry.modesR z)])

/-- eccDefinition.py 670-692 `get_amplm_from_dataDict` (`name` = "amplm") and 694-720 `get_phaselm_from_dataDict`
(`name` = "phaselm"). -/
def realModesDict (conv : List C → List K) (name : String) (v : DataV K C) : Py (DataV K C) := do
  let a ← realModes conv name "" v
  let z ← realModes conv name "_zeroecc" v
  pure (withZeroecc name a z)

/-- eccDefinition.py 722-730 `get_omegalm_from_phaselm`. -/
def omegaModes (t : List K) (phaselm : Dict LM (List K)) : Py (Dict LM (List K)) :=
  phaselm.foldlM (fun acc p => do
    let t1 ← pyGet t 1
    let t0 ← pyGet t 0
    let w ← timeDeriv4 p.2 (t1 - t0)
    pure (acc.set p.1 w)) phaselm

/-- eccDefinition.py 613-668 `get_amp_phase_omega_data`. -/
def ampPhaseOmega (lib : WaveLib K C) (v : DataV K C) : Py (DataV K C) := do
  let amp ← realModesDict lib.abs "amplm" v
  let ph ← realModesDict lib.phase "phaselm" v
  let d := Dict.update (Dict.update [] amp) ph
  let omega ← (if v.has "omegalm" then v.getItem "omegalm"
    else do
      let t ← getArr v "t"
      let p ← getR d "phaselm"
      let w ← omegaModes t p
      pure (.modesR w))
  let d := d.set "omegalm" omega
  if v.has "omegalm_zeroecc" then do
    let w ← v.getItem "omegalm_zeroecc"
    pure (d.set "omegalm_zeroecc" w)
  else if d.has "phaselm_zeroecc" && v.has "t_zeroecc" then do
    let t ← getArr v "t_zeroecc"
    let p ← getR d "phaselm_zeroecc"
    let w ← omegaModes t p
    pure (d.set "omegalm_zeroecc" (.modesR w))
  else pure d

/-- eccDefinition.py 845-858: the new dictionary with times, amplitudes, phases and frequencies. -/
def newData (lib : WaveLib K C) (v : DataV K C) : Py (DataV K C) := do
  if v.has "t" then do
    let t ← v.getItem "t"
    let nd : DataV K C := [("t", t)]
    let nd ← (if v.has "t_zeroecc" then do
        let t0 ← v.getItem "t_zeroecc"
        pure (nd.set "t_zeroecc" t0)
      else pure nd)
    let apo ← ampPhaseOmega lib v
    pure (nd.update apo)
  else .error .exception

/-! ### Frame transformation -/

/-- load_data.py 1654-1676 `get_coprecessing_data_dict` with `ell_min = ell_max = 2`: the rotated modes. -/
def rotatedModes (lib : WaveLib K C) (v : DataV K C) (tag : String) : Py (Dict LM (List C)) := do
  let h ← getC v ("hlm" ++ tag)
  let cols ← packageModes lib.zero h 2 2
  let t ← getArr v ("t" ++ tag)
  let cols' ← lib.rotate t cols
  unpackModes cols' 2 2

/-- eccDefinition.py 980-1002 `get_hlm_from_amplm_phaselm` for one tag. -/
def polarModes (lib : WaveLib K C) (amp ph : Dict LM (List K)) : Py (Dict LM (List C)) :=
  amp.foldlM (fun acc p => do
    let phi ← ph.getItem p.1
    let h ← lib.polar p.2 phi
    pure (acc.set p.1 h)) []

/-- eccDefinition.py 980-1002 `get_hlm_from_amplm_phaselm`. -/
def hlmFromAmpPhase (lib : WaveLib K C) (ampD phD : DataV K C) : Py (DataV K C) := do
  let a ← getR ampD "amplm"
  let p ← getR phD "phaselm"
  let h ← polarModes lib a p
  if ampD.has "amplm_zeroecc" then do
    let a0 ← getR ampD "amplm_zeroecc"
    let p0 ← getR phD "phaselm_zeroecc"
    let h0 ← polarModes lib a0 p0
    pure [("hlm", .modesC h), ("hlm_zeroecc", .modesC h0)]
  else pure [("hlm", .modesC h)]

/-- eccDefinition.py 955-961: the complex modes to be added when only amplitudes and phases were given. -/
def builtModes (lib : WaveLib K C) (v : DataV K C) : Py (DataV K C) := do
  let ampD ← realModesDict lib.abs "amplm" v
  let phD ← realModesDict lib.phase "phaselm" v
  hlmFromAmpPhase lib ampD phD

/-- eccDefinition.py 920-978 `transform_inertial_to_coprecessing`: the returned dictionary. -/
def transform (lib : WaveLib K C) (v : DataV K C) (tag : String) : Py (DataV K C) :=
  if v.has ("hlm" ++ tag) then do
    let r ← rotatedModes lib v tag
    pure (Dict.del (v.set ("hlm" ++ tag) (.modesC r)) ("omegalm" ++ tag))
  else do
    let h ← builtModes lib v
    let v := v.update h
    let r ← rotatedModes lib v tag
    let v := v.set ("hlm" ++ tag) (.modesC r)
    pure (Dict.del (Dict.del (Dict.del v ("amplm" ++ tag)) ("phaselm" ++ tag)) ("omegalm" ++ tag))

/-- eccDefinition.py 827-841: transformation when `precessing is True` and the frame is inertial. -/
def toCoprecessing (lib : WaveLib K C) (v : DataV K C) : Py (DataV K C) := do
  let v ← transform lib v ""
  if v.has "hlm_zeroecc" || v.has "amplm_zeroecc" then transform lib v "_zeroecc" else pure v

/-- The condition of eccDefinition.py 827. -/
def mustTransform (precessing : Flag) (frame : String) : Bool := decide (precessing = .isTrue) && decide (frame = "inertial")

/-! ### Quantities used for the measurement -/

/-- Arithmetic on two arrays; lengths must agree (numpy also repeats arrays of length 1, not modelled). -/
def npZip (f : K → K → K) (a b : List K) : Py (List K) :=
  if a.length = b.length then .ok (List.zipWith f a b) else .error .valueError

/-- eccDefinition.py 1004-1065 `get_amp_phase_omega_gw`. -/
def gwQuantities (precessing : Bool) (v : DataV K C) (tag : String) : Py (List K × List K × List K) := do
  let a ← getR v ("amplm" ++ tag)
  let p ← getR v ("phaselm" ++ tag)
  if !precessing then do
    let a22 ← a.getItem (2, 2)
    let p22 ← p.getItem (2, 2)
    let w ← getR v ("omegalm" ++ tag)
    let w22 ← w.getItem (2, 2)
    pure (a22, p22, w22)
  else if !a.has (2, -2) then .error .exception
  else if !p.has (2, -2) then .error .exception
  else do
    let a22 ← a.getItem (2, 2)
    let a2m ← a.getItem (2, -2)
    let amp ← npZip (fun x y => 1 / 2 * (x + y)) a22 a2m
    let p22 ← p.getItem (2, 2)
    let p2m ← p.getItem (2, -2)
    let phase ← npZip (fun x y => 1 / 2 * (x - y)) p22 p2m
    let w ← getR v ("omegalm" ++ tag)
    let w22 ← w.getItem (2, 2)
    let w2m ← w.getItem (2, -2)
    let omega ← npZip (fun x y => 1 / 2 * (x - y)) w22 w2m
    pure (amp, phase, omega)

/-- eccDefinition.py 1144-1174 `get_index_at_num_orbits_earlier_than_merger`. -/
def indexBeforeMerger (pi : K) (phase : List K) (phaseMerger n : K) : Py ℕ := do
  let target := phaseMerger - 4 * pi * n
  let p0 ← pyGet phase 0
  if target < p0 then .error .exception
  else argmin (phase.map (fun x => |x - target|))

/-- `int(x)` for a float: truncation towards zero. -/
def pyInt [FloorRing K] (x : K) : ℤ := if 0 ≤ x then ⌊x⌋ else ⌈x⌉

/-- eccDefinition.py 1067-1142 `get_width_for_peak_finder_from_phase_gw` with two orbits before merger.  Equal first two
times give inf/nan in numpy, whose conversion to int raises. -/
def peakWidth [FloorRing K] (pi : K) (t phase : List K) (phaseMerger : K) : Py ℤ := do
  let i2 ← indexBeforeMerger pi phase phaseMerger 2
  let t2 ← pyGet t i2
  let i1 ← indexBeforeMerger pi phase phaseMerger 1
  let t1 ← pyGet t i1
  let dt := t1 - t2
  let s1 ← pyGet t 1
  let s0 ← pyGet t 0
  if s1 - s0 = 0 then .error .valueError
  else pure (pyInt (dt / (s1 - s0) / 4))

/-- What `process_data_dict` computes before cutting the data. -/
structure Analysis (K : Type) where
  tMerger : K
  ampMerger : K
  width : ℤ
  /-- the sample at which the data are cut, if they are -/
  cut : Option ℕ

/-- eccDefinition.py 869-908: merger, sign checks, width for the peak finder, and the sample to cut at. -/
def analyse [FloorRing K] (lib : WaveLib K C) (precessing : Bool) (nd : DataV K C) (numOrbits : Option K) :
    Py (Analysis K) := do
  let t ← getArr nd "t"
  let a ← getR nd "amplm"
  let total ← lib.totalAmp (a.map Prod.snd)
  let (tMerger, _) ← peakTime t total
  let mergerIdx ← argmin (t.map (fun x => |x - tMerger|))
  let (amp, phase, omega) ← gwQuantities precessing nd ""
  let ampMerger ← pyGet amp mergerIdx
  let phaseMerger ← pyGet phase mergerIdx
  let omegaMerger ← pyGet omega mergerIdx
  let p0 ← pyGet phase 0
  if phaseMerger < p0 then .error .exception
  else if omegaMerger < 0 then .error .exception
  else do
    let width ← peakWidth lib.pi t phase phaseMerger
    match numOrbits with
    | none => pure ⟨tMerger, ampMerger, width, none⟩
    | some n =>
      if n < 0 then .error .valueError
      else do
        let idx ← indexBeforeMerger lib.pi phase phaseMerger n
        pure ⟨tMerger, ampMerger, width, some idx⟩

/-- eccDefinition.py 910-914 for one key: every mode is cut. -/
def cutEntry (idx : ℕ) : Entry K C → Py (Entry K C)
  | .modesR d => .ok (.modesR (d.map (fun p => (p.1, p.2.take idx))))
  | .modesC d => .ok (.modesC (d.map (fun p => (p.1, p.2.take idx))))
  | _ => .error .typeError

/-- eccDefinition.py 910-917: the eccentric data are cut at sample `idx`. -/
def cutData (idx : ℕ) (nd : DataV K C) : Py (DataV K C) := do
  let a ← nd.getItem "amplm"
  let a ← cutEntry idx a
  let nd := nd.set "amplm" a
  let p ← nd.getItem "phaselm"
  let p ← cutEntry idx p
  let nd := nd.set "phaselm" p
  let w ← nd.getItem "omegalm"
  let w ← cutEntry idx w
  let nd := nd.set "omegalm" w
  let t ← getArr nd "t"
  pure (nd.set "t" (.arr (t.take idx)))

/-- eccDefinition.py 732-918 `process_data_dict`: the new dictionary and the numbers returned with it.  The message of 828-833 is
in `frameMessage` (`Model/Construct.lean`). -/
def processData [FloorRing K] (lib : WaveLib K C) (precessing : Flag) (frame : String) (v : DataV K C)
    (numOrbits : Option K) : Py (DataV K C × Analysis K) := do
  checkShape v.has
  let v ← (if mustTransform precessing frame then toCoprecessing lib v else pure v)
  let nd ← newData lib v
  let r ← analyse lib precessing.truth nd numOrbits
  match r.cut with
  | none => pure (nd, r)
  | some idx => do
    let nd ← cutData idx nd
    pure (nd, r)

end data

end GwEcc
