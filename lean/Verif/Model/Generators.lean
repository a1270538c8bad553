import Verif.Model.LoadData
import Verif.Model.Compare

/-!
# Model of the waveform generators shipped with the examples and the tests

Python source: `examples/postprocessing/teobresums_dali.py`, `examples/postprocessing/esigmahm.py` and
`EccTests/EOBTests/seobnrv4ehm.py`.  The waveform models themselves are parameters.
-/

namespace GwEcc.Gen

open Load

variable {K C : Type}

section
variable [Field K] [LinearOrder K]

/-! ## TEOBResumS-DALI -/

/-- Times, amplitudes and phases of the (2, 2) mode: what is used of the output of `EOBRunPy`. -/
structure Evolution (K : Type) where
  t : List K
  amp : List K
  phase : List K
  deriving DecidableEq

/-- teobresums_dali.py 26-40: the entries of the parameter dictionary that depend on the arguments. -/
structure TeobArgs (K : Type) where
  M : K
  q : K
  chi1z : K
  chi2z : K
  distance : K
  initialFrequency : K
  ecc : K
  anomaly : K
  /-- `backwards`; absent in the first run -/
  backwards : Option String
  odeTmax : Option K
  deriving DecidableEq

/-- teobresums_dali.py 26-40; a missing parameter raises `KeyError`. -/
def teobArgs (params : Dict String K) : Py (TeobArgs K) := do
  let m1 ← params.getItem "mass_1"
  let m2 ← params.getItem "mass_2"
  if m2 = 0 then .error .zeroDivisionError
  else do
    let chi1 ← params.getItem "spin_1z"
    let chi2 ← params.getItem "spin_2z"
    let d ← params.getItem "luminosity_distance"
    let f ← params.getItem "minimum_frequency"
    let e ← params.getItem "eccentricity"
    let a ← params.getItem "mean_per_ano"
    pure ⟨m1 + m2, m1 / m2, chi1, chi2, d, f, e, a, none, none⟩

/-- teobresums_dali.py 60-66: the backward evolution flipped and put before the forward one. -/
def join [FloorRing K] (pi : K) (fwd bwd : Evolution K) : Py (Evolution K) := do
  let last ← (match bwd.t.getLast? with
    | some x => .ok x
    | none => .error .indexError : Py K)
  pure ⟨bwd.t ++ fwd.t.tail.map (· + last), bwd.amp.reverse ++ fwd.amp.tail,
    Compare.unwrap pi bwd.phase.reverse ++ fwd.phase.tail⟩

/-- teobresums_dali.py 18-71 `teob_data_dict_generator`; `backwards` and `odeTmax` are the entries of `kwargs`, if any. -/
def teob [FloorRing K] (pi : K) (run : TeobArgs K → Py (Evolution K)) (params : Dict String K) (backwards : Option String)
    (odeTmax : Option K) : Py (Evolution K) := do
  let a ← teobArgs params
  let fwd ← run a
  let a := { a with backwards := some (backwards.getD "no") }
  if backwards.getD "no" = "yes" then do
    let bwd ← run { a with odeTmax := some (odeTmax.getD 1) }
    join pi fwd bwd
  else pure fwd

/-! ## ESIGMAHM -/

/-- The keyword arguments of `get_imr_esigma_modes`: numbers, or the list of modes, or the switch for conjugate modes. -/
inductive Arg (K : Type)
  | num (x : K)
  | modes (l : List LM)
  | flag (b : Bool)
  deriving DecidableEq

/-- esigmahm.py 9-29: the arguments; the caller's extra ones replace those of the same name. -/
def esigmaArgs (params : Dict String K) (extra : Option (Dict String (Arg K))) : Py (Dict String (Arg K)) := do
  let m1 ← params.getItem "mass_1"
  let m2 ← params.getItem "mass_2"
  let s1 ← params.getItem "spin_1z"
  let s2 ← params.getItem "spin_2z"
  let f ← params.getItem "minimum_frequency"
  let fref ← params.getItem "reference_frequency"
  let d ← params.getItem "luminosity_distance"
  let e ← params.getItem "eccentricity"
  let a ← params.getItem "mean_anomaly"
  let args : Dict String (Arg K) := [("mass1", .num m1), ("mass2", .num m2), ("spin1z", .num s1), ("spin2z", .num s2),
    ("delta_t", .num (1 / 2048)), ("f_lower", .num f), ("f_ref", .num fref), ("distance", .num d),
    ("modes_to_use", .modes [(2, 2)]), ("include_conjugate_modes", .flag false), ("eccentricity", .num e),
    ("mean_anomaly", .num a)]
  pure ((extra.getD []).foldl (fun (acc : Dict String (Arg K)) p => acc.set p.1 p.2) args)

/-- esigmahm.py 8-38 `esigma_data_dict_generator`; `run` gives sample times and values of each mode. -/
def esigma (run : Dict String (Arg K) → Py (Dict LM (List K × List C))) (params : Dict String K)
    (extra : Option (Dict String (Arg K))) : Py (List K × Dict LM (List C)) := do
  let args ← esigmaArgs params extra
  let hlm ← run args
  let h22 ← hlm.getItem (2, 2)
  pure (h22.1, hlm.map fun p => (p.1, p.2.2))

/-! ## SEOBNRv4EHM with files -/

/-- The arguments of `get_modes` other than `save` (seobnrv4ehm.py 134-147). -/
structure SeobArgs (K : Type) where
  q : K
  chi1 : K
  chi2 : K
  ecc : K
  ano : K
  fMin : K
  mFed : K
  deltaT : K
  eccIC : K
  dMpc : K
  approx : String
  physicalUnits : Bool
  deriving DecidableEq

/-- What the name of the file is made of (seobnrv4ehm.py 152-155): all arguments, the step only as `int(1/delta_t)`.  That names made
from different values differ is taken for granted. -/
structure SeobKey (K : Type) where
  args : SeobArgs K
  rate : ℤ
  deriving DecidableEq

/-- `int(x)` -/
def trunc [FloorRing K] (x : K) : ℤ := if 0 ≤ x then ⌊x⌋ else ⌈x⌉

/-- seobnrv4ehm.py 152-155. -/
def seobKey [FloorRing K] (a : SeobArgs K) : Py (SeobKey K) :=
  if a.deltaT = 0 then .error .zeroDivisionError else .ok ⟨{ a with deltaT := 0 }, trunc (1 / a.deltaT)⟩

/-- A file of modes; one that was not written to the end lacks some. -/
structure ModeFile (K C : Type) where
  time : Option (List K)
  strain : Dict LM (List C)
  deriving DecidableEq

/-- seobnrv4ehm.py 157-160. -/
def modeList : List LM := [(2, 2), (3, 3), (4, 4), (5, 5)]

/-- seobnrv4ehm.py 161-166: reading a file. -/
def readFile (f : ModeFile K C) : Py (List K × Dict LM (List C)) :=
  match f.time with
  | none => .error .keyError
  | some t => do
    let hlm ← modeList.foldlM (fun (acc : Dict LM (List C)) k => do
      let h ← f.strain.getItem k
      pure (acc.set k h)) []
    pure (t, hlm)

/-- The constants (seobnrv4ehm.py 9-17), the model and the multiplication of a value by a real number. -/
structure SeobLib (K C : Type) where
  mtsun : K
  c : K
  pc : K
  smul : K → C → C
  /-- the modes in the order of the linked list -/
  series : SeobArgs K → Py (List (LM × List C))

/-- What `get_sphtseries` hands to `SimIMRSpinAlignedEOBModesEcc_opt` out of its arguments (seobnrv4ehm.py 115-130); the other
arguments are constants (95-105, 112-113). -/
structure SphtArgs (K : Type) where
  deltaT : K
  m1 : K
  m2 : K
  fMin : K
  dist : K
  chi1 : K
  chi2 : K
  ecc : K
  ano : K
  eccIC : K
  deriving DecidableEq

/-- seobnrv4ehm.py 87-131 `get_sphtseries`; `msun` and `pc` are `lal.MSUN_SI` and `lal.PC_SI`.  `approx` is not used. -/
def sphtseries (msun pc : K) (sim : SphtArgs K → Py (List (LM × List C))) (a : SeobArgs K) : Py (List (LM × List C)) :=
  if 1 + a.q = 0 then .error .zeroDivisionError
  else
    let m1 := a.q / (1 + a.q) * a.mFed
    let m2 := 1 / (1 + a.q) * a.mFed
    let dist := a.dMpc * (1000000 * pc)
    sim ⟨a.deltaT, m1 * msun, m2 * msun, a.fMin, dist, a.chi1, a.chi2, a.ecc, a.ano, a.eccIC⟩

/-- seobnrv4ehm.py 168-218: the modes computed. -/
def compute [FloorRing K] (lib : SeobLib K C) (a : SeobArgs K) : Py (List K × Dict LM (List C)) := do
  let s ← lib.series a
  match s with
  | s0 :: s1 :: _ :: s3 :: s4 :: _ => do
    let hlm : Dict LM (List C) := (((Dict.set [] s0.1 s0.2).set s1.1 s1.2).set s3.1 s3.2).set s4.1 s4.2
    let t ← arange 0 (s4.2.length * a.deltaT) a.deltaT
    if a.physicalUnits then pure (t, hlm)
    else if a.mFed * lib.mtsun = 0 then .error .zeroDivisionError
    else pure (t.map (· / (a.mFed * lib.mtsun)),
      hlm.map fun p => (p.1, p.2.map (lib.smul (a.dMpc * 1000000 * lib.pc / (lib.c * (a.mFed * lib.mtsun))))))
  | _ => .error .attributeError

/-- seobnrv4ehm.py 220-225: the contents the file has while it is written, and whether that ended well. -/
def saveStates (t : List K) (hlm : Dict LM (List C)) : List (ModeFile K C) × Py Unit :=
  let rec go : List LM → ModeFile K C → List (ModeFile K C) × Py Unit
    | [], _ => ([], .ok ())
    | k :: ks, f =>
      match hlm.get? k with
      | none => ([], .error .keyError)
      | some h =>
        let f' : ModeFile K C := { f with strain := f.strain.set k h }
        (f' :: (go ks f').1, (go ks f').2)
  let f0 : ModeFile K C := ⟨some t, []⟩
  (⟨none, []⟩ :: f0 :: (go modeList f0).1, (go modeList f0).2)

/-- The files, by what their names are made of. -/
abbrev ModeDir (K C : Type) := Dict (SeobKey K) (ModeFile K C)

/-- seobnrv4ehm.py 134-227 `get_modes`: the states the directory goes through after the call began, and the outcome. -/
def getModes [FloorRing K] (lib : SeobLib K C) (a : SeobArgs K) (save : Bool) (dir : ModeDir K C) :
    List (ModeDir K C) × Py (List K × Dict LM (List C)) :=
  match seobKey a with
  | .error e => ([], .error e)
  | .ok key =>
    match dir.get? key with
    | some f => ([], readFile f)
    | none =>
      match compute lib a with
      | .error e => ([], .error e)
      | .ok (t, hlm) =>
        if save then ((saveStates t hlm).1.map fun f => dir.set key f, (saveStates t hlm).2.map fun _ => (t, hlm))
        else ([], .ok (t, hlm))

end

end GwEcc.Gen
