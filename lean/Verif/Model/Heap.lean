import Verif.Model.DataDict

/-!
# The preparation of the waveform data, on objects in memory

The same functions as in `Model/DataDict.lean` (`gw_eccentricity/eccDefinition.py` 613-978), and the time shift of
`eccDefinitionUsingFrequencyFits.py` 185/453, but now the caller's dictionary, its mode dictionaries and its arrays are
objects which the code may share or write to.  An object is named by its position in the heap.  A program returns a value
or an exception *and* the heap it leaves behind, so that what an exception leaves behind is part of the model.

Simplifications.  An object that only the running function can reach, and that is dropped when the function returns, is
a value (no heap cell).  A dictionary under construction that nobody else can reach is a value until it is handed out.
`deepcopy` copies each entry of the dictionary on its own (an array reachable through two entries is copied twice).
Arrays of times are arrays of floats.  The time shifts are exact (floating point rounding is not modelled).
-/

namespace GwEcc

/-- Name of an object. -/
abbrev Ref := ℕ

/-- An object: an array of floats, a slice sharing memory with such an array, an array of complex numbers, a dictionary
of real or of complex modes, a `dataDict`, or anything else. -/
inductive Cell (K C : Type)
  | nums (l : List K)
  | view (base start len : ℕ)
  | cnums (l : List C)
  | modesR (d : Dict LM Ref)
  | modesC (d : Dict LM Ref)
  | top (d : Dict String Ref)
  | other
  deriving DecidableEq, Repr

/-- Memory. -/
abbrev Heap (K C : Type) := List (Cell K C)

/-- A program: result or exception, and the memory left behind. -/
def HM (K C α : Type) := Heap K C → Py α × Heap K C

/-- A program that does nothing but return. -/
def HM.pure {K C α : Type} (a : α) : HM K C α := fun h => (.ok a, h)

/-- One program after the other; an exception ends both and the memory stays as it is. -/
def HM.bind {K C α β : Type} (p : HM K C α) (f : α → HM K C β) : HM K C β := fun h =>
  match p h with
  | (.ok a, h') => f a h'
  | (.error e, h') => (.error e, h')

instance {K C : Type} : Monad (HM K C) where
  pure := HM.pure
  bind := HM.bind

section heap

variable {K C : Type}

/-- A computation that does not touch memory. -/
def HM.lift {α : Type} (p : Py α) : HM K C α := fun h => (p, h)

/-- Look at the memory. -/
def HM.read {α : Type} (f : Heap K C → α) : HM K C α := fun h => (.ok (f h), h)

/-- A new object. -/
def alloc (c : Cell K C) : HM K C Ref := fun h => (.ok h.length, h ++ [c])

/-- Replace the contents of an object. -/
def write (r : Ref) (c : Cell K C) : HM K C Unit := fun h => (.ok (), h.set r c)

/-! ### Reading -/

/-- Contents of an array of floats (`[]` if the object is something else). -/
def readR (h : Heap K C) (r : Ref) : List K :=
  match h[r]? with
  | some (.nums l) => l
  | some (.view b s n) =>
    match h[b]? with
    | some (.nums l) => (l.drop s).take n
    | _ => []
  | _ => []

/-- Contents of an array of complex numbers (`[]` if the object is something else). -/
def readC (h : Heap K C) (r : Ref) : List C :=
  match h[r]? with
  | some (.cnums l) => l
  | _ => []

/-- Contents of a dictionary of real modes. -/
def readModesR (h : Heap K C) (d : Dict LM Ref) : Dict LM (List K) := d.map fun p => (p.1, readR h p.2)

/-- Contents of a dictionary of complex modes. -/
def readModesC (h : Heap K C) (d : Dict LM Ref) : Dict LM (List C) := d.map fun p => (p.1, readC h p.2)

/-- Contents of an entry of a `dataDict`. -/
def readEntry (h : Heap K C) (r : Ref) : Entry K C :=
  match h[r]? with
  | some (.nums l) => .arr l
  | some (.view b s n) => .arr (match h[b]? with
    | some (.nums l) => (l.drop s).take n
    | _ => [])
  | some (.modesR d) => .modesR (readModesR h d)
  | some (.modesC d) => .modesC (readModesC h d)
  | _ => .other

/-- The entries of the dictionary object `r` (none if it is something else). -/
def topDict (h : Heap K C) (r : Ref) : Dict String Ref :=
  match h[r]? with
  | some (.top d) => d
  | _ => []

/-- Contents of entries. -/
def readTop (h : Heap K C) (d : Dict String Ref) : DataV K C := d.map fun p => (p.1, readEntry h p.2)

/-- Contents of the `dataDict` object `r`. -/
def readV (h : Heap K C) (r : Ref) : DataV K C := readTop h (topDict h r)

/-! ### Objects the functions create -/

variable [Field K] [LinearOrder K]

/-- One new array of floats per mode. -/
def allocR (m : Dict LM (List K)) : HM K C (Dict LM Ref) :=
  m.mapM fun p => do
    let r ← alloc (.nums p.2)
    pure (p.1, r)

/-- One new array of complex numbers per mode. -/
def allocC (m : Dict LM (List C)) : HM K C (Dict LM Ref) :=
  m.mapM fun p => do
    let r ← alloc (.cnums p.2)
    pure (p.1, r)

/-- A new entry with the given contents. -/
def allocEntry : Entry K C → HM K C Ref
  | .arr l => alloc (.nums l)
  | .modesR m => do
    let d ← allocR m
    alloc (.modesR d)
  | .modesC m => do
    let d ← allocC m
    alloc (.modesC d)
  | .other => alloc .other

/-- New entries with the given contents. -/
def allocTop (v : DataV K C) : HM K C (Dict String Ref) :=
  v.mapM fun p => do
    let r ← allocEntry p.2
    pure (p.1, r)

/-- `copy.deepcopy(dataDict)`: the entries of the copy. -/
def deepcopy (root : Ref) : HM K C (Dict String Ref) := do
  let v ← HM.read fun h => readV h root
  allocTop v

/-! ### `process_data_dict` -/

/-- The mode dictionary object `r`, for copying its entries (eccDefinition.py 680, 706: `dict.update`). -/
def refsR (top : Dict String Ref) (key : String) : HM K C (Dict LM Ref) := do
  let r ← HM.lift (top.getItem key)
  let c ← HM.read fun h => h[r]?
  match c with
  | some (.modesR d) => pure d
  | _ => HM.lift (.error .typeError)

/-- eccDefinition.py 677-688 and 704-717, one pass: arrays given by the caller are shared, amplitudes and phases of complex
modes are new arrays. -/
def realModesH (conv : List C → List K) (name suffix : String) (root : Ref) : HM K C (Dict LM Ref) := do
  let top ← HM.read fun h => topDict h root
  if top.has (name ++ suffix) then do
    let d ← refsR top (name ++ suffix)
    pure (Dict.update [] d)
  else do
    let v ← HM.read fun h => readV h root
    let m ← HM.lift (realModes conv name suffix v)
    allocR m

/-- eccDefinition.py 670-692 (`name` = "amplm") and 694-720 (`name` = "phaselm"): new dictionaries of modes. -/
def realModesDictH (conv : List C → List K) (name : String) (root : Ref) : HM K C (Dict String Ref) := do
  let a ← realModesH conv name "" root
  let z ← realModesH conv name "_zeroecc" root
  let ra ← alloc (.modesR a)
  if z.isEmpty then pure [(name, ra)]
  else do
    let rz ← alloc (.modesR z)
    pure [(name, ra), (name ++ "_zeroecc", rz)]

/-- eccDefinition.py 722-730: a new dictionary of new arrays; `d` holds the phases, `root` the times. -/
def omegaModesH (root : Ref) (tKey : String) (d : Dict String Ref) (pKey : String) : HM K C Ref := do
  let v ← HM.read fun h => readV h root
  let t ← HM.lift (getArr v tKey)
  let nd ← HM.read fun h => readTop h d
  let p ← HM.lift (getR nd pKey)
  let w ← HM.lift (omegaModes t p)
  allocEntry (.modesR w)

/-- eccDefinition.py 613-668: given frequencies are the caller's own dictionary objects (650-651, 661-662). -/
def ampPhaseOmegaH (lib : WaveLib K C) (root : Ref) : HM K C (Dict String Ref) := do
  let amp ← realModesDictH lib.abs "amplm" root
  let ph ← realModesDictH lib.phase "phaselm" root
  let d := Dict.update (Dict.update [] amp) ph
  let top ← HM.read fun h => topDict h root
  let rw ← (if top.has "omegalm" then HM.lift (top.getItem "omegalm") else omegaModesH root "t" d "phaselm")
  let d := d.set "omegalm" rw
  if top.has "omegalm_zeroecc" then do
    let rz ← HM.lift (top.getItem "omegalm_zeroecc")
    pure (d.set "omegalm_zeroecc" rz)
  else if d.has "phaselm_zeroecc" && top.has "t_zeroecc" then do
    let rz ← omegaModesH root "t_zeroecc" d "phaselm_zeroecc"
    pure (d.set "omegalm_zeroecc" rz)
  else pure d

/-- eccDefinition.py 845-858: the entries of the new dictionary; the time arrays are the caller's own objects. -/
def newDataH (lib : WaveLib K C) (root : Ref) : HM K C (Dict String Ref) := do
  let top ← HM.read fun h => topDict h root
  if top.has "t" then do
    let rt ← HM.lift (top.getItem "t")
    let nd : Dict String Ref := [("t", rt)]
    let nd ← (if top.has "t_zeroecc" then do
        let r0 ← HM.lift (top.getItem "t_zeroecc")
        pure (nd.set "t_zeroecc" r0)
      else pure nd)
    let apo ← ampPhaseOmegaH lib root
    pure (nd.update apo)
  else HM.lift (.error .exception)

/-- load_data.py 1654-1676 on objects: a new dictionary of the rotated modes. -/
def rotatedH (lib : WaveLib K C) (root : Ref) (tag : String) : HM K C Ref := do
  let v ← HM.read fun h => readV h root
  let m ← HM.lift (rotatedModes lib v tag)
  allocEntry (.modesC m)

/-- eccDefinition.py 920-978 `transform_inertial_to_coprecessing`.  Line 961 (`data_dict.update(hlm_dict)`) writes to the
object the function was given. -/
def transformH (lib : WaveLib K C) (root : Ref) (tag : String) : HM K C Ref := do
  let top ← HM.read fun h => topDict h root
  if top.has ("hlm" ++ tag) then do
    let r ← rotatedH lib root tag
    let d ← deepcopy root
    alloc (.top (Dict.del (d.set ("hlm" ++ tag) r) ("omegalm" ++ tag)))
  else do
    let v ← HM.read fun h => readV h root
    let b ← HM.lift (builtModes lib v)
    let new ← allocTop b
    write root (.top (top.update new))
    let r ← rotatedH lib root tag
    let d ← deepcopy root
    let d := d.set ("hlm" ++ tag) r
    alloc (.top (Dict.del (Dict.del (Dict.del d ("amplm" ++ tag)) ("phaselm" ++ tag)) ("omegalm" ++ tag)))

/-- eccDefinition.py 827-841. -/
def toCoprecessingH (lib : WaveLib K C) (root : Ref) : HM K C Ref := do
  let r ← transformH lib root ""
  let top ← HM.read fun h => topDict h r
  if top.has "hlm_zeroecc" || top.has "amplm_zeroecc" then transformH lib r "_zeroecc" else pure r

/-- `arr[:idx]`: a slice sharing memory with the array. -/
def sliceTo (idx : ℕ) (r : Ref) : HM K C Ref := fun h =>
  match h[r]? with
  | some (.nums l) => alloc (.view r 0 (min idx l.length)) h
  | some (.view b s n) => alloc (.view b s (min idx n)) h
  | _ => alloc .other h

/-- eccDefinition.py 911-914 for one key: `newDataDict[k][mode] = newDataDict[k][mode][:idx]` for every mode writes to the
dictionary object stored under `k`, whoever else holds it. -/
def cutModesH (idx : ℕ) (d : Dict String Ref) (key : String) : HM K C Unit := do
  let r ← HM.lift (d.getItem key)
  let m ← refsR d key
  let m' ← m.mapM fun p => do
    let s ← sliceTo idx p.2
    pure (p.1, s)
  write r (.modesR m')

/-- eccDefinition.py 910-917: the entries of the new dictionary after cutting. -/
def cutDataH (idx : ℕ) (d : Dict String Ref) : HM K C (Dict String Ref) := do
  cutModesH idx d "amplm"
  cutModesH idx d "phaselm"
  cutModesH idx d "omegalm"
  let nd ← HM.read fun h => readTop h d
  let _ ← HM.lift (getArr nd "t")
  let rt ← HM.lift (d.getItem "t")
  let s ← sliceTo idx rt
  pure (d.set "t" s)

/-- eccDefinition.py 732-918 `process_data_dict` on the caller's object `root`: the entries of the new dictionary.  Not modelled:
the message of 828-833, which at the strict debug level raises before anything is changed. -/
def processDataH [FloorRing K] (lib : WaveLib K C) (precessing : Flag) (frame : String) (numOrbits : Option K) (root : Ref) :
    HM K C (Dict String Ref × Analysis K) := do
  let v ← HM.read fun h => readV h root
  HM.lift (checkShape v.has)
  let root ← (if mustTransform precessing frame then toCoprecessingH lib root else pure root)
  let d ← newDataH lib root
  let nd ← HM.read fun h => readTop h d
  let r ← HM.lift (analyse lib precessing.truth nd numOrbits)
  match r.cut with
  | none => pure (d, r)
  | some idx => do
    let d ← cutDataH idx d
    pure (d, r)

/-! ### The extrema search and the whole measurement -/

/-- `arr += x` in place: for a slice, the array it shares memory with changes. -/
def shiftH (x : K) (r : Ref) : HM K C Unit := fun h =>
  match h[r]? with
  | some (.nums l) => write r (.nums (l.map (· + x))) h
  | some (.view b s n) =>
    match h[b]? with
    | some (.nums l) => write b (.nums (l.take s ++ ((l.drop s).take n).map (· + x) ++ (l.drop s).drop n)) h
    | _ => HM.pure () h
  | _ => HM.pure () h

/-- `find_extrema`.  For the fits classes (eccDefinitionUsingFrequencyFits.py 185 and 453) the time array is shifted in
place before and back after the search, but not when the search raises.  `search` is everything in between: it reads the
time array. -/
def findH {α : Type} (fits : Bool) (tMerger : K) (rt : Ref) (search : List K → Py α) : HM K C α :=
  if fits then do
    shiftH (-tMerger) rt
    let t ← HM.read fun h => readR h rt
    let x ← HM.lift (search t)
    shiftH tMerger rt
    pure x
  else do
    let t ← HM.read fun h => readR h rt
    HM.lift (search t)

/-- The parts of a measurement that only read the data: the rest of the constructor with the choice of a segment
(eccDefinition.py 449-595), the search for pericenters and apocenters, and the rest of `measure_ecc`. -/
structure Rest (K C α β : Type) where
  /-- constructor; `some (s, n)`: use only the `n` samples from `s` on (`self.t = self.t[s:s+n]`) -/
  init : DataV K C → Analysis K → Py (Option (ℕ × ℕ))
  search : DataV K C → Analysis K → ExtType → List K → Py α
  /-- apocenters from pericenters when the option asks for it (eccDefinition.py 2312-2315) -/
  midpoints : Option (α → α)
  final : DataV K C → Analysis K → α → α → Py β

/-- The slice `arr[s:s+n]`. -/
def sliceOf (s n : ℕ) (r : Ref) : HM K C Ref := fun h =>
  match h[r]? with
  | some (.nums _) => alloc (.view r s n) h
  | some (.view b s0 n0) => alloc (.view b (s0 + s) (min n (n0 - s))) h
  | _ => alloc .other h

/-- `measure_eccentricity` on the caller's `dataDict` object: construction (eccDefinition.py 445-595) and
`measure_ecc` (2223-2478). -/
def measureH [FloorRing K] {α β : Type} (lib : WaveLib K C) (fits : Bool) (precessing : Flag) (frame : String)
    (numOrbits : Option K) (rest : Rest K C α β) (root : Ref) : HM K C β := do
  let (d, an) ← processDataH lib precessing frame numOrbits root
  let nd ← HM.read fun h => readTop h d
  let seg ← HM.lift (rest.init nd an)
  let rt ← HM.lift (d.getItem "t")
  let rt ← (match seg with
    | none => pure rt
    | some (s, n) => sliceOf s n rt)
  let p ← findH fits an.tMerger rt (rest.search nd an .pericenters)
  let a ← (match rest.midpoints with
    | some f => pure (f p)
    | none => findH fits an.tMerger rt (rest.search nd an .apocenters))
  HM.lift (rest.final nd an p a)

end heap

end GwEcc
