import Verif.Py

/-!
# Model of the packing of waveform modes for frame rotation

Python source: `gw_eccentricity/load_data.py` 1554-1615.  The columns of the two-dimensional array are lists.
`scri.WaveformModes` is outside the model except for its documented layout: `LM` lists `(ell, m)` for `ell` from
`ell_min` to `ell_max` and `m` from `-ell` to `ell`, and `index(ell, m)` is `ell * (ell + 1) - ell_min ** 2 + m`.
-/

namespace GwEcc

/-- A mode `(ell, m)`. -/
abbrev LM := ℤ × ℤ

/-- `range(a, b)` of Python. -/
def intRange (a b : ℤ) : List ℤ := (List.range (b - a).toNat).map (fun i : ℕ => a + i)

/-- The double loop of load_data.py 1581-1582, and `scri.WaveformModes.LM`. -/
def modeLoop (ellMin ellMax : ℤ) : List LM :=
  (intRange ellMin (ellMax + 1)).flatMap (fun ell => (intRange (-ell) (ell + 1)).map (fun m => (ell, m)))

/-- `scri.WaveformModes.index(ell, m)`. -/
def scriIndex (ellMin : ℤ) (k : LM) : ℤ := k.1 * (k.1 + 1) - ellMin ^ 2 + k.2

section
variable {C : Type}

/-- One pass of the loop body, load_data.py 1583-1593; the state is the array (its columns) and `i`. -/
def packStep (modes : Dict LM (List C)) (rows : ℕ) (s : List (List C) × ℕ) (k : LM) : Py (List (List C) × ℕ) :=
  match modes.get? k with
  | none => .error .exception
  | some h =>
    if s.2 ≥ s.1.length then .error .indexError
    else if h.length ≠ rows then .error .valueError   -- numpy: could not broadcast (length 1 is not modelled)
    else .ok (s.1.set s.2 h, s.2 + 1)

/-- load_data.py 1554-1594 `package_modes_for_scri`: the columns of `result`. -/
def packageModes (zero : C) (modes : Dict LM (List C)) (ellMin ellMax : ℤ) : Py (List (List C)) := do
  let h22 ← modes.getItem (2, 2)
  let nElem := (ellMax + 3) * (ellMax - 1)
  if nElem < 0 then .error .valueError      -- `np.zeros` refuses negative dimensions
  else do
    let start := List.replicate nElem.toNat (List.replicate h22.length zero)
    let r ← (modeLoop ellMin ellMax).foldlM (packStep modes h22.length) (start, 0)
    pure r.1

/-- load_data.py 1597-1615 `unpack_scri_modes`: `data` holds the columns.  (The index is never negative for `m` from
`-ell`, so the truncation to a natural number changes nothing.) -/
def unpackModes (data : List (List C)) (ellMin ellMax : ℤ) : Py (Dict LM (List C)) :=
  (modeLoop ellMin ellMax).foldlM (fun acc k => do
    let col ← pyGet data (scriIndex ellMin k).toNat
    pure (acc.set k col)) []

end

end GwEcc
