import Verif.Model.Methods

/-!
# A small measurement computed over the rationals

It shows that the hypotheses of the theorems on `measure_ecc` are met by runs that succeed: a waveform of 20 samples
with four pericenters and four apocenters, linear interpolation standing for scipy.
-/

namespace GwEcc.Demo

/-- Insertion of `i` into indices sorted by `l`. -/
def insertIdx (l : List ℚ) (i : ℕ) : List ℕ → List ℕ
  | [] => [i]
  | j :: r => if l.getD i 0 < l.getD j 0 then i :: j :: r else j :: insertIdx l i r

/-- A sorting permutation of `l`. -/
def argsort (l : List ℚ) : List ℕ := (List.range l.length).foldl (fun acc i => insertIdx l i acc) []

def linear (x y : List ℚ) (t : ℚ) : Py ℚ := npInterp t (x.zip y)

def ext : Ext ℚ where
  pi := 22 / 7
  tol := 1 / 10000000000
  monoTol := 1 / 100000
  eccOf := fun wp wa => (wp - wa) / (wp + wa)
  eval := fun _ => linear
  deriv := fun _ _ _ _ => .ok 0
  ratFit := fun ty xP yP xA yA => .ok (linear (ty.pick xP xA) (ty.pick yP yA))
  argsort := argsort
  find := fun ty => match ty with
    | .pericenters => .ok [2, 6, 10, 14]
    | .apocenters => .ok [4, 8, 12, 16]

def times : List ℚ := (List.range 20).map (fun i : ℕ => (i : ℚ))

/-- An object asked for four times, two of them outside the allowed window. -/
def obj : Obj ℚ where
  t := times
  dataT := times
  phase := times.map (fun x => 4 * x + x * x / 100)
  omega := times.map (fun x => 4 + x / 50 + (if (⌊x⌋ % 4 = 2) then 1 else 0))
  domain := .time
  refIn := .array [3, 5, 13, 18]

/-- The same object asked for frequencies. -/
def objF : Obj ℚ := { obj with domain := .frequency, refIn := .array [0, 13 / 20, 2 / 3, 1] }

/-- The same data with no extrema at all and the option to report zero. -/
def objZero : Obj ℚ := { obj with returnZero := true, phase := times.map (· * 10), refIn := .scalar 3 }

def extNone : Ext ℚ := { ext with find := fun _ => .ok [] }

end GwEcc.Demo
