import Verif.Lemmas.MeasureDemo
import Verif.Model.Construct

/-!
# Whole calls computed over the rationals

24 samples of a waveform with four pericenters and four apocenters before the last orbit, and libraries simple enough for
exact computation.  Complex samples are pairs (amplitude, phase).
-/

namespace GwEcc.RunDemo

/-- Strict maxima of three neighbours. -/
def maxima (l : List ℚ) : List ℕ :=
  (List.range l.length).filter fun i =>
    decide (1 ≤ i ∧ i + 1 < l.length ∧ l.getD (i - 1) 0 < l.getD i 0 ∧ l.getD (i + 1) 0 < l.getD i 0)

def lib : Libs ℚ (ℚ × ℚ) where
  wave := {
    pi := 22 / 7
    zero := (0, 0)
    abs := List.map (·.1)
    phase := List.map (·.2)
    polar := fun a p => .ok (List.zip a p)
    rotate := fun _ cols => .ok cols
    totalAmp := fun ls => match ls with
      | [] => .error .valueError
      | l :: _ => .ok l }
  filter := {
    pi := 22 / 7
    cos := fun _ => 0
    fit := fun _ _ _ _ => .ok fun _ => 0
    peaks := fun l _ => .ok (maxima l)
    cubic := fun _ _ => .ok fun _ => 4
    spectrum := id
    lowpass := fun l _ => l
    hamming := fun n => List.replicate n 1
    hanning := fun n => List.replicate n 1 }
  fits := {
    pi := 22 / 7
    pow := fun _ _ => 1
    curveFit := fun _ _ _ _ _ _ => .ok ⟨0, 0, 1⟩
    findPeaks := fun l _ _ => .ok (maxima l)
    parabola := fun _ _ => .error .valueError
    cubic := fun _ _ _ => .error .valueError }
  tol := Demo.ext.tol
  monoTol := Demo.ext.monoTol
  eccOf := Demo.ext.eccOf
  eval := Demo.ext.eval
  deriv := Demo.ext.deriv
  argsort := Demo.ext.argsort
  solve := fun _ _ p => .ok p
  rational := fun _ _ x y => .ok (Demo.linear x y)
  peaks := fun _ l => .ok (maxima l)

def times : List ℚ := (List.range 24).map fun i : ℕ => (i : ℚ)

/-- Grows at every fourth sample, drops two samples later; the largest value is at sample 22. -/
def wiggle : List ℚ := (List.range 24).map fun i : ℕ =>
  if i < 19 then (i : ℚ) / 50 + (if i % 4 = 2 then 1 else if i % 4 = 0 then -1 else 0) else 10 - (22 - (i : ℚ)) ^ 2

def amps : List ℚ := wiggle.map (5 + ·)
def omegas : List ℚ := wiggle.map (8 + ·)
def phases : List ℚ := times.map fun x => 4 * x + x ^ 2 / 100

/-- Amplitudes, phases and frequencies of a system that does not precess. -/
def data : DataV ℚ (ℚ × ℚ) :=
  [("t", .arr times), ("amplm", .modesR [((2, 2), amps), ((2, -2), amps)]),
    ("phaselm", .modesR [((2, 2), phases), ((2, -2), phases.map (- ·))]),
    ("omegalm", .modesR [((2, 2), omegas), ((2, -2), omegas.map (- ·))])]

def call : Call ℚ (ℚ × ℚ) where
  dataDict := data
  trefIn := some (.array [5, 8])
  numOrbits := some 1

/-- A small alternating difference of the two modes. -/
def ripple : List ℚ := (List.range 24).map fun i : ℕ => if i % 2 = 0 then 1 / 100 else -1 / 100

/-- A precessing system, in the coprecessing frame. -/
def dataP : DataV ℚ (ℚ × ℚ) :=
  [("t", .arr times),
    ("amplm", .modesR [((2, 2), List.zipWith (· + ·) amps ripple), ((2, -2), List.zipWith (· - ·) amps ripple)]),
    ("phaselm", .modesR [((2, 2), phases), ((2, -2), phases.map (- ·))]),
    ("omegalm", .modesR [((2, 2), List.zipWith (· + ·) omegas ripple), ((2, -2), List.zipWith (fun w r => r - w) omegas ripple)])]

def callP : Call ℚ (ℚ × ℚ) := { call with dataDict := dataP, precessing := .isTrue, frame := "coprecessing" }

/-- What a call is looked at for: the eccentricities. -/
def ecc (r : Option (Py (Answer ℚ (ℚ × ℚ)))) : Option (Py (Option (Val ℚ))) :=
  r.map fun x => x.map fun ans => ans.ret.get? "eccentricity"

/-- A call is looked at for its exception. -/
def err (r : Option (Py (Answer ℚ (ℚ × ℚ)))) : Option (Option Err) :=
  r.map fun x => match x with
    | .ok _ => none
    | .error e => some e

theorem call_ecc : ecc (run 60 lib call) = some (.ok (some (.array [10 / 81, 25 / 204]))) := by decide +kernel

theorem callP_ecc : ecc (run 60 lib callP) = some (.ok (some (.array [10 / 81, 25 / 204]))) := by decide +kernel

end GwEcc.RunDemo
