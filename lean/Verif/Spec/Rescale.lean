import Verif.Model.Construct
import Verif.Spec.Units
import Verif.Spec.Options
import Verif.Spec.DataDict
import Verif.Spec.Fits

/-!
# Specification of a change of units of a whole call

Times are measured in another unit and from another origin, strain in another unit.  The quasicircular waveform has a time
axis of its own, whose origin may be moved independently.
-/

namespace GwEcc.Spec

/-- New units: a time `x` becomes `k * x + c` (on the quasicircular axis `k * x + c0`), an amplitude `a` becomes `s * a`,
and a complex mode `h` becomes `scale h`. -/
structure Units (K C : Type) where
  k : K
  c : K
  c0 : K
  s : K
  scale : C → C

variable {K C : Type} [Field K] [LinearOrder K]

/-- Apply a function to every number of an array. -/
def onArr (f : K → K) : Entry K C → Entry K C
  | .arr l => .arr (l.map f)
  | e => e

/-- Apply a function to every number of every real mode. -/
def onReal (f : K → K) : Entry K C → Entry K C
  | .modesR d => .modesR (d.map fun p => (p.1, p.2.map f))
  | e => e

/-- Apply a function to every number of every complex mode. -/
def onComplex (f : C → C) : Entry K C → Entry K C
  | .modesC d => .modesC (d.map fun p => (p.1, p.2.map f))
  | e => e

/-- An entry of the waveform dictionary in the new units. -/
def newEntry (u : Units K C) (key : String) : Entry K C → Entry K C :=
  if key = "t" then onArr (newTime u.k u.c)
  else if key = "t_zeroecc" then onArr (newTime u.k u.c0)
  else if key = "hlm" ∨ key = "hlm_zeroecc" then onComplex u.scale
  else if key = "amplm" ∨ key = "amplm_zeroecc" then onReal (u.s * ·)
  else if key = "omegalm" ∨ key = "omegalm_zeroecc" then onReal (newFreq u.k)
  else id

/-- The waveform dictionary in the new units. -/
def newDict (u : Units K C) (v : DataV K C) : DataV K C := v.map fun p => (p.1, newEntry u p.1 p.2)

/-- The call in the new units: waveform and reference points are converted, everything else is as before. -/
def newCall (u : Units K C) (a : Call K C) : Call K C :=
  { a with
    dataDict := newDict u a.dataDict
    trefIn := a.trefIn.map (·.map (newTime u.k u.c))
    frefIn := a.frefIn.map (·.map (newFreq u.k)) }

/-- The reference points are times if `tref_in` is given and frequencies if not. -/
def Call.domain (a : Call K C) : Domain := if a.trefIn.isSome then .time else .frequency

/-- What is assumed of the routines working on modes: conversion to amplitude, phase and back, the sum over modes and
the rotation know nothing about units. -/
structure WaveUnitFree (lib : WaveLib K C) (u : Units K C) : Prop where
  zero : u.scale lib.zero = lib.zero
  abs : ∀ l, lib.abs (l.map u.scale) = (lib.abs l).map (u.s * ·)
  phase : ∀ l, lib.phase (l.map u.scale) = lib.phase l
  polar : ∀ a p, lib.polar (a.map (u.s * ·)) p = (lib.polar a p).map (List.map u.scale)
  rotate : ∀ c t cols, lib.rotate (t.map (newTime u.k c)) (cols.map (List.map u.scale))
    = (lib.rotate t cols).map (List.map (List.map u.scale))
  total : ∀ l, lib.totalAmp (l.map (List.map (u.s * ·))) = (lib.totalAmp l).map (List.map (u.s * ·))

/-- Factor by which a data type changes. -/
def Units.factor (u : Units K C) : Filter.Kind → K
  | .amp => u.s
  | .omega => u.k⁻¹

/-- What is assumed of the routines of the spin filter: the fitted trend is the same curve in all units, the peak finder and
the Fourier transforms do not care about the scale of the data, interpolation commutes with a change of units. -/
structure FilterUnitFree (lib : Filter.FilterLib K) (u : Units K C) : Prop where
  fit : ∀ kind t d tm,
    (∀ f, lib.fit t d kind tm = .ok f → ∃ f', lib.fit (t.map (newTime u.k u.c)) (d.map (u.factor kind * ·)) kind
        (newTime u.k u.c tm) = .ok f' ∧ ∀ x, f' (newTime u.k u.c x) = u.factor kind * f x) ∧
    (∀ err, lib.fit t d kind tm = .error err → lib.fit (t.map (newTime u.k u.c)) (d.map (u.factor kind * ·)) kind
        (newTime u.k u.c tm) = .error err)
  peaks : ∀ kind d n, lib.peaks (d.map (u.factor kind * ·)) n = lib.peaks d n
  cubic : ∀ x y,
    (∀ f, lib.cubic x y = .ok f → ∃ f', lib.cubic (x.map (newTime u.k u.c)) (y.map (u.k * ·)) = .ok f' ∧
      ∀ p, f' (newTime u.k u.c p) = u.k * f p) ∧
    (∀ err, lib.cubic x y = .error err → lib.cubic (x.map (newTime u.k u.c)) (y.map (u.k * ·)) = .error err)
  spectrum : ∀ kind d, lib.spectrum (d.map (u.factor kind * ·)) = (lib.spectrum d).map (u.factor kind * ·)
  lowpass : ∀ kind d m, lib.lowpass (d.map (u.factor kind * ·)) m = (lib.lowpass d m).map (u.factor kind * ·)

/-- A fitted trend when times get the factor `k` and data the factor `r`. -/
def newTrend (k r : K) (p : Trend K) : Trend K := ⟨r * p.f0, r / k * p.f1, k * p.T⟩

/-- What is assumed of the routines of the methods based on fits when times get the factor `k` and data the factor `r`:
a ratio of two times has the same powers, and the fits and the peak finder do not care about units. -/
structure FitsUnitFree (lib : FitsLib K) (k r : K) : Prop where
  pow : ∀ a b n, lib.pow (k * a) (-n) * lib.pow (k * b) n = lib.pow a (-n) * lib.pow b n
  curveFit : ∀ t0 t d p lo hi, lib.curveFit (k * t0) (t.map (k * ·)) (d.map (r * ·)) (newTrend k r p) (newTrend k r lo)
    (newTrend k r hi) = (lib.curveFit t0 t d p lo hi).map (newTrend k r)
  findPeaks : ∀ d n x, lib.findPeaks (d.map (r * ·)) n (r * x) = lib.findPeaks d n x
  parabola : ∀ t d, lib.parabola (t.map (k * ·)) (d.map (r * ·)) = (lib.parabola t d).map fun q => (k * q.1, r * q.2)
  cubic : ∀ t d x, lib.cubic (t.map (k * ·)) d (k * x) = lib.cubic t d x

/-- Options of the peak finder that have the unit of the data are not used. -/
def NoHeights (kw : String → Option (Leaf K)) : Prop :=
  ∀ key ∈ ["height", "threshold", "prominence"], kw key = some .none

/-- What is assumed of the numerical libraries.  (The finder of peaks returns increasing sample numbers, and does not care
about the scale of the data unless heights are prescribed.) -/
structure LibUnitFree (lib : Libs K C) (u : Units K C) : Prop where
  wave : WaveUnitFree lib.wave u
  filter : FilterUnitFree lib.filter u
  fits : FitsUnitFree lib.fits u.k 1
  fitsSamples : FindsPeaks lib.fits.findPeaks
  pi : 0 < lib.wave.pi
  tol : 0 ≤ lib.tol
  eccOf : ∀ wp wa, lib.eccOf (newFreq u.k wp) (newFreq u.k wa) = lib.eccOf wp wa
  evalFreq : ∀ call x y p, lib.eval call (x.map (newTime u.k u.c)) (y.map (newFreq u.k)) (newTime u.k u.c p)
    = (lib.eval call x y p).map (newFreq u.k)
  evalAmp : ∀ call x y p, lib.eval call (x.map (newTime u.k u.c)) (y.map (u.s * ·)) (newTime u.k u.c p)
    = (lib.eval call x y p).map (u.s * ·)
  evalTime : ∀ call x y p, (∃ a ∈ x, a ≤ p) → (∃ b ∈ x, p ≤ b) →
    lib.eval call (x.map (newFreq u.k)) (y.map (newTime u.k u.c)) (newFreq u.k p) = (lib.eval call x y p).map (newTime u.k u.c)
  deriv : ∀ call x y p, lib.deriv call (x.map (newTime u.k u.c)) y (newTime u.k u.c p) = (lib.deriv call x y p).map (newFreq u.k)
  rational : ∀ kw d x y,
    (∀ f, lib.rational kw d x y = .ok f → ∃ f', lib.rational kw d (x.map (newTime u.k u.c))
        (y.map (newFreq u.k)) = .ok f' ∧ ∀ p, f' (newTime u.k u.c p) = (f p).map (newFreq u.k)) ∧
    (∀ err, lib.rational kw d x y = .error err → lib.rational kw d (x.map (newTime u.k u.c))
        (y.map (newFreq u.k)) = .error err)
  argsort : ∀ l, lib.argsort (l.map (newTime u.k u.c)) = lib.argsort l
  argsortRange : ∀ l, ∀ i ∈ lib.argsort l, i < l.length
  peaks : ∀ kw, NoHeights kw → ∀ r : K, 0 < r → ∀ d, lib.peaks kw (d.map (r * ·)) = lib.peaks kw d
  peaksSamples : ∀ kw d l, lib.peaks kw d = .ok l → l.Pairwise (· < ·) ∧ ∀ i ∈ l, i < d.length

/-- Steps equal up to the relative part of the tolerance of `np.allclose`. -/
def EvenSteps (t : List K) : Prop := ∀ x0 x1, t[0]? = some x0 → t[1]? = some x1 →
  ∀ i x y, t[i]? = some x → t[i + 1]? = some y → |y - x - (x1 - x0)| ≤ 1 / 10 ^ 5 * |x1 - x0|

/-- One sample of each mode at each time, also after the conversion to amplitude and phase and the rotation. -/
structure OneSampleEach (lib : WaveLib K C) (v : DataV K C) : Prop where
  proper : ProperDicts v
  real : ∀ key ∈ ["amplm", "phaselm", "omegalm"], ∀ t k l, array v "t" = some t → realMode v key k = some l → l.length = t.length
  complex : ∀ t k l, array v "t" = some t → complexMode v "hlm" k = some l →
    (lib.abs l).length = t.length ∧ (lib.phase l).length = t.length
  rotate : ∀ t cols cols', lib.rotate t cols = .ok cols' → ∀ l ∈ cols',
    (lib.abs l).length ≤ t.length ∧ (lib.phase l).length ≤ t.length
  polar : ∀ a p h, lib.polar a p = .ok h → (lib.abs h).length ≤ a.length ∧ (lib.phase h).length ≤ a.length

/-- The call does not contain numbers in the old units besides waveform and reference points, and does nothing known to
depend on the units: heights of peaks are not prescribed, a short segment is not selected by frequency, the method is based on
peaks or on fits of the amplitude without refinement, steps are even, and the quasicircular average (whose range is checked with an absolute tolerance) is not asked for. -/
structure UnitFreeCall (lib : Libs K C) (a : Call K C) : Prop where
  method : a.method ≠ "FrequencyFits"
  refine : a.method = "AmplitudeFits" → ∀ x, inForce extraDefaults a.extra "refine_extrema" = some x → x.truth = false
  peaks : ∀ d, (a.extra.getD []).get? "extrema_finding_kwargs" = some (.dict d) →
    ∀ key ∈ ["height", "threshold", "prominence"], d.get? key = none ∨ d.get? key = some .none
  segment : a.trefIn.isSome = true ∨ ∀ x, inForce extraDefaults a.extra "use_only_these_many_orbits" = some x → x.truth = false
  average : lib.tol = 0 ∨
    inForce extraDefaults a.extra "omega_gw_averaging_method" ≠ some (.leaf (.str "omega_gw_zeroecc"))
  steps : ∀ key ∈ ["t", "t_zeroecc"], ∀ t, array a.dataDict key = some t → EvenSteps t
  samples : OneSampleEach lib.wave a.dataDict

end GwEcc.Spec
