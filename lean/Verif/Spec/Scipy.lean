import Verif.Spec.Rescale
import Verif.Spec.NewtonianCall
import Verif.Model.Spline
import Verif.Model.FindPeaks

/-!
# Specification of a whole call whose interpolants and peaks are those of scipy
-/

namespace GwEcc.Spec

/-- The interpolants and the peak finder of the call are those of scipy, as modelled in `Model/Spline.lean` and
`Model/FindPeaks.lean`; `argsort` is the sorting of heights used by the peak finder. -/
structure ScipyLibs {K C : Type} [Field K] [LinearOrder K] [FloorRing K] (lib : Libs K C) (argsort : List K → List ℕ) : Prop where
  eval : lib.eval = scipyEval
  deriv : lib.deriv = scipyDeriv
  peaks : lib.peaks = findPeaks argsort
  filterPeaks : lib.filter.peaks = scipyFilterPeaks argsort
  filterCubic : lib.filter.cubic = interp1dCubic
  fitsPeaks : lib.fits.findPeaks = scipyFitsPeaks argsort
  scale : ∀ r : K, 0 < r → ∀ l, argsort (l.map (r * ·)) = argsort l

/-- What is assumed of the other numerical libraries: that they know nothing about units (see `LibUnitFree`). -/
structure OthersUnitFree {K C : Type} [Field K] [LinearOrder K] (lib : Libs K C) (u : Units K C) : Prop where
  wave : WaveUnitFree lib.wave u
  fit : ∀ kind t d tm,
    (∀ f, lib.filter.fit t d kind tm = .ok f → ∃ f', lib.filter.fit (t.map (newTime u.k u.c)) (d.map (u.factor kind * ·)) kind
        (newTime u.k u.c tm) = .ok f' ∧ ∀ x, f' (newTime u.k u.c x) = u.factor kind * f x) ∧
    (∀ err, lib.filter.fit t d kind tm = .error err → lib.filter.fit (t.map (newTime u.k u.c)) (d.map (u.factor kind * ·)) kind
        (newTime u.k u.c tm) = .error err)
  spectrum : ∀ kind d, lib.filter.spectrum (d.map (u.factor kind * ·)) = (lib.filter.spectrum d).map (u.factor kind * ·)
  lowpass : ∀ kind d m, lib.filter.lowpass (d.map (u.factor kind * ·)) m = (lib.filter.lowpass d m).map (u.factor kind * ·)
  pow : ∀ a b n, lib.fits.pow (u.k * a) (-n) * lib.fits.pow (u.k * b) n = lib.fits.pow a (-n) * lib.fits.pow b n
  curveFit : ∀ t0 t d p lo hi, lib.fits.curveFit (u.k * t0) (t.map (u.k * ·)) d (newTrend u.k 1 p) (newTrend u.k 1 lo)
    (newTrend u.k 1 hi) = (lib.fits.curveFit t0 t d p lo hi).map (newTrend u.k 1)
  parabola : ∀ t d, lib.fits.parabola (t.map (u.k * ·)) d = (lib.fits.parabola t d).map fun q => (u.k * q.1, q.2)
  cubic : ∀ t d x, lib.fits.cubic (t.map (u.k * ·)) d (u.k * x) = lib.fits.cubic t d x
  pi : 0 < lib.wave.pi
  tol : 0 ≤ lib.tol
  eccOf : ∀ wp wa, lib.eccOf (newFreq u.k wp) (newFreq u.k wa) = lib.eccOf wp wa
  rational : ∀ kw d x y,
    (∀ f, lib.rational kw d x y = .ok f → ∃ f', lib.rational kw d (x.map (newTime u.k u.c))
        (y.map (newFreq u.k)) = .ok f' ∧ ∀ p, f' (newTime u.k u.c p) = (f p).map (newFreq u.k)) ∧
    (∀ err, lib.rational kw d x y = .error err → lib.rational kw d (x.map (newTime u.k u.c))
        (y.map (newFreq u.k)) = .error err)
  argsort : ∀ l, lib.argsort (l.map (newTime u.k u.c)) = lib.argsort l
  argsortRange : ∀ l, ∀ i ∈ lib.argsort l, i < l.length

end GwEcc.Spec
