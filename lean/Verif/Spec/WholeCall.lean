import Verif.Spec.DataDict
import Verif.Spec.Options
import Verif.Spec.Measure
import Verif.Model.Construct

/-!
# Specification of C89: where the numbers a call returns come from

Everything is stated in terms of the dictionary the caller gives: positions of samples in the caller's arrays, and the
values of the caller's arrays there.
-/

namespace GwEcc.Spec

section
variable {K C : Type} [Field K] [LinearOrder K]

/-- Times, amplitude, phase and frequency of the (2, 2) mode that the dictionary describes: amplitude and phase as given, or
of the complex mode given; frequency as given, or the finite difference derivative of the phase (see C17). -/
structure Dominant (lib : WaveLib K C) (v : DataV K C) (t A φ w : List K) : Prop where
  times : array v "t" = some t
  amplitude : (if v.has "amplm" then realMode v "amplm" (2, 2) else (complexMode v "hlm" (2, 2)).map lib.abs) = some A
  phase : (if v.has "phaselm" then realMode v "phaselm" (2, 2) else (complexMode v "hlm" (2, 2)).map lib.phase) = some φ
  given : v.has "omegalm" = true → realMode v "omegalm" (2, 2) = some w
  computed : v.has "omegalm" = false → ∃ t0 t1, t[0]? = some t0 ∧ t[1]? = some t1 ∧ timeDeriv4 φ (t1 - t0) = .ok w

/-- The values of an array at the given positions. -/
def valuesAt (l : List K) (idx : List ℕ) : List K := idx.map fun i => l.getD i 0

/-- At least two positions among `n` samples, in increasing order. -/
def Positions (n : ℕ) (idx : List ℕ) : Prop := idx.Pairwise (· < ·) ∧ 2 ≤ idx.length ∧ ∀ i ∈ idx, i < n

/-- The dictionary of options `u` given under this key of `extra_kwargs`. -/
def Suboptions (a : Call K C) (key : String) (u : Option (Kwargs K)) : Prop :=
  (inForce extraDefaults a.extra key = some (.leaf .none) ∧ u = none) ∨
    ∃ d, inForce extraDefaults a.extra key = some (.dict d) ∧ u = some d

/-- The order of splines given under this key of `extra_kwargs`, 3 if none is given (in Python `True` is 1 and `False` is 0). -/
def SplineOrder (a : Call K C) (key : String) (k : ℕ) : Prop :=
  ∃ u v, Suboptions a key u ∧ inForce splineDefaults u "k" = some v ∧
    (v = .int k ∨ (v = .bool true ∧ k = 1) ∨ (v = .bool false ∧ k = 0))

/-- The interpolation of the frequencies at the extrema that the options ask for. -/
def InterpolationMethod (a : Call K C) (name : String) : Prop :=
  inForce extraDefaults a.extra "omega_gw_extrema_interpolation_method" = some (.leaf (.str name))

/-- A curve the interpolation libraries put through the points `(x, y)`.  With the method "rational_fit", a rational fit, or a
spline of order 3 where no fit is found.  With the method "spline", a spline of the order given (lowered if there are not more
points), raising outside the points. -/
def CurveThrough (lib : Libs K C) (a : Call K C) (x y : List K) (f : K → Py K) : Prop :=
  (InterpolationMethod a "rational_fit" ∧
    ((∃ options degrees, lib.rational options degrees x y = .ok f) ∨ f = lib.eval (.spline (min 3 (x.length - 1)) 2) x y)) ∨
  (InterpolationMethod a "spline" ∧ ∃ k, SplineOrder a "special_interp_kwargs_for_omega_gw_extrema" k ∧
    f = lib.eval (.spline (min k (x.length - 1)) 2) x y)

/-- The options of the peak finder: what the caller gives in `extrema_finding_kwargs`, and otherwise the defaults, with
this width. -/
def FinderOptions (a : Call K C) (width : ℤ) (options : String → Option (Leaf K)) : Prop :=
  ∃ u, Suboptions a "extrema_finding_kwargs" u ∧ ∀ key, options key = inForce (peaksDefaults width) u key

/-- Neighbouring peaks that the peak finder, called with the options of the call, reports in a stretch of the samples `d`, as
positions in `d`. -/
def PeaksOf (lib : Libs K C) (a : Call K C) (width : ℤ) (d : List K) (idx : List ℕ) : Prop :=
  ∃ options s n reported found, FinderOptions a width options ∧ lib.peaks options ((d.drop s).take n) = .ok reported ∧
    found <:+: reported ∧ idx = found.map (s + ·)

/-- The peak finder reports positions of samples, in increasing order. -/
def PeakFinder (lib : Libs K C) : Prop :=
  ∀ options d l, lib.peaks options d = .ok l → l.Pairwise (· < ·) ∧ ∀ i ∈ l, i < d.length

/-- Strictly increasing times, and one entry per time in the other arrays. -/
def ProperArrays (t A φ w : List K) : Prop :=
  t.Pairwise (· < ·) ∧ A.length = t.length ∧ φ.length = t.length ∧ w.length = t.length

/-- The samples a call uses as pericenters and apocenters, and the curves through the frequencies there; `width` is the
default width of peaks. -/
structure Apsides (lib : Libs K C) (a : Call K C) (width : ℤ) (t A φ w : List K) (p q : List ℕ) (fP fA : K → Py K) : Prop where
  data : Dominant lib.wave a.dataDict t A φ w
  pericenters : Positions t.length p
  apocenters : Positions t.length q
  peri_curve : CurveThrough lib a (valuesAt t p) (valuesAt w p) fP
  apo_curve : CurveThrough lib a (valuesAt t q) (valuesAt w q) fA
  amplitude_peaks : a.method = "Amplitude" → PeaksOf lib a width A p
  frequency_peaks : a.method = "Frequency" → PeaksOf lib a width w p
  amplitude_troughs : a.method = "Amplitude" →
    (a.extra.getD []).get? "treat_mid_points_between_pericenters_as_apocenters" = none → PeaksOf lib a width (A.map (-·)) q
  frequency_troughs : a.method = "Frequency" →
    (a.extra.getD []).get? "treat_mid_points_between_pericenters_as_apocenters" = none → PeaksOf lib a width (w.map (-·)) q


end

end GwEcc.Spec
