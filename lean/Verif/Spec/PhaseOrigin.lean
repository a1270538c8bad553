import Verif.Spec.Rescale

/-!
# Specification of a rotation of the source about its axis

Turning the source by an angle `φ` multiplies the mode `(ℓ, m)` by `e^{-i m φ}`, that is, adds a constant to its phase.  No
amplitude and no frequency changes.
-/

namespace GwEcc.Spec

/-- What the rotation does to one sample of a complex mode, and the angle added to the phase of a mode. -/
structure Turn (K C : Type) where
  num : LM → C → C
  angle : LM → K

variable {K C : Type} [Field K] [LinearOrder K]

/-- The rotated complex modes. -/
def turnComplex (u : Turn K C) : Entry K C → Entry K C
  | .modesC d => .modesC (d.map fun p => (p.1, p.2.map (u.num p.1)))
  | e => e

/-- The phases after the rotation. -/
def turnPhase (u : Turn K C) : Entry K C → Entry K C
  | .modesR d => .modesR (d.map fun p => (p.1, p.2.map (· + u.angle p.1)))
  | e => e

/-- An entry of the waveform dictionary after the rotation: `u` rotates the waveform, `u0` the quasicircular one. -/
def turnEntry (u u0 : Turn K C) (key : String) : Entry K C → Entry K C :=
  if key = "hlm" then turnComplex u
  else if key = "hlm_zeroecc" then turnComplex u0
  else if key = "phaselm" then turnPhase u
  else if key = "phaselm_zeroecc" then turnPhase u0
  else id

/-- The waveform dictionary after the rotation. -/
def turnDict (u u0 : Turn K C) (v : DataV K C) : DataV K C := v.map fun p => (p.1, turnEntry u u0 p.1 p.2)

/-- The call with the rotated waveforms; everything else is as before. -/
def turnCall (u u0 : Turn K C) (a : Call K C) : Call K C := { a with dataDict := turnDict u u0 a.dataDict }

/-- The same amplitudes, and phases that differ by a constant. -/
def SameUpToPhase (lib : WaveLib K C) (l l' : List C) : Prop :=
  lib.abs l' = lib.abs l ∧ ∃ c, lib.phase l' = (lib.phase l).map (· + c)

/-- The columns given to the rotation library, `(2, -2)` to `(2, 2)`, after the rotation of the source. -/
def turnColumns (u : Turn K C) (cols : List (List C)) : List (List C) :=
  cols.mapIdx fun i l => l.map (u.num (2, (i : ℤ) - 2))

/-- What is assumed of the routines working on modes: `u` is a rotation, its angle is what is added to the phases, and
a rotation of the source about its axis does not change its modes in the coprecessing frame, except for constants in the
phases.  The constants are those of the unwrapped phase: for modes that are not `Clear` (modes with zeros, which have no
phase, or with jumps that can be unwrapped either way) nothing is assumed. -/
structure WaveTurnFree (lib : WaveLib K C) (Clear : List C → Prop) (u : Turn K C) : Prop where
  zero : ∀ k, u.num k lib.zero = lib.zero
  same : ∀ k l, Clear l → SameUpToPhase lib l (l.map (u.num k))
  polar : ∀ k a p, lib.polar a (p.map (· + u.angle k)) = (lib.polar a p).map (List.map (u.num k))
  rotate : ∀ t cols r, lib.rotate t cols = .ok r →
    ∃ r', lib.rotate t (turnColumns u cols) = .ok r' ∧ List.Forall₂ (fun l l' => Clear l → SameUpToPhase lib l l') r r'
  rotateError : ∀ t cols err, lib.rotate t cols = .error err → lib.rotate t (turnColumns u cols) = .error err

/-- What is assumed of the numerical libraries.  (Interpolation of a phase plus a constant gives the phase plus the constant;
the finders of peaks return increasing sample numbers.) -/
structure LibTurnFree (lib : Libs K C) (Clear : List C → Prop) (u u0 : Turn K C) : Prop where
  wave : WaveTurnFree lib.wave Clear u
  wave0 : WaveTurnFree lib.wave Clear u0
  cubic : ∀ t p c x, lib.fits.cubic t (p.map (· + c)) x = (lib.fits.cubic t p x).map (· + c)
  fitsSamples : FindsPeaks lib.fits.findPeaks
  peaksSamples : ∀ kw d l, lib.peaks kw d = .ok l → l.Pairwise (· < ·) ∧ ∀ i ∈ l, i < d.length

/-- One sample of each mode at each time; the complex modes are clear, in the coprecessing frame if they are transformed to it;
in the latter case both waveforms are given in the same way (both as complex modes, or both as amplitudes and phases). -/
structure TurnFreeCall (lib : WaveLib K C) (Clear : List C → Prop) (a : Call K C) : Prop where
  samples : OneSampleEach lib a.dataDict
  rotated : ∀ t cols cols', lib.rotate t cols = .ok cols' → ∀ l ∈ cols', (lib.phase l).length = t.length
  clear : mustTransform a.precessing a.frame = false → ∀ key ∈ ["hlm", "hlm_zeroecc"], ∀ k l,
    complexMode a.dataDict key k = some l → Clear l
  transformed : mustTransform a.precessing a.frame = true → ∀ tag ∈ ["", "_zeroecc"], ∀ t H R,
    Given lib a.dataDict tag (fun k => H.get? k) → array a.dataDict ("t" ++ tag) = some t → Coprecessing lib t H R →
    ∀ k l, R.get? k = some l → Clear l
  form : mustTransform a.precessing a.frame = true →
    (a.dataDict.has "hlm" = true → a.dataDict.has "amplm_zeroecc" = false) ∧
    (a.dataDict.has "hlm" = false → a.dataDict.has "hlm_zeroecc" = false ∧
      ∀ d, a.dataDict.get? "amplm_zeroecc" = some (.modesR d) → d ≠ [])

end GwEcc.Spec
