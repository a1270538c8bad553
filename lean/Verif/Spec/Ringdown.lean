import Verif.Spec.WholeCall
import Verif.Spec.Rescale

/-!
# Specification of what follows the merger

The waveform cut off some samples after the merger, and what "after the merger" means.
-/

namespace GwEcc.Spec

variable {K C : Type} [Field K] [LinearOrder K]

/-- The first `n` samples of an entry. -/
def firstOf (n : ℕ) : Entry K C → Entry K C
  | .arr l => .arr (l.take n)
  | .modesR d => .modesR (d.map fun p => (p.1, p.2.take n))
  | .modesC d => .modesC (d.map fun p => (p.1, p.2.take n))
  | .other => .other

/-- The waveform dictionary with the first `n` samples of the waveform; the quasicircular waveform and everything else is kept. -/
def firstSamples (n : ℕ) (v : DataV K C) : DataV K C :=
  v.map fun p => (p.1, if p.1 ∈ ["t", "hlm", "amplm", "phaselm", "omegalm"] then firstOf n p.2 else p.2)

/-- Amplitude and (unwrapped) phase of a complex mode at a sample do not depend on later samples, nor does the total amplitude. -/
structure SampleBySample (lib : WaveLib K C) : Prop where
  abs : ∀ n l, lib.abs (l.take n) = (lib.abs l).take n
  phase : ∀ n l, lib.phase (l.take n) = (lib.phase l).take n
  total : ∀ n L ls, (∀ l ∈ ls, l.length = L) → lib.totalAmp (ls.map (·.take n)) = (lib.totalAmp ls).map (·.take n)

/-- Entries are of the documented types, with one sample of each mode at each of the `L` times. -/
structure Regular (lib : WaveLib K C) (v : DataV K C) (L : ℕ) : Prop where
  proper : ProperDicts v
  times : ∀ e, v.get? "t" = some e → ∃ t, e = .arr t ∧ t.length = L
  real : ∀ key ∈ ["amplm", "phaselm", "omegalm"], ∀ e, v.get? key = some e → ∃ d, e = .modesR d ∧ ∀ p ∈ d, p.2.length = L
  complex : ∀ e, v.get? "hlm" = some e → ∃ d, e = .modesC d ∧ ∀ p ∈ d, (lib.abs p.2).length = L ∧ (lib.phase p.2).length = L

/-- The amplitudes of all modes. -/
def amplitudes (lib : WaveLib K C) (v : DataV K C) : Option (List (List K)) :=
  match v.get? "amplm", v.get? "hlm" with
  | some (.modesR d), _ => some (d.map fun p => p.2)
  | none, some (.modesC d) => some (d.map fun p => lib.abs p.2)
  | _, _ => none

/-- The phase of a mode. -/
def phaseOf (lib : WaveLib K C) (v : DataV K C) (k : LM) : Option (List K) :=
  if v.has "phaselm" then realMode v "phaselm" k else (complexMode v "hlm" k).map lib.phase

/-- The phase the measurement is based on: that of the (2, 2) mode, for precessing systems half the difference of the phases of
(2, 2) and (2, -2). -/
def gwPhase (lib : WaveLib K C) (v : DataV K C) (precessing : Bool) : Option (List K) :=
  if precessing then do
    let p ← phaseOf lib v (2, 2)
    let q ← phaseOf lib v (2, -2)
    return List.zipWith (fun x y => 1 / 2 * (x - y)) p q
  else phaseOf lib v (2, 2)

/-- The merger is over before the last two of the first `n` samples: the waveform is nowhere louder than at one of the earlier samples, the
merger time is not later than one of them, and after the latter the phase is never below what it was before. -/
structure OverBy (lib : WaveLib K C) (v : DataV K C) (precessing : Bool) (n : ℕ) : Prop where
  enough : 5 ≤ n
  increasing : ∀ t, array v "t" = some t → n ≤ t.length ∧ t.Pairwise (· < ·)
  loudest : ∀ t A T, array v "t" = some t → amplitudes lib v = some A → lib.totalAmp A = .ok T →
    T.length = t.length ∧ ∃ i x, i + 2 < n ∧ T[i]? = some x ∧ ∀ y ∈ T, y ≤ x
  merger : ∀ t A T tM fM, array v "t" = some t → amplitudes lib v = some A → lib.totalAmp A = .ok T →
    peakTime t T = .ok (tM, fM) →
    ∃ k, k + 2 < n ∧ (∃ x, t[k]? = some x ∧ tM ≤ x) ∧
      ∀ φ, gwPhase lib v precessing = some φ → ∀ i j x y, i ≤ k → k < j → φ[i]? = some x → φ[j]? = some y → x ≤ y

end GwEcc.Spec
