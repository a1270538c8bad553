import Verif.Lemmas.UnitsRun
import Verif.Lemmas.RunDemo
import Verif.Props.Units
import Verif.Props.DataDemo

/-!
# C85: a whole call in other units
-/

set_option linter.unusedSectionVars false

namespace GwEcc

open Spec

section
variable {K C : Type} [Field K] [LinearOrder K] [IsStrictOrderedRing K] [FloorRing K]

/-- A whole call with waveform and reference points given in other units of time and strain and from another origin of time
returns the same eccentricities and mean anomalies, the same reference points in the new units, or the same failure (or none
of them, if the iteration of the spin filter does not end).  The origin of time of the quasicircular waveform may be moved on its own. -/
theorem C85_units_partial (fuel : ℕ) (lib : Libs K C) (u : Units K C) (a : Call K C) (hk : 0 < u.k) (hs : 0 < u.s)
    (hl : LibUnitFree lib u) (ha : UnitFreeCall lib a) :
    (run fuel lib (newCall u a)).map (·.map (·.ret))
      = (run fuel lib a).map (·.map fun r => newResult u.k u.c (Call.domain a) r.ret) := by
  have h := run_new fuel hk hs hl ha
  revert h
  generalize run fuel lib a = x
  generalize run fuel lib (newCall u a) = y
  intro h
  cases h with
  | none => rfl
  | some h => exact congrArg some (PyRel.map_eq h)

end

/-! ### The hypotheses are met -/

namespace RescaleDemo

/-- The libraries of `RunDemo` with a rotation that returns one sample for each time and an interpolation that depends on
the values given to it. -/
def lib : Libs ℚ (ℚ × ℚ) :=
  { RunDemo.lib with
    wave := { RunDemo.lib.wave with rotate := fun t cols => .ok (cols.map (List.take t.length)) }
    fits := { RunDemo.lib.fits with curveFit := fun _ _ _ p _ _ => .ok p }
    filter := { RunDemo.lib.filter with cubic := fun _ y => .ok fun _ => y.headD 0 } }

/-- Seconds become hours from another origin, strain is measured in another unit. -/
def units : Units ℚ (ℚ × ℚ) where
  k := 1 / 3600
  c := 17
  c0 := -5
  s := 1000
  scale := fun z => (1000 * z.1, z.2)

theorem maxima_scale {r : ℚ} (hr : 0 < r) (d : List ℚ) : RunDemo.maxima (d.map (r * ·)) = RunDemo.maxima d := by
  have e : ∀ i, (d.map (r * ·)).getD i 0 = r * d.getD i 0 := by
    intro i
    simp only [List.getD_eq_getElem?_getD, List.getElem?_map]
    cases d[i]? <;> simp
  unfold RunDemo.maxima
  simp only [e, mul_lt_mul_iff_right₀ hr, List.length_map]

theorem linear_scale {k k' c c' : ℚ} (hk : 0 < k) (x y : List ℚ) (p : ℚ) :
    Demo.linear (x.map fun q => k * q + c) (y.map fun q => k' * q + c') (k * p + c)
      = (Demo.linear x y p).map fun q => k' * q + c' := by
  unfold Demo.linear
  rw [Demo.zip_maps]
  exact Demo.npInterp_affine hk p _

theorem factor_pos (kind : Filter.Kind) : 0 < units.factor kind := by
  cases kind <;> norm_num [Units.factor, units]

theorem libFree : LibUnitFree lib units := by
  have hk : 0 < units.k := by norm_num [units]
  have hu := Demo.unitFree units.k units.c hk
  refine ⟨⟨?_, ?_, ?_, ?_, ?_, ?_⟩, ⟨?_, ?_, ?_, ?_, ?_⟩, ⟨?_, ?_, ?_, ?_, ?_⟩, ?_, hu.pi, hu.tol, hu.eccOf, hu.evalFreq, ?_, hu.evalTime, hu.deriv, ?_,
    hu.argsort, hu.argsortRange, ?_, ?_⟩
  · show ((1000 * 0 : ℚ), (0 : ℚ)) = (0, 0)
    norm_num
  · intro l
    show (l.map units.scale).map (·.1) = (l.map (·.1)).map (units.s * ·)
    rw [List.map_map, List.map_map]
    rfl
  · intro l
    show (l.map units.scale).map (·.2) = l.map (·.2)
    rw [List.map_map]
    rfl
  · intro a p
    show Except.ok ((a.map (units.s * ·)).zip p) = Except.ok ((a.zip p).map units.scale)
    rw [List.zip_map_left]
    rfl
  · intro c t cols
    show Except.ok ((cols.map (List.map units.scale)).map (List.take (t.map (newTime units.k c)).length))
      = Except.ok ((cols.map (List.take t.length)).map (List.map units.scale))
    rw [List.map_map, List.map_map, List.length_map]
    congr 1
    exact List.map_congr_left fun l _ => by simp only [Function.comp, List.map_take]
  · intro l
    cases l <;> rfl
  · intro kind t d tm
    refine ⟨fun f hf => ⟨fun _ => 0, rfl, fun x => ?_⟩, fun err h => nomatch h⟩
    have : f = fun _ => 0 := (Except.ok.inj hf).symm
    rw [this]
    simp
  · intro kind d n
    show Except.ok (RunDemo.maxima _) = Except.ok (RunDemo.maxima _)
    rw [maxima_scale (factor_pos kind)]
  · intro x y
    refine ⟨fun f hf => ⟨_, rfl, fun p => ?_⟩, fun err h => nomatch h⟩
    have : f = fun _ => y.headD 0 := (Except.ok.inj hf).symm
    rw [this]
    cases y <;> simp
  · intro kind d
    rfl
  · intro kind d m
    rfl
  · intro a b n
    rfl
  · intro t0 t d p lo hi
    rfl
  · intro d n x
    simp only [one_mul, List.map_id']
  · intro t d
    rfl
  · intro t d x
    rfl
  · intro d n x peaks h
    have : peaks = RunDemo.maxima d := (Except.ok.inj h).symm
    subst this
    exact ⟨(List.pairwise_lt_range).filter _, fun i hi => List.mem_range.mp (List.mem_filter.mp hi).1⟩
  · intro call x y p
    have := linear_scale (k' := units.s) (c' := 0) (c := units.c) hk x y p
    simp only [add_zero] at this
    exact this
  · intro kw d x y
    exact hu.ratFit .pericenters x y x y
  · intro kw _ r hr d
    exact congrArg Except.ok (maxima_scale hr d)
  · intro kw d l h
    cases h
    refine ⟨(List.pairwise_lt_range).filter _, fun i hi => ?_⟩
    exact List.mem_range.mp (List.mem_filter.mp hi).1

/-- Lengths of all modes and evenness of the times, as a check of the dictionary. -/
theorem samples_of {v : DataV ℚ (ℚ × ℚ)} {n : ℕ} (ht : ∀ e, v.get? "t" = some e → ∃ l, e = .arr l ∧ l.length = n)
    (hp : ProperDicts v) (hh : v.get? "hlm" = none)
    (hr : ∀ key ∈ ["amplm", "phaselm", "omegalm"], ∀ e, v.get? key = some e → ∃ d, e = .modesR d ∧ ∀ p ∈ d, p.2.length = n) :
    OneSampleEach lib.wave v := by
  refine ⟨hp, ?_, ?_, ?_, ?_⟩
  · intro key hkey t k l h1 h2
    unfold array at h1
    unfold realMode at h2
    obtain ⟨e, he, h1⟩ := Option.bind_eq_some_iff.mp h1
    obtain ⟨l', rfl, hl'⟩ := ht e he
    cases h1
    obtain ⟨e2, he2, h2⟩ := Option.bind_eq_some_iff.mp h2
    obtain ⟨d, rfl, hd⟩ := hr key hkey e2 he2
    obtain ⟨d', hd', h2⟩ := Option.bind_eq_some_iff.mp h2
    cases hd'
    rw [hl']
    exact hd _ (mem_of_get? h2)
  · intro t k l _ h2
    unfold complexMode at h2
    rw [hh] at h2
    cases h2
  · intro t cols cols' h l hl
    have : cols' = cols.map (List.take t.length) := (Except.ok.inj h).symm
    subst this
    obtain ⟨x, _, rfl⟩ := List.mem_map.mp hl
    constructor
    · show ((x.take t.length).map (·.1)).length ≤ _
      simp
    · show ((x.take t.length).map (·.2)).length ≤ _
      simp
  · intro a p h hh
    have : h = a.zip p := (Except.ok.inj hh).symm
    subst this
    constructor
    · show ((a.zip p).map (·.1)).length ≤ _
      simp
    · show ((a.zip p).map (·.2)).length ≤ _
      simp

theorem evenTimes : EvenSteps RunDemo.times := by
  intro x0 x1 h0 h1 i x y hx hy
  have e : ∀ (j : ℕ) (z : ℚ), RunDemo.times[j]? = some z → z = (j : ℚ) := by
    intro j z hz
    unfold RunDemo.times at hz
    rw [List.getElem?_map] at hz
    obtain ⟨m, hm, rfl⟩ := Option.map_eq_some_iff.mp hz
    rw [List.getElem?_range (by
      have := (List.getElem?_eq_some_iff.mp hm).1
      simpa using this)] at hm
    cases hm
    rfl
  rw [e _ _ h0, e _ _ h1, e _ _ hx, e _ _ hy]
  norm_num

/-- Options of the methods based on fits. -/
def fitsCall (method : String) (refine : Bool) : Call ℚ (ℚ × ℚ) :=
  { RunDemo.call with
    method := method
    extra := some [("refine_extrema", .leaf (.bool refine)),
      ("kwargs_for_fits_methods", .dict [("num_orbits", .int 2), ("num_orbits_for_global_fit", .int 2)])] }

theorem callFree {v : DataV ℚ (ℚ × ℚ)} (hs : OneSampleEach lib.wave v) (ht : v.get? "t" = some (.arr RunDemo.times))
    (hz : v.get? "t_zeroecc" = none) (pr : Flag) (frame : String) :
    UnitFreeCall lib { RunDemo.call with dataDict := v, precessing := pr, frame := frame } := by
  refine ⟨?_, ?_, ?_, .inl rfl, .inr ?_, ?_, hs⟩
  · show RunDemo.call.method ≠ _
    decide
  · show RunDemo.call.method = _ → _
    intro h
    exact absurd h (by decide)
  · intro d h
    cases h
  · show inForce extraDefaults RunDemo.call.extra _ ≠ _
    decide
  · intro key hkey t h
    simp only [List.mem_cons, List.not_mem_nil, or_false] at hkey
    unfold array at h
    rcases hkey with rfl | rfl
    · rw [show (_ : DataV ℚ (ℚ × ℚ)).get? "t" = _ from ht] at h
      cases h
      exact evenTimes
    · rw [show (_ : DataV ℚ (ℚ × ℚ)).get? "t_zeroecc" = _ from hz] at h
      cases h

theorem data_samples : OneSampleEach lib.wave RunDemo.data := by
  refine samples_of (n := 24) ?_ ?_ rfl ?_
  · intro e h
    cases h
    exact ⟨_, rfl, rfl⟩
  · apply DataDemo.proper_of_list
    intro p hp
    simp only [RunDemo.data, List.mem_cons, List.not_mem_nil, or_false] at hp
    rcases hp with rfl | rfl | rfl | rfl <;>
      exact ⟨fun d hd => by cases hd <;> decide +kernel, fun d hd => by cases hd⟩
  · intro key hkey e h
    simp only [List.mem_cons, List.not_mem_nil, or_false] at hkey
    rcases hkey with rfl | rfl | rfl <;> cases h <;> exact ⟨_, rfl, by decide +kernel⟩

theorem dataP_samples : OneSampleEach lib.wave RunDemo.dataP := by
  refine samples_of (n := 24) ?_ ?_ rfl ?_
  · intro e h
    cases h
    exact ⟨_, rfl, rfl⟩
  · apply DataDemo.proper_of_list
    intro p hp
    simp only [RunDemo.dataP, List.mem_cons, List.not_mem_nil, or_false] at hp
    rcases hp with rfl | rfl | rfl | rfl <;>
      exact ⟨fun d hd => by cases hd <;> decide +kernel, fun d hd => by cases hd⟩
  · intro key hkey e h
    simp only [List.mem_cons, List.not_mem_nil, or_false] at hkey
    rcases hkey with rfl | rfl | rfl <;> cases h <;> exact ⟨_, rfl, by decide +kernel⟩

/-- A system that does not precess … -/
example : (run 60 lib (newCall units RunDemo.call)).map (·.map (·.ret))
    = (run 60 lib RunDemo.call).map (·.map fun r => newResult units.k units.c .time r.ret) :=
  C85_units_partial 60 lib units RunDemo.call (by norm_num [units]) (by norm_num [units]) libFree
    (callFree data_samples rfl rfl RunDemo.call.precessing RunDemo.call.frame)

/-- … and one that does, whose data pass through the spin filter. -/
example : (run 60 lib (newCall units RunDemo.callP)).map (·.map (·.ret))
    = (run 60 lib RunDemo.callP).map (·.map fun r => newResult units.k units.c .time r.ret) :=
  C85_units_partial 60 lib units RunDemo.callP (by norm_num [units]) (by norm_num [units]) libFree
    (callFree dataP_samples rfl rfl .isTrue "coprecessing")

/-- The search by fits of the amplitude. -/
theorem fitsFree : UnitFreeCall lib (fitsCall "AmplitudeFits" false) := by
  have h := callFree data_samples rfl rfl RunDemo.call.precessing RunDemo.call.frame
  refine ⟨by decide, ?_, ?_, .inl rfl, .inr (by decide), h.steps, h.samples⟩
  · intro _ x hx
    have : x = .leaf (.bool false) := (Option.some.inj (show some (Opt.leaf (.bool false)) = some x from hx)).symm
    rw [this]
    rfl
  · intro d h
    cases h

example : (run 60 lib (newCall units (fitsCall "AmplitudeFits" false))).map (·.map (·.ret))
    = (run 60 lib (fitsCall "AmplitudeFits" false)).map (·.map fun r => newResult units.k units.c .time r.ret) :=
  C85_units_partial 60 lib units _ (by norm_num [units]) (by norm_num [units]) libFree fitsFree

/-- The three calls succeed. -/
example : RunDemo.ecc (run 60 lib RunDemo.call) = some (.ok (some (.array [10 / 81, 25 / 204]))) ∧
    RunDemo.ecc (run 60 lib RunDemo.callP) = some (.ok (some (.array [10 / 81, 25 / 204]))) ∧
    RunDemo.ecc (run 60 lib (fitsCall "AmplitudeFits" false)) = some (.ok (some (.array [10 / 81, 25 / 204]))) := by
  decide +kernel

/-- Times with a step that is twice as long as the others. -/
def unevenCall : Call ℚ (ℚ × ℚ) :=
  { RunDemo.call with
    dataDict := ("t", .arr (RunDemo.times.map fun x => if x < 1 then x - 1 else x)) :: RunDemo.data.tail }

def tinyUnit : Units ℚ (ℚ × ℚ) := { units with k := 1 / 10 ^ 9 }

def hugeUnit : Units ℚ (ℚ × ℚ) := { units with k := 10 ^ 12 }

/-- The waveform of `RunDemo` with five more orbits. -/
def longTimes : List ℚ := (List.range 44).map fun i : ℕ => (i : ℚ)

def longWiggle : List ℚ := (List.range 44).map fun i : ℕ =>
  if i < 39 then (i : ℚ) / 50 + (if i % 4 = 2 then 1 else if i % 4 = 0 then -1 else 0) else 10 - (42 - (i : ℚ)) ^ 2

def longPhases : List ℚ := longTimes.map fun x => 4 * x + x ^ 2 / 100

def longData : DataV ℚ (ℚ × ℚ) :=
  [("t", .arr longTimes), ("amplm", .modesR [((2, 2), longWiggle.map (5 + ·)), ((2, -2), longWiggle.map (5 + ·))]),
    ("phaselm", .modesR [((2, 2), longPhases), ((2, -2), longPhases.map (- ·))]),
    ("omegalm", .modesR [((2, 2), longWiggle.map (8 + ·)), ((2, -2), longWiggle.map fun x => -(8 + x))])]

/-- Libraries whose trend fit does not succeed with fewer than six points. -/
def pickyLib : Libs ℚ (ℚ × ℚ) :=
  { lib with
    fits := { lib.fits with curveFit := fun _ t _ p _ _ => if t.length < 6 then .error .valueError else .ok p } }

theorem picky_free (k r : ℚ) (hk : 0 < k) (hr : 0 < r) : FitsUnitFree pickyLib.fits k r := by
  refine ⟨fun a b n => rfl, ?_, ?_, fun t d => rfl, fun t d x => rfl⟩
  · intro t0 t d p lo hi
    show (if (t.map (k * ·)).length < 6 then _ else _) = Except.map _ (if t.length < 6 then _ else _)
    rw [List.length_map]
    split <;> rfl
  · intro d n x
    show Except.ok (RunDemo.maxima _) = Except.ok (RunDemo.maxima _)
    rw [maxima_scale hr]

end RescaleDemo

/-- The hypothesis on the time steps cannot be dropped: steps are compared with an absolute tolerance of 1e-8, so a waveform
whose first step is twice the others is rejected in one unit of time and measured in another.  (The libraries of this run
meet `LibUnitFree`, and the call all other hypotheses of `C85_units_partial`.) -/
theorem C85_steps_violation :
    RunDemo.err (run 60 RescaleDemo.lib RescaleDemo.unevenCall) = some (some .exception) ∧
    RunDemo.err (run 60 RescaleDemo.lib (newCall RescaleDemo.tinyUnit RescaleDemo.unevenCall)) = some none := by
  decide +kernel

/-- Refinement of extrema cannot be admitted for `AmplitudeFits`: the interval of the local fit is 0.05 divided by the
amplitude (which has no unit), taken for a time.  In seconds too few samples lie in it for the local fit to be made; in hours it
is made (and fails here). -/
theorem C85_refine_violation :
    RunDemo.err (run 60 RescaleDemo.lib (RescaleDemo.fitsCall "AmplitudeFits" true)) = some none ∧
    RunDemo.err (run 60 RescaleDemo.lib (newCall RescaleDemo.units (RescaleDemo.fitsCall "AmplitudeFits" true)))
      = some (some .valueError) := by
  decide +kernel

/-- `FrequencyFits` cannot be admitted: its iteration ends when the frequencies at the extrema change by less than 1e-8 in
whatever unit they are.  In a large unit of time it ends at once; here another pass would make a local fit, which fails. -/
theorem C85_tolerance_violation :
    RunDemo.err (run 60 RescaleDemo.pickyLib
      { RescaleDemo.fitsCall "FrequencyFits" false with dataDict := RescaleDemo.longData }) = some (some .valueError) ∧
    RunDemo.err (run 60 RescaleDemo.pickyLib (newCall RescaleDemo.hugeUnit
      { RescaleDemo.fitsCall "FrequencyFits" false with dataDict := RescaleDemo.longData })) = some none := by
  decide +kernel

end GwEcc
