import Verif.Lemmas.UnitsMeasure
import Verif.Lemmas.MeasureDemo
import Verif.Model.Ecc

/-!
# C14: the answer does not depend on the unit or the origin of time
-/

set_option linter.unusedSectionVars false

namespace GwEcc

open Spec

section
variable {K : Type} [Field K] [LinearOrder K] [IsStrictOrderedRing K] [FloorRing K]

/-- Measuring the same waveform in another unit and from another origin of time, with the reference points converted,
gives the same eccentricities and mean anomalies (and the same failures), and the same reference points converted.
`UnitFree` and `FindsSamples` are about the routines of scipy and numpy; the last hypothesis is needed because the end of
the quasicircular frequency series is compared with an absolute tolerance. -/
theorem C14_time_units (e : Ext K) (o : Obj K) (k c : K) (hk : 0 < k) (hu : UnitFree e k c) (hf : FindsSamples e o)
    (hz : o.avgMethod ≠ "omega_gw_zeroecc" ∨ e.tol = 0) :
    (measureEcc e (newObj k c o) none).map (·.1) = (measureEcc e o none).map (fun r => newResult k c o.domain r.1) :=
  PyRel.map_eq (measureEcc_rel hk c hu.base hu.ratFit o hf hz)

end

/-- The eccentricity formula itself depends on the ratio of the frequencies only: it meets `UnitFree.eccOf`. -/
theorem C14_ratio (k wp wa : ℝ) (hk : 0 < k) :
    eccFromOmega (newFreq k wp) (newFreq k wa) = eccFromOmega wp wa := by
  unfold eccFromOmega eOmega newFreq
  rw [Real.sqrt_div' _ hk.le, Real.sqrt_div' _ hk.le, ← sub_div, ← add_div,
    div_div_div_cancel_right₀ (Real.sqrt_pos.mpr hk).ne']

/-! ### The hypotheses are met -/

namespace Demo

theorem npInterp_affine {k c k' c' : ℚ} (hk : 0 < k) (x : ℚ) : ∀ l : List (ℚ × ℚ),
    npInterp (k * x + c) (l.map fun q => (k * q.1 + c, k' * q.2 + c')) = (npInterp x l).map (fun y => k' * y + c')
  | [] => rfl
  | [q] => rfl
  | q0 :: q1 :: l => by
    have ih := npInterp_affine (c := c) (k' := k') (c' := c') hk x (q1 :: l)
    simp only [List.map_cons] at ih ⊢
    unfold npInterp
    rw [ih]
    simp only [add_le_add_iff_right, mul_le_mul_iff_right₀ hk, add_lt_add_iff_right, mul_lt_mul_iff_right₀ hk]
    split
    · rfl
    · split
      · simp only [Except.map, Except.ok.injEq]
        by_cases h : q1.1 - q0.1 = 0
        · have : k * q1.1 + c - (k * q0.1 + c) = 0 := by linear_combination k * h
          rw [this, h]; ring
        · have hk' := hk.ne'
          have e1 : k * q1.1 + c - (k * q0.1 + c) = k * (q1.1 - q0.1) := by ring
          have e2 : k * x + c - (k * q0.1 + c) = k * (x - q0.1) := by ring
          rw [e1, e2]
          field_simp
          ring
      · rfl

theorem zip_maps (f g : ℚ → ℚ) (x y : List ℚ) : (x.map f).zip (y.map g) = (x.zip y).map fun q => (f q.1, g q.2) := by
  rw [List.zip_map]; rfl

theorem insertIdx_lt {l : List ℚ} {n i : ℕ} (hi : i < n) : ∀ {r : List ℕ}, (∀ j ∈ r, j < n) →
    ∀ j ∈ insertIdx l i r, j < n
  | [], _ => by simpa [insertIdx] using hi
  | a :: r, h => by
    unfold insertIdx
    split
    · simpa using ⟨hi, h a (by simp), fun j hj => h j (by simp [hj])⟩
    · intro j hj
      rcases List.mem_cons.mp hj with rfl | hj
      · exact h _ (by simp)
      · exact insertIdx_lt hi (fun j hj => h j (by simp [hj])) j hj

theorem getD_map_lt (s : ℚ → ℚ) {l : List ℚ} {i : ℕ} (h : i < l.length) : (l.map s).getD i 0 = s (l.getD i 0) := by
  simp [List.getD_eq_getElem?_getD, List.getElem?_eq_getElem h]

theorem insertIdx_map {s : ℚ → ℚ} (hs : ∀ x y, s x < s y ↔ x < y) {l : List ℚ} {i : ℕ} (hi : i < l.length) :
    ∀ {r : List ℕ}, (∀ j ∈ r, j < l.length) → insertIdx (l.map s) i r = insertIdx l i r
  | [], _ => rfl
  | a :: r, h => by
    unfold insertIdx
    rw [getD_map_lt s hi, getD_map_lt s (h a (by simp)), insertIdx_map hs hi (fun j hj => h j (by simp [hj]))]
    simp only [hs]

theorem argsort_aux {s : ℚ → ℚ} (hs : ∀ x y, s x < s y ↔ x < y) (l : List ℚ) : ∀ (is acc : List ℕ),
    (∀ j ∈ is, j < l.length) → (∀ j ∈ acc, j < l.length) →
    is.foldl (fun acc i => insertIdx (l.map s) i acc) acc = is.foldl (fun acc i => insertIdx l i acc) acc ∧
    ∀ j ∈ is.foldl (fun acc i => insertIdx l i acc) acc, j < l.length
  | [], acc, _, ha => ⟨rfl, ha⟩
  | i :: is, acc, hi, ha => by
    have h0 := hi i (by simp)
    simp only [List.foldl_cons]
    rw [insertIdx_map hs h0 ha]
    exact argsort_aux hs l is _ (fun j hj => hi j (by simp [hj])) (insertIdx_lt h0 ha)

/-- Linear interpolation and the other stand-ins of `Demo.ext` do not depend on the units. -/
theorem unitFree (k c : ℚ) (hk : 0 < k) : UnitFree ext k c := by
  have ef : newFreq k = fun w => k⁻¹ * w + 0 := by funext w; unfold newFreq; rw [div_eq_inv_mul, add_zero]
  have hlin : ∀ x y u, linear (x.map (newTime k c)) (y.map (newFreq k)) (newTime k c u)
      = (linear x y u).map (newFreq k) := by
    intro x y u
    unfold linear
    rw [zip_maps, ef]
    exact npInterp_affine hk u _
  have hlin' : ∀ x y u, linear (x.map (newFreq k)) (y.map (newTime k c)) (newFreq k u)
      = (linear x y u).map (newTime k c) := by
    intro x y u
    unfold linear
    rw [zip_maps, ef]
    exact npInterp_affine (inv_pos.mpr hk) u _
  refine ⟨by norm_num [ext], by norm_num [ext], ?_, fun _ => hlin, fun _ x y u _ _ => hlin' x y u, ?_, ?_, ?_, ?_⟩
  · intro wp wa
    show (wp / k - wa / k) / (wp / k + wa / k) = (wp - wa) / (wp + wa)
    rw [← sub_div, ← add_div, div_div_div_cancel_right₀ hk.ne']
  · intro _ x y u
    show (Except.ok 0 : Py ℚ) = (Except.ok 0 : Py ℚ).map (newFreq k)
    simp [Except.map, newFreq]
  · intro ty x y x' y'
    refine ⟨fun f hf => ⟨_, rfl, fun u => ?_⟩, fun err h => ?_⟩
    · have : f = linear (ty.pick x x') (ty.pick y y') := (Except.ok.inj hf).symm
      subst this
      cases ty with
      | pericenters => exact hlin x y u
      | apocenters => exact hlin x' y' u
    · exact absurd h (by simp [ext])
  · intro l
    show argsort _ = argsort _
    unfold argsort
    rw [List.length_map]
    exact (argsort_aux (fun x y => newTime_lt hk c) l _ _ (fun j hj => List.mem_range.mp hj) (by simp)).1
  · intro l
    exact (argsort_aux (s := id) (fun x y => Iff.rfl) l _ _ (fun j hj => List.mem_range.mp hj) (by simp)).2

theorem findsSamples : FindsSamples ext obj := by
  intro ty l h
  cases ty <;> (cases h; decide)

/-- A successful measurement in seconds and the same in hours from another origin, at frequencies and at times. -/
example : (measureEcc ext (newObj 3600 17 objF) none).map (·.1)
    = (measureEcc ext objF none).map (fun r => newResult 3600 17 .frequency r.1) :=
  C14_time_units ext objF 3600 17 (by norm_num) (unitFree _ _ (by norm_num)) findsSamples (Or.inl (by decide))

example : (measureEcc ext objF none).toOption.isSome = true := by decide +kernel

end Demo

end GwEcc
