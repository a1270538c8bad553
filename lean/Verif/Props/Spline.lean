import Verif.Spec.Spline
import Verif.Lemmas.SplineShape
import Verif.Lemmas.SplineUnits
import Verif.Props.WholeCall

/-!
# C115, C116, C117: interpolation with the splines of scipy
-/

set_option linter.unusedSectionVars false

namespace GwEcc

open Spec Polynomial

/-! ### Between the nodes -/

section
variable {K : Type} [Field K] [LinearOrder K] [IsStrictOrderedRing K]

theorem within_iff_side {x : List K} (hx : x ≠ []) (u : K) : Within x u ↔ side x u = .inside := by
  unfold Within side
  have h1 : x.head? = some (x.headD 0) := by
    cases x with
    | nil => exact absurd rfl hx
    | cons a l => rfl
  have h2 : x.getLast? = some (x.getLastD 0) := by
    rw [List.getLastD_eq_getLast?, List.getLast?_eq_some_getLast hx]; rfl
  constructor
  · rintro ⟨a, b, ha, hb, h3, h4⟩
    rw [h1] at ha; rw [h2] at hb
    cases ha; cases hb
    rw [if_neg (not_lt.2 h3), if_neg (not_lt.2 h4)]
  · intro h
    split_ifs at h with h3 h4
    exact ⟨_, _, h1, h2, not_lt.1 h3, not_lt.1 h4⟩

/-- `interpolate` at points within the nodes. -/
theorem interpolate_within {tol : K} (htol : 0 ≤ tol) (eval : InterpCall → List K → List K → K → Py K) {newX x y : List K}
    (ip : Interpolator) (kw : SplineKwargs) (given : Bool) (hlen : y.length = x.length) (hx : x.Pairwise (· < ·))
    (hnew : newX ≠ []) (hin : ∀ u ∈ newX, Within x u) :
    interpolate tol eval newX x y false ip kw given
      = (getInterpolant x false ip kw given >>= fun r => newX.mapM (eval r.1 x y)) := by
  have hne : x ≠ [] := by
    rintro rfl
    obtain ⟨a, l, rfl⟩ := List.exists_cons_of_ne_nil hnew
    obtain ⟨_, _, h, _⟩ := hin a (by simp)
    simp at h
  have ok : ∀ l : List K, l ≠ [] → (∃ m, npMin l = .ok m) ∧ ∃ m, npMax l = .ok m := by
    intro l hl
    cases l with
    | nil => exact absurd rfl hl
    | cons a l => exact ⟨⟨_, rfl⟩, _, rfl⟩
  obtain ⟨⟨mn, hmn⟩, Mn, hMn⟩ := ok newX hnew
  obtain ⟨⟨mo, hmo⟩, Mo, hMo⟩ := ok x hne
  unfold interpolate
  rw [if_neg (by simpa using hlen)]
  simp only [Bool.false_eq_true, if_false, hmn, hMn, hmo, hMo, ok_bind]
  rw [if_neg]
  push Not
  obtain ⟨a, _, ha, _, h3, _⟩ := hin mn (npMin_spec hmn).1
  obtain ⟨_, b, _, hb, _, h4⟩ := hin Mn (npMax_spec hMn).1
  have h5 := (npMin_spec hmo).2 a (List.mem_of_mem_head? ha)
  have h6 := (npMax_spec hMo).2 b (List.mem_of_getLast? hb)
  exact ⟨by linarith, by linarith⟩

theorem mapM_ok_map {α β : Type} {f : α → Py β} {g : α → β} :
    ∀ {l : List α}, (∀ a ∈ l, f a = .ok (g a)) → l.mapM f = .ok (l.map g)
  | [], _ => rfl
  | a :: l, h => by
    rw [List.mapM_cons, h a (by simp), mapM_ok_map fun b hb => h b (List.mem_cons_of_mem _ hb)]
    rfl

theorem getInterpolant_spline {x : List K} (hx : x.Pairwise (· < ·)) (h2 : 2 ≤ x.length) (kw : SplineKwargs) (given : Bool) :
    ∃ kw' w, getInterpolant x false .spline kw given = .ok (.spline (min kw.k (x.length - 1)) 2, kw', w) := by
  obtain ⟨⟨call, kw', w⟩, h⟩ := (C35_accepts x false .spline kw given).2 ⟨hx, by decide, fun _ => h2⟩
  obtain ⟨⟨e, rfl, he⟩, _⟩ := C35_spline_call _ _ _ _ _ _ _ h
  exact ⟨kw', w, by rw [h, he.2 rfl]⟩

end

/-! ### C115 -/

theorem splineKnots_breaks (k : ℕ) (hk : 1 ≤ k) (x : List ℝ) (hkx : k < x.length) : splineKnots k x = Breaks k x := by
  unfold Breaks
  split_ifs with h
  · refine List.ext_getElem ?_ fun i h1 h2 => ?_
    · rw [splineKnots_length, List.length_take, List.length_drop]; omega
    · rw [splineKnots_length] at h1
      have := splineKnots_getD (k := k) (x := x) h1
      rw [List.getD_eq_getElem _ _ (by rw [splineKnots_length]; exact h1), if_pos h, List.getD_eq_getElem _ _ (by omega)] at this
      rw [this, List.getElem_take, List.getElem_drop]
      congr 1
      omega
  · refine List.ext_getElem ?_ fun i h1 h2 => ?_
    · rw [splineKnots_length, List.length_take, List.length_drop, List.length_zipWith, List.length_tail]; omega
    · rw [splineKnots_length] at h1
      have := splineKnots_getD (k := k) (x := x) h1
      rw [List.getD_eq_getElem _ _ (by rw [splineKnots_length]; exact h1), if_neg h, List.getD_eq_getElem _ _ (by omega),
        List.getD_eq_getElem _ _ (by omega)] at this
      rw [this, List.getElem_take, List.getElem_drop, List.getElem_zipWith, List.getElem_tail, add_comm (x[i + k / 2 + 1]'_)]
      have e1 : k / 2 + i = i + k / 2 := by omega
      simp only [e1]

/-- Between breaks a spline is a polynomial. -/
theorem value_piece {d : ℕ} (hd : 1 ≤ d) {s : SplineFn ℝ} (hP : s.poly.degree ≤ d) {knots : List ℝ}
    (hl : s.jumps.length = knots.length) {a b : ℝ} (h : ∀ τ ∈ knots, τ ≤ a ∨ b ≤ τ) :
    ∃ P : ℝ[X], P.degree ≤ d ∧ ∀ u, a ≤ u → u ≤ b → s.value d knots u = P.eval u := by
  classical
  refine ⟨s.poly + ∑ i ∈ Finset.range knots.length, if knots.getD i 0 ≤ a then C (s.jumps.getD i 0) * (X - C (knots.getD i 0)) ^ d else 0,
    ?_, fun u h1 h2 => ?_⟩
  · refine (degree_add_le _ _).trans (max_le hP ?_)
    refine mem_degreeLE.1 (Submodule.sum_mem _ fun i _ => mem_degreeLE.2 ?_)
    split_ifs
    · refine degree_le_of_natDegree_le ((natDegree_C_mul_le _ _).trans ?_)
      rw [natDegree_pow, natDegree_X_sub_C, mul_one]
    · simp
  · rw [SplineFn.value_eq hl, eval_add, eval_finsetSum]
    congr 1
    refine Finset.sum_congr rfl fun i hi => ?_
    have hi := Finset.mem_range.1 hi
    have hm : knots.getD i 0 ∈ knots := by rw [List.getD_eq_getElem _ _ hi]; exact List.getElem_mem _
    unfold truncPow
    split_ifs with h3 h4 h4
    · simp
    · have : b ≤ knots.getD i 0 := (h _ hm).resolve_left h4
      have : u - knots.getD i 0 = 0 := by linarith
      rw [this, zero_pow (by omega)]; simp
    · linarith
    · simp

theorem head_getD {x : List ℝ} (hx : x ≠ []) : x.getD 0 0 = x.headD 0 ∧ x.getD (x.length - 1) 0 = x.getLastD 0 := by
  cases x with
  | nil => exact absurd rfl hx
  | cons a l =>
    refine ⟨rfl, ?_⟩
    rw [List.getLastD_eq_getLast?, List.getLast?_eq_some_getLast (by simp), List.getD_eq_getElem _ _ (by simp)]
    simp only [Option.getD_some]
    rw [List.getLast_eq_getElem]

theorem within_range {x : List ℝ} {u : ℝ} (h : Within x u) : x ≠ [] ∧ x.getD 0 0 ≤ u ∧ u ≤ x.getD (x.length - 1) 0 := by
  have hne : x ≠ [] := by rintro rfl; obtain ⟨_, _, h, _⟩ := h; simp at h
  obtain ⟨e1, e2⟩ := head_getD hne
  have := (within_iff_side hne u).1 h
  unfold side at this
  split_ifs at this with h1 h2
  exact ⟨hne, by rw [e1]; exact not_lt.1 h1, by rw [e2]; exact not_lt.1 h2⟩

theorem splev_within {ext : ℕ} {x : List ℝ} {u : ℝ} (h : Within x u) (f : ℝ → ℝ) : splev ext x f u = .ok (f u) := by
  have hne := (within_range h).1
  unfold splev
  rw [(within_iff_side hne u).1 h]

theorem forall₂_mem_left {α β : Type} {R : α → β → Prop} :
    ∀ {l : List α} {m : List β}, List.Forall₂ R l m → ∀ {a}, a ∈ l → ∃ b, b ∈ m ∧ R a b
  | _, _, .cons h t, a, ha => by
    rcases List.mem_cons.1 ha with rfl | ha
    · exact ⟨_, by simp, h⟩
    · obtain ⟨b, hb, hr⟩ := forall₂_mem_left t ha
      exact ⟨b, List.mem_cons_of_mem _ hb, hr⟩

section C115
variable {x y : List ℝ} {k : ℕ}

/-- Through points with increasing positions there is a spline of every order below their number. -/
theorem C115_exists (hx : x.Pairwise (· < ·)) (hlen : y.length = x.length) (hk : 1 ≤ k) (hkx : k < x.length) :
    ∃ F, IsSpline k (Breaks k x) F ∧ PassesThrough x y F := by
  obtain ⟨s, ⟨h1, h2, h3⟩, _⟩ := exists_fits hk hx hlen.symm hkx
  rw [splineKnots_breaks k hk x hkx] at h2 h3
  refine ⟨s.value k (Breaks k x), ⟨?_, fun a b h => value_piece hk h1 h2 h⟩, h3⟩
  obtain ⟨k, rfl⟩ : ∃ k', k = k' + 1 := ⟨k - 1, by omega⟩
  exact value_contDiff h2

theorem scipyEval_spline (hx : x.Pairwise (· < ·)) (hlen : y.length = x.length) (hk : 1 ≤ k) (hk5 : k ≤ 5) (hkx : k < x.length)
    {F : ℝ → ℝ} (hF : IsSpline k (Breaks k x) F) (hy : PassesThrough x y F) {ext : ℕ} (hext : ext ≤ 3) {u : ℝ} (hu : Within x u) :
    scipyEval (.spline k ext) x y u = .ok (F u) := by
  obtain ⟨s, hs, hf⟩ := fitSpline_exists (k := k) (ext := ext) hx hlen.symm hk hk5 hext hkx
  rw [← splineKnots_breaks k hk x hkx] at hF
  show (fitSpline k ext x y >>= _) = _
  rw [hs, ok_bind, splev_within hu, spline_is_value hk hx hlen.symm hkx hF hy hf (within_range hu).2.1 (within_range hu).2.2]

/-- Interpolation with "spline", at points within the nodes: the values are those of the spline of the order asked for, lowered
to one below the number of nodes, that passes through the points (there is one: `C115_exists`; only one, as this holds for any). -/
theorem C115_values {tol : ℝ} (htol : 0 ≤ tol) {kw : SplineKwargs} {given : Bool} {newX : List ℝ} (hx : x.Pairwise (· < ·))
    (h2 : 2 ≤ x.length) (hlen : y.length = x.length) (hk : 1 ≤ kw.k) (hk5 : kw.k ≤ 5) {F : ℝ → ℝ}
    (hF : IsSpline (min kw.k (x.length - 1)) (Breaks (min kw.k (x.length - 1)) x) F) (hy : PassesThrough x y F)
    (hnew : newX ≠ []) (hin : ∀ u ∈ newX, Within x u) :
    interpolate tol scipyEval newX x y false .spline kw given = .ok (newX.map F) := by
  obtain ⟨kw', w, hg⟩ := getInterpolant_spline hx h2 kw given
  rw [interpolate_within htol _ _ _ _ hlen hx hnew hin, hg, ok_bind]
  exact mapM_ok_map fun u hu => scipyEval_spline hx hlen (by omega) (by omega) (by omega) hF hy (by omega) (hin u hu)

theorem node_within (hx : x.Pairwise (· < ·)) {u : ℝ} (hu : u ∈ x) : Within x u := by
  have hne := List.ne_nil_of_mem hu
  exact (within_iff_side hne u).2 (side_inside hx ⟨u, hu, le_rfl⟩ ⟨u, hu, le_rfl⟩)

theorem passes_map {F : ℝ → ℝ} (hlen : y.length = x.length) (h : PassesThrough x y F) : x.map F = y := by
  refine List.ext_getElem (by simp [hlen]) fun i h1 h2 => ?_
  rw [List.getElem_map]
  have h1 : i < x.length := by simpa using h1
  refine h (x[i], y[i]) ?_
  have : (x.zip y)[i]'(by simp [h1, h2]) = (x[i], y[i]) := List.getElem_zip
  rw [← this]
  exact List.getElem_mem _

/-- Interpolation at the nodes gives back the data. -/
theorem C115_nodes {tol : ℝ} (htol : 0 ≤ tol) {kw : SplineKwargs} {given : Bool} (hx : x.Pairwise (· < ·))
    (h2 : 2 ≤ x.length) (hlen : y.length = x.length) (hk : 1 ≤ kw.k) (hk5 : kw.k ≤ 5) :
    interpolate tol scipyEval x x y false .spline kw given = .ok y := by
  obtain ⟨F, hF, hy⟩ := C115_exists (k := min kw.k (x.length - 1)) hx hlen (by omega) (by omega)
  rw [C115_values htol hx h2 hlen hk hk5 hF hy (by rintro rfl; simp at h2) fun u hu => node_within hx hu, passes_map hlen hy]

/-- Data that lie on a polynomial are interpolated by this polynomial, if its degree is at most the order used. -/
theorem C115_polynomial {tol : ℝ} (htol : 0 ≤ tol) {kw : SplineKwargs} {given : Bool} {newX : List ℝ} (hx : x.Pairwise (· < ·))
    (h2 : 2 ≤ x.length) (hk : 1 ≤ kw.k) (hk5 : kw.k ≤ 5) {P : ℝ[X]} (hP : P.degree ≤ (min kw.k (x.length - 1) : ℕ))
    (hy : y = x.map P.eval) (hnew : newX ≠ []) (hin : ∀ u ∈ newX, Within x u) :
    interpolate tol scipyEval newX x y false .spline kw given = .ok (newX.map P.eval) := by
  refine C115_values htol hx h2 (by rw [hy, List.length_map]) hk hk5 ⟨?_, fun a b _ => ⟨P, hP, fun u _ _ => rfl⟩⟩ ?_ hnew hin
  · have := P.contDiff_aeval (𝕜 := ℝ) (min kw.k (x.length - 1) - 1 : ℕ)
    simpa [coe_aeval_eq_eval] using this
  · subst hy
    rintro ⟨a, b⟩ hp
    rw [List.mem_iff_getElem] at hp
    obtain ⟨i, hi, e⟩ := hp
    rw [List.getElem_zip, List.getElem_map] at e
    cases e
    rfl

/-- A point outside the nodes raises; that the check before the interpolation tolerates points slightly outside does not matter. -/
theorem C115_outside {tol : ℝ} {kw : SplineKwargs} {given : Bool} {newX : List ℝ} {u : ℝ} (hu : u ∈ newX) (hout : ¬ Within x u) :
    ∃ e, interpolate tol scipyEval newX x y false .spline kw given = .error e := by
  cases h : interpolate tol scipyEval newX x y false .spline kw given with
  | error e => exact ⟨e, rfl⟩
  | ok out =>
    exfalso
    have hx := (C35_interpolate _ _ _ _ _ _ _ _ _ h).2.1
    obtain ⟨v, _, hv⟩ := forall₂_mem_left (interpolate_values h) hu
    have hv : (fitSpline _ 2 x y >>= _) = _ := hv
    obtain ⟨s, hs, hv⟩ := bind_ok hv
    have hkx := (fitSpline_ok hs).2.2.2.2.2.1
    have hne : x ≠ [] := by rintro rfl; simp at hkx
    rw [within_iff_side hne] at hout
    unfold splev at hv
    cases hs : side x u with
    | inside => exact hout hs
    | before => rw [hs] at hv; cases hv
    | after => rw [hs] at hv; cases hv

/-- In other units of nodes and data the interpolant is the same curve. -/
theorem C115_units {tol : ℝ} (htol : 0 ≤ tol) {kw : SplineKwargs} {given : Bool} {newX : List ℝ} {α r : ℝ} (hα : 0 < α) (hr : 0 < r)
    (β b : ℝ) (hx : x.Pairwise (· < ·)) (hlen : y.length = x.length) (hnew : newX ≠ []) (hin : ∀ u ∈ newX, Within x u) :
    interpolate tol scipyEval (newX.map fun u => α * u + β) (x.map fun u => α * u + β) (y.map fun v => r * v + b) false .spline kw given
      = (interpolate tol scipyEval newX x y false .spline kw given).map (List.map fun v => r * v + b) := by
  have hne : x ≠ [] := by
    obtain ⟨a, l, rfl⟩ := List.exists_cons_of_ne_nil hnew
    exact (within_range (hin a (by simp))).1
  have hx' := (pairwise_new hα β x).2 hx
  have hin' : ∀ u ∈ newX.map fun u => α * u + β, Within (x.map fun u => α * u + β) u := by
    intro u hu
    obtain ⟨v, hv, rfl⟩ := List.mem_map.1 hu
    rw [within_iff_side (by simpa using hne), side_new hα β hne, ← within_iff_side hne]
    exact hin v hv
  rw [interpolate_within htol _ _ _ _ (by simpa using hlen) hx' (by simpa using hnew) hin',
    interpolate_within htol _ _ _ _ hlen hx hnew hin]
  by_cases h2 : 2 ≤ x.length
  · obtain ⟨kw', w, hg⟩ := getInterpolant_spline hx h2 kw given
    obtain ⟨kw'', w', hg'⟩ := getInterpolant_spline hx' (by simpa using h2) kw given
    rw [hg, hg', ok_bind, ok_bind, List.length_map]
    clear hin' hnew
    induction newX with
    | nil => rfl
    | cons a l ih =>
      rw [List.map_cons, List.mapM_cons, List.mapM_cons, ih fun u hu => hin u (by simp [hu]),
        scipyEval_new hα hr β b _ x y a (.inr fun _ => (within_iff_side hne a).1 (hin a (by simp)))]
      cases scipyEval (.spline (min kw.k (x.length - 1)) 2) x y a with
      | error e => rfl
      | ok v =>
        cases l.mapM (scipyEval (.spline (min kw.k (x.length - 1)) 2) x y) with
        | error e => rfl
        | ok vs => rfl
  · have e1 : ∀ (z : List ℝ), ¬ 2 ≤ z.length → ∀ r, getInterpolant z false .spline kw given ≠ .ok r := by
      intro z hz r hr
      exact hz (((C35_accepts z false .spline kw given).1 ⟨r, hr⟩).2.2 rfl)
    have hl : ¬ 2 ≤ (x.map fun u => α * u + β).length := by simpa using h2
    have e2 : ∀ z : List ℝ, z.Pairwise (· < ·) → ¬ 2 ≤ z.length → getInterpolant z false .spline kw given = .error .exception := by
      intro z hz hz2
      unfold getInterpolant
      rw [if_neg (by rw [diff_pos_iff]; exact fun h => h hz)]
      simp only
      rw [if_neg hz2]
    rw [e2 _ hx' hl, e2 _ hx h2]
    rfl

/-- The derivative taken of the interpolant is its derivative (order two or more). -/
theorem C115_derivative (hx : x.Pairwise (· < ·)) (hlen : y.length = x.length) (hk : 2 ≤ k) (hk5 : k ≤ 5) (hkx : k < x.length)
    {F : ℝ → ℝ} (hF : IsSpline k (Breaks k x) F) (hy : PassesThrough x y F) {u : ℝ} (hu : Within x u) :
    scipyDeriv (.spline k 2) x y u = .ok (deriv F u) := by
  obtain ⟨s, hs, hf⟩ := fitSpline_exists (k := k) (ext := 2) hx hlen.symm (by omega) hk5 (by omega) hkx
  rw [← splineKnots_breaks k (by omega) x hkx] at hF
  show (fitSpline k 2 x y >>= _) = _
  rw [hs, ok_bind, splev_within hu]
  congr 1
  obtain ⟨k, rfl⟩ : ∃ k', k = k' + 2 := ⟨k - 2, by omega⟩
  have h1 := value_hasDerivAt (d := k) hf.2.1 u
  obtain ⟨_, ha, hb⟩ := within_range hu
  have hlt : x.getD 0 0 < x.getD (x.length - 1) 0 := getD_lt hx (by omega) (by omega)
  have hU := uniqueDiffOn_Icc hlt u ⟨ha, hb⟩
  have hd : DifferentiableAt ℝ F u := (hF.smooth.differentiable (by simp)).differentiableAt
  have e1 : HasDerivWithinAt F ((s.deriv (k + 1)).value (k + 1) (splineKnots (k + 2) x) u)
      (Set.Icc (x.getD 0 0) (x.getD (x.length - 1) 0)) u :=
    h1.hasDerivWithinAt.congr (fun v hv => spline_is_value (by omega) hx hlen.symm hkx hF hy hf hv.1 hv.2)
      (spline_is_value (by omega) hx hlen.symm hkx hF hy hf ha hb)
  exact hU.eq_deriv _ e1 hd.hasDerivAt.hasDerivWithinAt

/-- The premises of the theorems of this section: five points that lie on no cubic, a point between them, and a point outside. -/
example : ([0, 1, 2, 3, 4] : List ℝ).Pairwise (· < ·) ∧ 2 ≤ ([0, 1, 2, 3, 4] : List ℝ).length ∧
    ([0, 10, 1, 7, 3] : List ℝ).length = ([0, 1, 2, 3, 4] : List ℝ).length ∧ 1 ≤ ({} : SplineKwargs).k ∧ ({} : SplineKwargs).k ≤ 5 ∧
    Breaks 3 ([0, 1, 2, 3, 4] : List ℝ) = [2] ∧ Within ([0, 1, 2, 3, 4] : List ℝ) (5 / 2) ∧ ¬ Within ([0, 1, 2, 3, 4] : List ℝ) 5 ∧
    ∃ F, IsSpline 3 (Breaks 3 ([0, 1, 2, 3, 4] : List ℝ)) F ∧ PassesThrough [0, 1, 2, 3, 4] [0, 10, 1, 7, 3] F := by
  have h : ([0, 1, 2, 3, 4] : List ℝ).Pairwise (· < ·) := by norm_num
  refine ⟨h, by simp, rfl, by decide, by decide, rfl, ⟨0, 4, rfl, rfl, by norm_num, by norm_num⟩, ?_,
    C115_exists h rfl (by norm_num) (by simp)⟩
  rintro ⟨a, b, ha, hb, h1, h2⟩
  cases hb
  norm_num at h2

/-- With the default options four points on a cubic are interpolated by it. -/
example : interpolate (1 / 10 ^ 10 : ℝ) scipyEval [1 / 2] [0, 1, 2, 3] [0, 1, 8, 27] false .spline {} false = .ok [1 / 8] := by
  have := C115_polynomial (tol := 1 / 10 ^ 10) (by norm_num) (x := [0, 1, 2, 3]) (y := [0, 1, 8, 27]) (kw := {}) (given := false)
    (newX := [1 / 2]) (P := X ^ 3) (by norm_num) (by simp) (by decide) (by decide) (by simp [degree_X_pow])
    (by norm_num) (by simp) (by
      intro u hu
      simp only [List.mem_cons, List.not_mem_nil, or_false] at hu
      subst hu
      exact ⟨0, 3, rfl, rfl, by norm_num, by norm_num⟩)
  rw [this]
  norm_num

end C115

/-! ### C116 -/

section C116
variable {K : Type} [Field K] [LinearOrder K] [IsStrictOrderedRing K]

theorem pchipValue_piece {x y : List K} (hx : x.Pairwise (· < ·)) {i : ℕ} (hi : i + 1 < x.length) {u : K}
    (h1 : x.getD i 0 ≤ u) (h2 : u ≤ x.getD (i + 1) 0) : pchipValue x y u = pchipPiece x y i u := by
  have hlt := pchipInterval_lt (x := x) (by omega) u
  obtain ⟨h3, h4⟩ := pchipInterval_spec (x := x) (by omega) ((getD_le hx (Nat.zero_le i) (by omega)).trans h1)
  have h5 := h4 i hi h1
  show pchipPiece x y (pchipInterval x u) u = _
  rcases h5.lt_or_eq with h | h
  · have h6 : x.getD (i + 1) 0 ≤ x.getD (pchipInterval x u) 0 := getD_le hx h (by omega)
    have h7 : u = x.getD (i + 1) 0 := le_antisymm h2 (h6.trans h3)
    have h8 : pchipInterval x u = i + 1 := by
      rcases (show i + 1 ≤ pchipInterval x u from h).lt_or_eq with h8 | h8
      · have := getD_lt hx h8 (by omega)
        rw [← h7] at this
        exact absurd h3 (not_le.2 this)
      · exact h8.symm
    rw [h8]
    unfold pchipPiece
    rw [h7, hermite_left, hermite_right (getD_lt hx (Nat.lt_succ_self i) hi)]
  · rw [← h]

theorem pchipPiece_ends {x y : List K} (hx : x.Pairwise (· < ·)) {i : ℕ} (hi : i + 1 < x.length) :
    pchipPiece x y i (x.getD i 0) = y.getD i 0 ∧ pchipPiece x y i (x.getD (i + 1) 0) = y.getD (i + 1) 0 :=
  ⟨hermite_left _ _ _ _ _ _, hermite_right (getD_lt hx (Nat.lt_succ_self i) hi) _ _ _ _⟩

theorem pchip_follows {tol : K} (htol : 0 ≤ tol) {x y : List K} (hx : x.Pairwise (· < ·)) (h2 : 2 ≤ x.length)
    (hlen : y.length = x.length) : PassesThrough x y (pchipValue x y) ∧ FollowsPoints x y (pchipValue x y) ∧
      ∀ (kw : SplineKwargs) (given : Bool) (newX : List K), newX ≠ [] → (∀ u ∈ newX, Within x u) →
        interpolate tol scipyEval newX x y false .monotonicSpline kw given = .ok (newX.map (pchipValue x y)) := by
  refine ⟨?_, ?_, fun kw given newX hnew hin => ?_⟩
  · rintro ⟨a, b⟩ hp
    obtain ⟨i, hi, e⟩ := List.mem_iff_getElem.1 hp
    rw [List.getElem_zip] at e
    cases e
    have hi' : i < x.length := by simp at hi; exact hi.1
    show pchipValue x y x[i] = y[i]
    have hxi : x[i] = x.getD i 0 := (List.getD_eq_getElem _ _ hi').symm
    have hyi : y[i] = y.getD i 0 := (List.getD_eq_getElem _ _ _).symm
    rw [hxi, hyi]
    by_cases h : i + 1 < x.length
    · rw [pchipValue_piece hx h le_rfl (getD_lt hx (Nat.lt_succ_self i) h).le, (pchipPiece_ends hx h).1]
    · obtain ⟨j, rfl⟩ : ∃ j, i = j + 1 := ⟨i - 1, by omega⟩
      rw [pchipValue_piece hx hi' (getD_lt hx (Nat.lt_succ_self j) hi').le le_rfl, (pchipPiece_ends hx hi').2]
  · intro i x₀ x₁ y₀ y₁ hx₀ hx₁ hy₀ hy₁ u v hu huv hv
    obtain ⟨hi, e1⟩ := List.getElem?_eq_some_iff.1 hx₁
    have g : ∀ {l : List K} {j : ℕ} {a : K}, l[j]? = some a → l.getD j 0 = a := fun h => by
      rw [List.getD_eq_getElem?_getD, h]; rfl
    rw [← g hx₀] at hu; rw [← g hx₁] at hv
    have hends := pchipPiece_ends (y := y) hx hi
    rw [pchipValue_piece hx hi hu (huv.trans hv), pchipValue_piece hx hi (hu.trans huv) hv, ← g hy₀, ← g hy₁]
    have m := pchipPiece_mono (y := y) hx hi hu huv hv
    have a := pchipPiece_mono (y := y) hx hi le_rfl hu (huv.trans hv)
    have b := pchipPiece_mono (y := y) hx hi (hu.trans huv) hv le_rfl
    rw [hends.1] at a; rw [hends.2] at b
    exact ⟨fun h => ⟨a.1 h, m.1 h, b.1 h⟩, fun h => ⟨b.2 h, m.2 h, a.2 h⟩⟩
  · have hg : getInterpolant x false .monotonicSpline kw given = .ok (.pchip false, kw, given) := by
      unfold getInterpolant
      rw [if_neg (by rw [diff_pos_iff]; exact fun h => h hx)]
    rw [interpolate_within htol _ _ _ _ hlen hx hnew hin, hg, ok_bind]
    refine mapM_ok_map fun u hu => ?_
    have hne : x ≠ [] := by rintro rfl; simp at h2
    show pchipEval false x y u = _
    unfold pchipEval
    rw [if_neg (by push Not; exact ⟨hx, h2, hlen.symm⟩), if_pos (.inl ((within_iff_side hne u).1 (hin u hu)))]

/-- Interpolation with "monotonic_spline" at points within the nodes, for any data: the curve passes through the points, and
between neighbouring points it rises if they rise and falls if they fall. -/
theorem C116_follows {tol : K} (htol : 0 ≤ tol) {x y : List K} (hx : x.Pairwise (· < ·)) (h2 : 2 ≤ x.length)
    (hlen : y.length = x.length) :
    ∃ F, PassesThrough x y F ∧ FollowsPoints x y F ∧
      ∀ (kw : SplineKwargs) (given : Bool) (newX : List K), newX ≠ [] → (∀ u ∈ newX, Within x u) →
        interpolate tol scipyEval newX x y false .monotonicSpline kw given = .ok (newX.map F) :=
  ⟨pchipValue x y, pchip_follows htol hx h2 hlen⟩

/-- A curve that follows points that rise, rises from the first to the last. -/
theorem follows_mono {x y : List K} {F : K → K} (hx : x.Pairwise (· < ·)) (hlen : y.length = x.length) (h2 : 2 ≤ x.length)
    (hF : FollowsPoints x y F) (hy : y.Pairwise (· ≤ ·)) {u v : K} (hu : Within x u) (hv : Within x v) (huv : u ≤ v) : F u ≤ F v := by
  have hne : x ≠ [] := by rintro rfl; simp at h2
  have side1 : ∀ u, Within x u → x.getD 0 0 ≤ u ∧ u ≤ x.getD (x.length - 1) 0 := by
    intro u hu
    obtain ⟨a, b, ha, hb, h3, h4⟩ := hu
    refine ⟨?_, ?_⟩
    · rw [List.getD_eq_getElem?_getD, ← List.head?_eq_getElem?, ha]; exact h3
    · rw [List.getD_eq_getElem?_getD, ← List.getLast?_eq_getElem?, hb]; exact h4
  have get : ∀ (l : List K) {j : ℕ}, j < l.length → l[j]? = some (l.getD j 0) := by
    intro l j hj
    rw [List.getElem?_eq_getElem hj, List.getD_eq_getElem _ _ hj]
  have hyy : ∀ {i j : ℕ}, i ≤ j → j < y.length → y.getD i 0 ≤ y.getD j 0 := by
    intro i j hij hj
    rcases hij.lt_or_eq with h | rfl
    · rw [List.getD_eq_getElem _ _ (h.trans hj), List.getD_eq_getElem _ _ hj]
      exact List.pairwise_iff_getElem.1 hy i j _ _ h
    · exact le_rfl
  have loc : ∀ u, Within x u → ∃ i, i + 1 < x.length ∧ x.getD i 0 ≤ u ∧ u ≤ x.getD (i + 1) 0 := by
    intro u hu
    have hlt := pchipInterval_lt (x := x) h2 u
    obtain ⟨h3, h4⟩ := pchipInterval_spec h2 (side1 u hu).1
    refine ⟨_, hlt, h3, ?_⟩
    by_contra hc
    rw [not_le] at hc
    by_cases h5 : pchipInterval x u + 1 + 1 < x.length
    · have := h4 _ h5 hc.le
      omega
    · have := (side1 u hu).2
      rw [show x.length - 1 = pchipInterval x u + 1 by omega] at this
      exact absurd hc (not_lt.2 this)
  obtain ⟨i, hi, hi1, hi2⟩ := loc u hu
  obtain ⟨j, hj, hj1, hj2⟩ := loc v hv
  have step : ∀ i, i + 1 < x.length → ∀ u v, x.getD i 0 ≤ u → u ≤ v → v ≤ x.getD (i + 1) 0 →
      y.getD i 0 ≤ F u ∧ F u ≤ F v ∧ F v ≤ y.getD (i + 1) 0 := fun i hi u v h1 h2 h3 =>
    (hF i _ _ _ _ (get x (by omega)) (get x hi) (get y (by omega)) (get y (by omega)) u v h1 h2 h3).1 (hyy (by omega) (by omega))
  rcases lt_trichotomy i j with h | h | h
  · have a := (step i hi u u hi1 le_rfl hi2).2.2
    have b := (step j hj v v hj1 le_rfl hj2).1
    exact a.trans ((hyy (by omega) (by omega)).trans b)
  · subst h
    exact (step i hi u v hi1 huv hj2).2.1
  · have h3 : x.getD (j + 1) 0 ≤ x.getD i 0 := getD_le hx h (by omega)
    have : u = v := le_antisymm huv (hj2.trans (h3.trans hi1))
    rw [this]

/-- Data that rise give a curve that rises everywhere, and stays within the data. -/
theorem C116_monotone {tol : K} (htol : 0 ≤ tol) {x y newX out : List K} {kw : SplineKwargs} {given : Bool}
    (hx : x.Pairwise (· < ·)) (h2 : 2 ≤ x.length) (hlen : y.length = x.length) (hy : y.Pairwise (· ≤ ·))
    (hin : ∀ u ∈ newX, Within x u) (hsorted : newX.Pairwise (· ≤ ·))
    (hout : interpolate tol scipyEval newX x y false .monotonicSpline kw given = .ok out) :
    out.Pairwise (· ≤ ·) := by
  obtain ⟨F, _, h3, h4⟩ := C116_follows htol hx h2 hlen
  have hne : newX ≠ [] := by
    rintro rfl
    unfold interpolate at hout
    rw [if_neg (by simpa using hlen)] at hout
    cases hout
  rw [h4 kw given newX hne hin] at hout
  cases hout
  rw [List.pairwise_map]
  refine hsorted.imp_of_mem fun ha hb h => follows_mono hx hlen h2 h3 hy (hin _ ha) (hin _ hb) h

/-- The premises of `C116_follows` and `C116_monotone`: points that rise, and an interpolation that succeeds. -/
example : ([0, 1, 3] : List ℚ).Pairwise (· < ·) ∧ ([0, 2, 3] : List ℚ).Pairwise (· ≤ ·) ∧
    (∀ u ∈ ([1 / 2, 2] : List ℚ), Within [0, 1, 3] u) ∧ ([1 / 2, 2] : List ℚ).Pairwise (· ≤ ·) ∧
    interpolate (1 / 10 ^ 10 : ℚ) scipyEval [1 / 2, 2] [0, 1, 3] [0, 2, 3] false .monotonicSpline {} false
      = .ok [135 / 112, 19 / 7] := by
  refine ⟨by decide +kernel, by decide +kernel, fun u hu => ⟨0, 3, rfl, rfl, ?_⟩, by decide +kernel, by decide +kernel⟩
  simp only [List.mem_cons, List.not_mem_nil, or_false] at hu
  rcases hu with rfl | rfl <;> norm_num

end C116

/-! ### C117 -/

section C117

/-- The spline of order 1 joins the points by straight lines. -/
theorem spline_one {x y : List ℝ} (hx : x.Pairwise (· < ·)) (hlen : y.length = x.length) {F : ℝ → ℝ}
    (hF : IsSpline 1 (Breaks 1 x) F) (hy : PassesThrough x y F) {i : ℕ} (hi : i + 1 < x.length) {u : ℝ}
    (h1 : x.getD i 0 ≤ u) (h2 : u ≤ x.getD (i + 1) 0) :
    F u = y.getD i 0 + (y.getD (i + 1) 0 - y.getD i 0) / (x.getD (i + 1) 0 - x.getD i 0) * (u - x.getD i 0) := by
  obtain ⟨P, hP, he⟩ := hF.pieces (x.getD i 0) (x.getD (i + 1) 0) fun τ hτ => by
    rw [← splineKnots_breaks 1 le_rfl x (by omega)] at hτ
    obtain ⟨j, hj, rfl⟩ := List.mem_iff_getElem.1 hτ
    rw [splineKnots_length] at hj
    rw [← List.getD_eq_getElem _ 0, splineKnots_getD hj, if_pos rfl]
    by_cases h : j + 1 / 2 + 1 ≤ i
    · exact .inl (getD_le hx h (by omega))
    · exact .inr (getD_le hx (by omega) (by omega))
  have hlt := getD_lt hx (Nat.lt_succ_self i) hi
  have e0 := he _ le_rfl hlt.le
  have e1 := he _ hlt.le le_rfl
  rw [hy _ (mem_zip_getD hlen.symm (show i < x.length by omega))] at e0
  rw [hy _ (mem_zip_getD hlen.symm hi)] at e1
  rw [he u h1 h2]
  rw [eq_X_add_C_of_degree_le_one hP] at e0 e1 ⊢
  simp only [eval_add, eval_mul, eval_C, eval_X] at e0 e1 ⊢
  rw [e0, e1]
  have : x.getD (i + 1) 0 - x.getD i 0 ≠ 0 := (sub_pos.2 hlt).ne'
  field_simp
  ring

theorem spline_one_follows {x y : List ℝ} (hx : x.Pairwise (· < ·)) (hlen : y.length = x.length) {F : ℝ → ℝ}
    (hF : IsSpline 1 (Breaks 1 x) F) (hy : PassesThrough x y F) : FollowsPoints x y F := by
  intro i x₀ x₁ y₀ y₁ hx₀ hx₁ hy₀ hy₁ u v hu huv hv
  obtain ⟨hi, e1⟩ := List.getElem?_eq_some_iff.1 hx₁
  have g : ∀ {l : List ℝ} {j : ℕ} {a : ℝ}, l[j]? = some a → l.getD j 0 = a := fun h => by
    rw [List.getD_eq_getElem?_getD, h]; rfl
  have fu := spline_one hx hlen hF hy hi (u := u) (by rw [g hx₀]; exact hu) (by rw [g hx₁]; exact huv.trans hv)
  have fv := spline_one hx hlen hF hy hi (u := v) (by rw [g hx₀]; exact hu.trans huv) (by rw [g hx₁]; exact hv)
  have hlt := getD_lt hx (Nat.lt_succ_self i) hi
  rw [g hx₀, g hx₁, g hy₀, g hy₁] at fu fv
  rw [g hx₀, g hx₁] at hlt
  rw [fu, fv]
  have hd : 0 < x₁ - x₀ := sub_pos.2 hlt
  have e : y₁ = y₀ + (y₁ - y₀) / (x₁ - x₀) * (x₁ - x₀) := by field_simp; ring
  constructor
  · intro h
    have hm : 0 ≤ (y₁ - y₀) / (x₁ - x₀) := div_nonneg (by linarith) hd.le
    refine ⟨?_, ?_, ?_⟩
    · have := mul_nonneg hm (sub_nonneg.2 hu); linarith
    · have := mul_le_mul_of_nonneg_left (sub_le_sub_right huv x₀) hm; linarith
    · have := mul_le_mul_of_nonneg_left (sub_le_sub_right hv x₀) hm; linarith
  · intro h
    have hm : (y₁ - y₀) / (x₁ - x₀) ≤ 0 := div_nonpos_of_nonpos_of_nonneg (by linarith) hd.le
    refine ⟨?_, ?_, ?_⟩
    · have := mul_le_mul_of_nonpos_left (sub_le_sub_right hv x₀) hm; linarith
    · have := mul_le_mul_of_nonpos_left (sub_le_sub_right huv x₀) hm; linarith
    · have := mul_nonneg_of_nonpos_of_nonpos hm (sub_nonpos.2 hu)
      have h3 := mul_nonpos_of_nonpos_of_nonneg hm (sub_nonneg.2 hu); linarith

theorem spline_one_strict {x y : List ℝ} (hx : x.Pairwise (· < ·)) (hlen : y.length = x.length) (h2 : 2 ≤ x.length) {F : ℝ → ℝ}
    (hF : IsSpline 1 (Breaks 1 x) F) (hy : PassesThrough x y F) (hys : y.Pairwise (· < ·)) {u v : ℝ} (hu : Within x u)
    (hv : Within x v) (huv : u < v) : F u < F v := by
  have hlt := pchipInterval_lt (x := x) h2 u
  obtain ⟨h3, h4⟩ := pchipInterval_spec h2 (within_range hu).2.1
  set i := pchipInterval x u with hi
  have h5 : u < x.getD (i + 1) 0 := by
    by_contra hc
    rw [not_lt] at hc
    by_cases h6 : i + 1 + 1 < x.length
    · have := h4 _ h6 hc; omega
    · have := (within_range hv).2.2
      rw [show x.length - 1 = i + 1 by omega] at this
      linarith
  have hm : u < min v (x.getD (i + 1) 0) := lt_min huv h5
  have e1 := spline_one hx hlen hF hy hlt h3 h5.le
  have e2 := spline_one hx hlen hF hy hlt (h3.trans hm.le) (min_le_right v _)
  have hlt' := getD_lt hx (Nat.lt_succ_self i) hlt
  have hyl := getD_lt hys (Nat.lt_succ_self i) (by omega)
  have hs : 0 < (y.getD (i + 1) 0 - y.getD i 0) / (x.getD (i + 1) 0 - x.getD i 0) := div_pos (sub_pos.2 hyl) (sub_pos.2 hlt')
  have h7 : F u < F (min v (x.getD (i + 1) 0)) := by
    rw [e1, e2]
    have := mul_lt_mul_of_pos_left (sub_lt_sub_right hm (x.getD i 0)) hs
    linarith
  have hw : Within x (min v (x.getD (i + 1) 0)) := by
    obtain ⟨a, b, ha, hb, ha', hb'⟩ := hu
    obtain ⟨_, b', _, hb2, _, hb3⟩ := hv
    rw [hb] at hb2; cases hb2
    exact ⟨a, b, ha, hb, ha'.trans hm.le, (min_le_left _ _).trans hb3⟩
  exact h7.trans_le (follows_mono hx hlen h2 (spline_one_follows hx hlen hF hy) (hys.imp le_of_lt) hw hv (min_le_left _ _))

/-- Where the interpolant has a value. -/
theorem scipyEval_ok {k ext : ℕ} {x y : List ℝ} {u v : ℝ} (h : scipyEval (.spline k ext) x y u = .ok v) :
    x.Pairwise (· < ·) ∧ y.length = x.length ∧ 1 ≤ k ∧ k ≤ 5 ∧ k < x.length ∧ (ext = 2 → Within x u) := by
  have h : (fitSpline k ext x y >>= _) = _ := h
  obtain ⟨s, hs, hv⟩ := bind_ok h
  obtain ⟨h1, h2, h3, h4, _, h6, _⟩ := fitSpline_ok hs
  refine ⟨h1, h2.symm, h3, h4, h6, ?_⟩
  rintro rfl
  have hne : x ≠ [] := by rintro rfl; simp at h6
  rw [within_iff_side hne]
  unfold splev at hv
  cases hs : side x u with
  | inside => rfl
  | before => rw [hs] at hv; cases hv
  | after => rw [hs] at hv; cases hv

variable {C : Type}

/-- A call with scipy's splines and reference frequencies.  The time used for a frequency is a function of it: the spline of the
order given through the samples of the average frequency, so that a sampled value of the average frequency gets the time of
its sample.  With order 1 a higher frequency always gets a later time, see `C117_violated` for higher orders; at debug level 2 a call
only returns if each frequency gets a later time than the ones before it. -/
theorem C117_call_partial {fuel : ℕ} {lib : Libs ℝ C} {a : Call ℝ C} {ans : Answer ℝ C} {asked : Val ℝ}
    (hscipy : lib.eval = scipyEval) (hrun : run fuel lib a = some (.ok ans)) (hpi : 0 < lib.wave.pi)
    (hsort : ∀ l, Sorts l (lib.argsort l))
    (hpr : a.precessing = .isFalse) (hasked : a.frefIn = some asked) (hdict : ProperDicts a.dataDict)
    (harrays : ∀ t A φ w, Dominant lib.wave a.dataDict t A φ w → ProperArrays t A φ w) (hpeaks : PeakFinder lib)
    (hmethod : a.method ≠ "AmplitudeFits" ∧ a.method ≠ "FrequencyFits")
    (hzero : (a.extra.getD []).get? "return_zero_if_small_ecc_failure" = none)
    (havg : (a.extra.getD []).get? "omega_gw_averaging_method" = none) :
    ∃ t A φ w p q fP fA ve va vr, Apsides lib a ans.built.analysis.width t A φ w p q fP fA ∧
      ans.ret.get? "eccentricity" = some ve ∧ ans.ret.get? "mean_anomaly" = some va ∧ ans.ret.get? "fref_out" = some vr ∧
      ∃ (tAvg fAvg : List ℝ) (k : ℕ) (G : ℝ → ℝ), tAvg.Sublist t ∧ fAvg.Pairwise (· < ·) ∧
        SplineOrder a "general_interp_kwargs" k ∧
        IsSpline (min k (fAvg.length - 1)) (Breaks (min k (fAvg.length - 1)) fAvg) G ∧ PassesThrough fAvg tAvg G ∧
        (∀ f ∈ vr.atleast1d, Within fAvg f) ∧
        List.Forall₂ (fun f e => ∃ wp wa, fP (G f) = .ok wp ∧ fA (G f) = .ok wa ∧ e = lib.eccOf wp wa) vr.atleast1d ve.atleast1d ∧
        List.Forall₂ (fun f l => IsMeanAnomaly lib.wave.pi (valuesAt t p) (G f) l) vr.atleast1d va.atleast1d ∧
        (k = 1 → ∀ f f', Within fAvg f → Within fAvg f' → f < f' → G f < G f') ∧
        (a.level = 2 → vr.atleast1d.Pairwise fun f f' => G f < G f') := by
  obtain ⟨t, A, φ, w, p, q, fP, fA, ve, va, vr, hA, g1, g2, g3, _, _, _, hne, pts, k, tAvg, wAvg, ts, lo, hi, hord, _, _, hsub,
    hinc, _, _, _, _, hts, hv, hl, hstrict⟩ := C89_frequencies hrun hpi hsort hpr hasked hdict harrays hpeaks hmethod hzero havg
  rw [hscipy] at hts
  have hlen : wAvg.length = (wAvg.map (· / (2 * lib.wave.pi))).length := by simp
  obtain ⟨f0, hf0⟩ := List.exists_mem_of_ne_nil _ hne
  obtain ⟨x0, _, hx0⟩ := forall₂_mem_left hts hf0
  rw [hlen] at hts hx0
  set fAvg := wAvg.map (· / (2 * lib.wave.pi)) with hfAvg
  obtain ⟨s1, s2, s3, s4, s5, _⟩ := scipyEval_ok hx0
  obtain ⟨G, hG, hGy⟩ := C115_exists (k := min k (fAvg.length - 1)) s1 s2 s3 s5
  have hwithin : ∀ f ∈ vr.atleast1d, Within fAvg f := fun f hf => by
    obtain ⟨_, _, h⟩ := forall₂_mem_left hts hf
    exact (scipyEval_ok h).2.2.2.2.2 rfl
  have hmap : ts = vr.atleast1d.map G := by
    have : ∀ {l m : List ℝ}, List.Forall₂ (fun f x => scipyEval (.spline (min k (fAvg.length - 1)) 2) fAvg tAvg f = .ok x) l m →
        m = l.map G := by
      intro l m h
      induction h with
      | nil => rfl
      | cons h _ ih =>
        rw [List.map_cons, ← ih]
        congr 1
        have := scipyEval_spline s1 s2 s3 s4 s5 hG hGy (ext := 2) (by omega) ((scipyEval_ok h).2.2.2.2.2 rfl)
        exact Except.ok.inj (h.symm.trans this)
    exact this hts
  have hmapF : ∀ {β : Type} {R : ℝ → β → Prop} {l : List ℝ} {m : List β}, List.Forall₂ R (l.map G) m →
      List.Forall₂ (fun f b => R (G f) b) l m := fun h => List.forall₂_map_left_iff.1 h
  subst hmap
  refine ⟨t, A, φ, w, p, q, fP, fA, ve, va, vr, hA, g1, g2, g3, tAvg, fAvg, k, G, hsub, s1, hord, hG, hGy, hwithin, hmapF hv,
    hmapF hl, ?_, fun h => List.pairwise_map.1 (hstrict h)⟩
  rintro rfl f f' h1 h2 h3
  rw [show min 1 (fAvg.length - 1) = 1 by omega] at hG
  have hti : tAvg.Pairwise (· < ·) := by
    have := harrays t A φ w hA.data
    exact this.1.sublist hsub
  exact spline_one_strict s1 s2 (by omega) hG hGy hti h1 h2 h3

end C117

end GwEcc
