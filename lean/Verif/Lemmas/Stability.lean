import Verif.Lemmas.Ecc
import Verif.Props.MeanAnomaly
import Mathlib.Analysis.SpecialFunctions.Log.Deriv
import Mathlib.Analysis.Calculus.Deriv.MeanValue

/-! Helper lemmas for the stability of the eccentricity and of the mean anomaly (C88). -/

namespace GwEcc

open Real

/-- logarithm of the ratio of frequencies as a function of the eccentricity. -/
noncomputable def logRatio (e : ℝ) : ℝ := 2 * log (1 + e) - 2 * log (1 - e) + log (2 - e) - log (2 + e)

theorem logRatio_hasDerivAt {e : ℝ} (h1 : -1 < e) (h2 : e < 1) :
    HasDerivAt logRatio (12 / ((1 - e ^ 2) * (4 - e ^ 2))) e := by
  have a1 : HasDerivAt (fun x : ℝ => 1 + x) 1 e := (hasDerivAt_id e).const_add 1
  have a2 : HasDerivAt (fun x : ℝ => 1 - x) (-1) e := (hasDerivAt_id e).const_sub 1
  have a3 : HasDerivAt (fun x : ℝ => 2 - x) (-1) e := (hasDerivAt_id e).const_sub 2
  have a4 : HasDerivAt (fun x : ℝ => 2 + x) 1 e := (hasDerivAt_id e).const_add 2
  have e1 : (1 + e) ≠ 0 := by linarith
  have e2 : (1 - e) ≠ 0 := by linarith
  have e3 : (2 - e) ≠ 0 := by linarith
  have e4 : (2 + e) ≠ 0 := by linarith
  have := ((((a1.log e1).const_mul 2).sub ((a2.log e2).const_mul 2)).add (a3.log e3)).sub (a4.log e4)
  refine this.congr_deriv ?_
  rw [show (1 - e ^ 2) * (4 - e ^ 2) = (1 + e) * (1 - e) * ((2 - e) * (2 + e)) by ring]
  field_simp
  ring

theorem logRatio_slope {x y : ℝ} (hx : -1 < x) (hxy : x ≤ y) (hy : y < 1) : 3 * (y - x) ≤ logRatio y - logRatio x := by
  have hd : ∀ z ∈ Set.Icc x y, HasDerivAt logRatio (12 / ((1 - z ^ 2) * (4 - z ^ 2))) z :=
    fun z hz => logRatio_hasDerivAt (lt_of_lt_of_le hx hz.1) (lt_of_le_of_lt hz.2 hy)
  refine (convex_Icc x y).mul_sub_le_image_sub_of_le_deriv (fun z hz => (hd z hz).continuousAt.continuousWithinAt)
    (fun z hz => (hd z (interior_subset hz)).differentiableAt.differentiableWithinAt) (fun z hz => ?_)
    x ⟨le_rfl, hxy⟩ y ⟨hxy, le_rfl⟩ hxy
  have hz' := interior_subset hz
  rw [(hd z hz').deriv]
  have h1 : -1 < z := lt_of_lt_of_le hx hz'.1
  have h2 : z < 1 := lt_of_le_of_lt hz'.2 hy
  have h3 : z ^ 2 < 1 := by nlinarith
  have h4 := sq_nonneg z
  rw [le_div_iff₀ (mul_pos (by linarith) (by linarith))]
  nlinarith

theorem logRatio_slope_upper {y : ℝ} (h0 : 0 ≤ y) (hy : y < 1) :
    logRatio y - logRatio 0 ≤ 12 / ((1 - y ^ 2) * (4 - y ^ 2)) * (y - 0) := by
  have hd : ∀ z ∈ Set.Icc 0 y, HasDerivAt logRatio (12 / ((1 - z ^ 2) * (4 - z ^ 2))) z :=
    fun z hz => logRatio_hasDerivAt (by linarith [hz.1]) (lt_of_le_of_lt hz.2 hy)
  refine (convex_Icc 0 y).image_sub_le_mul_sub_of_deriv_le (fun z hz => (hd z hz).continuousAt.continuousWithinAt)
    (fun z hz => (hd z (interior_subset hz)).differentiableAt.differentiableWithinAt) (fun z hz => ?_)
    0 ⟨le_rfl, h0⟩ y ⟨h0, le_rfl⟩ h0
  have hz' := interior_subset hz
  rw [(hd z hz').deriv]
  have h1 : z ^ 2 ≤ y ^ 2 := pow_le_pow_left₀ hz'.1 hz'.2 2
  have h3 : y ^ 2 < 1 := by nlinarith
  apply div_le_div_of_nonneg_left (by norm_num) (mul_pos (by linarith) (by linarith))
  exact mul_le_mul (by linarith) (by linarith) (by linarith) (by linarith)

theorem logRatio_zero : logRatio 0 = 0 := by unfold logRatio; simp

/-- `e_ω` and the ratio of frequencies. -/
theorem eOmega_ratio {wp wa : ℝ} (hp : 0 < wp) (ha : 0 < wa) :
    4 * eOmega wp wa / (1 + eOmega wp wa * eOmega wp wa) = 2 * (wp - wa) / (wp + wa) := by
  have hx := Real.sqrt_pos.mpr hp
  have hy := Real.sqrt_pos.mpr ha
  have hxx := Real.mul_self_sqrt hp.le
  have hyy := Real.mul_self_sqrt ha.le
  unfold eOmega
  generalize √wp = x at *
  generalize √wa = y at *
  rw [← hxx, ← hyy]
  have : 0 < x + y := by positivity
  have : 0 < x * x + y * y := by positivity
  have h3 : 1 + (x - y) / (x + y) * ((x - y) / (x + y)) = 2 * (x * x + y * y) / (x + y) ^ 2 := by
    field_simp; ring
  rw [h3]
  field_simp
  ring

theorem ecc_gt {wp wa : ℝ} (hp : 0 < wp) (ha : 0 < wa) : -1 < eccFromOmega wp wa :=
  et_gt_neg_one (eOmega_sq_lt hp ha)

theorem ecc_lt {wp wa : ℝ} (hp : 0 < wp) (ha : 0 < wa) : eccFromOmega wp wa < 1 :=
  et_lt_one (eOmega_sq_lt hp ha)

/-- the ratio of frequencies from the reported eccentricity. -/
theorem ratio_of_ecc {wp wa : ℝ} (hp : 0 < wp) (ha : 0 < wa) :
    wp * ((1 - eccFromOmega wp wa) ^ 2 * (2 + eccFromOmega wp wa)) =
      wa * ((1 + eccFromOmega wp wa) ^ 2 * (2 - eccFromOmega wp wa)) := by
  have h : (eccFromOmega wp wa) ^ 3 - 3 * eccFromOmega wp wa = - (2 * (wp - wa) / (wp + wa)) := by
    rw [← eOmega_ratio hp ha]; exact et_cubic _
  generalize eccFromOmega wp wa = e at *
  have hs : wp + wa ≠ 0 := by positivity
  have h2 : (e ^ 3 - 3 * e) * (wp + wa) = - (2 * (wp - wa)) := by
    rw [h]; field_simp
  linear_combination h2

theorem logRatio_ecc {wp wa : ℝ} (hp : 0 < wp) (ha : 0 < wa) :
    logRatio (eccFromOmega wp wa) = log (wp / wa) := by
  have h := ratio_of_ecc hp ha
  have h1 := ecc_gt hp ha
  have h2 := ecc_lt hp ha
  generalize eccFromOmega wp wa = e at *
  have e1 : 0 < 1 + e := by linarith
  have e2 : 0 < 1 - e := by linarith
  have e3 : 0 < 2 - e := by linarith
  have e4 : 0 < 2 + e := by linarith
  have hr : wp / wa = ((1 + e) ^ 2 * (2 - e)) / ((1 - e) ^ 2 * (2 + e)) := by
    rw [div_eq_div_iff ha.ne' (by positivity)]; linear_combination h
  rw [hr, log_div (by positivity) (by positivity), log_mul (by positivity) e3.ne', log_mul (by positivity) e4.ne',
    log_pow, log_pow]
  unfold logRatio
  push_cast
  ring

theorem ecc_of_ratio {e : ℝ} (h1 : -1 < e) (h2 : e < 1) :
    eccFromOmega ((1 + e) ^ 2 * (2 - e)) ((1 - e) ^ 2 * (2 + e)) = e := by
  have e1 : 0 < 1 + e := by linarith
  have e2 : 0 < 1 - e := by linarith
  have e3 : 0 < 2 - e := by linarith
  have e4 : 0 < 2 + e := by linarith
  have hp : 0 < (1 + e) ^ 2 * (2 - e) := by positivity
  have ha : 0 < (1 - e) ^ 2 * (2 + e) := by positivity
  apply cubic_inj (ecc_gt hp ha).le (ecc_lt hp ha).le h1.le h2.le
  have h : (eccFromOmega ((1 + e) ^ 2 * (2 - e)) ((1 - e) ^ 2 * (2 + e))) ^ 3 -
      3 * eccFromOmega ((1 + e) ^ 2 * (2 - e)) ((1 - e) ^ 2 * (2 + e)) = _ := et_cubic _
  rw [h, eOmega_ratio hp ha]
  rw [show (1 + e) ^ 2 * (2 - e) + (1 - e) ^ 2 * (2 + e) = 4 by ring]
  ring

theorem ecc_lipschitz {wp wa wp' wa' : ℝ} (hp : 0 < wp) (ha : 0 < wa) (hp' : 0 < wp') (ha' : 0 < wa') :
    |eccFromOmega wp wa - eccFromOmega wp' wa'| ≤ 1 / 3 * |log (wp / wa) - log (wp' / wa')| := by
  rw [← logRatio_ecc hp ha, ← logRatio_ecc hp' ha']
  rcases le_total (eccFromOmega wp wa) (eccFromOmega wp' wa') with h | h
  · have := logRatio_slope (ecc_gt hp ha) h (ecc_lt hp' ha')
    rw [abs_sub_comm, abs_of_nonneg (sub_nonneg.mpr h), abs_sub_comm]
    have := le_abs_self (logRatio (eccFromOmega wp' wa') - logRatio (eccFromOmega wp wa))
    linarith
  · have := logRatio_slope (ecc_gt hp' ha') h (ecc_lt hp ha)
    rw [abs_of_nonneg (sub_nonneg.mpr h)]
    have := le_abs_self (logRatio (eccFromOmega wp wa) - logRatio (eccFromOmega wp' wa'))
    linarith

theorem log_near {w w' ε : ℝ} (hw : 0 < w) (h0 : 0 ≤ ε) (h1 : ε < 1) (h : |w' - w| ≤ ε * w) :
    0 < w' ∧ |log w - log w'| ≤ ε / (1 - ε) := by
  obtain ⟨ha, hb⟩ := abs_le.mp h
  have hw' : 0 < w' := by nlinarith
  refine ⟨hw', ?_⟩
  have h1' : 0 < 1 - ε := by linarith
  have e1 : log w - log w' ≤ w / w' - 1 := by
    rw [← log_div hw.ne' hw'.ne']; exact log_le_sub_one_of_pos (by positivity)
  have e2 : log w' - log w ≤ w' / w - 1 := by
    rw [← log_div hw'.ne' hw.ne']; exact log_le_sub_one_of_pos (by positivity)
  have e3 : w / w' - 1 ≤ ε / (1 - ε) := by
    rw [sub_le_iff_le_add, show ε / (1 - ε) + 1 = 1 / (1 - ε) by field_simp; ring, div_le_div_iff₀ hw' h1']
    linarith
  have e4 : w' / w - 1 ≤ ε / (1 - ε) := by
    have : w' / w - 1 ≤ ε := by
      rw [sub_le_iff_le_add, div_le_iff₀ hw]; linarith
    refine this.trans ?_
    rw [le_div_iff₀ h1']
    nlinarith
  rw [abs_le]
  constructor <;> linarith

theorem ecc_relative {wp wa wp' wa' ε : ℝ} (hp : 0 < wp) (ha : 0 < wa) (h0 : 0 ≤ ε) (h1 : ε < 1)
    (h : |wp' - wp| ≤ ε * wp) (h' : |wa' - wa| ≤ ε * wa) :
    |eccFromOmega wp' wa' - eccFromOmega wp wa| ≤ 2 / 3 * (ε / (1 - ε)) := by
  obtain ⟨hp', b1⟩ := log_near hp h0 h1 h
  obtain ⟨ha', b2⟩ := log_near ha h0 h1 h'
  rw [abs_sub_comm]
  refine (ecc_lipschitz hp ha hp' ha').trans ?_
  rw [log_div hp.ne' ha.ne', log_div hp'.ne' ha'.ne']
  have : |log wp - log wa - (log wp' - log wa')| ≤ |log wp - log wp'| + |log wa - log wa'| := by
    rw [show log wp - log wa - (log wp' - log wa') = (log wp - log wp') - (log wa - log wa') by ring]
    exact abs_sub _ _
  linarith

/-! ## Mean anomaly -/

section anomaly

variable {K : Type} [Field K] [LinearOrder K] [IsStrictOrderedRing K]

open Spec

/-- a time between the first and the last pericenter lies in some orbit, and the mean anomaly says where. -/
theorem anomaly_place {pi : K} {l : List K} (hs : l.Pairwise (· < ·)) (hlen : 2 ≤ l.length) {x v : K} (hx : Within l x)
    (hv : IsMeanAnomaly pi l x v) :
    ∃ (i : ℕ) (s : K) (k : ℤ), i + 1 < l.length ∧ 0 ≤ s ∧ s ≤ 1 ∧
      x = l.getD i 0 + s * (l.getD (i + 1) 0 - l.getD i 0) ∧ v = 2 * pi * s - 2 * pi * k := by
  obtain ⟨first, last, h1, h2, h3, h4⟩ := hx
  have hlt : ∀ i, i + 1 < l.length → l.getD i 0 < l.getD (i + 1) 0 := by
    intro i hi
    rw [List.pairwise_iff_getElem] at hs
    have := hs i (i + 1) (by omega) hi (by omega)
    rw [List.getD_eq_getElem _ _ (by omega), List.getD_eq_getElem _ _ hi]
    exact this
  have hfirst : l.getD 0 0 = first := by
    rw [List.head?_eq_getElem?] at h1
    rw [List.getD_eq_getElem?_getD, h1]; rfl
  have hlast : l.getD (l.length - 1) 0 = last := by
    rw [List.getLast?_eq_getElem?] at h2
    rw [List.getD_eq_getElem?_getD, h2]; rfl
  rcases h4.lt_or_eq with h4 | h4
  · -- inside an orbit
    have key : ∀ n, n + 1 ≤ l.length → l.getD n 0 ≤ x ∨ ∃ i, i + 1 < l.length ∧ l.getD i 0 ≤ x ∧ x < l.getD (i + 1) 0 := by
      intro n
      induction n with
      | zero => intro _; left; rw [hfirst]; exact h3
      | succ n ih =>
        intro hn
        rcases ih (by omega) with g | g
        · rcases le_or_gt (l.getD (n + 1) 0) x with g2 | g2
          · exact Or.inl g2
          · exact Or.inr ⟨n, by omega, g, g2⟩
        · exact Or.inr g
    rcases key (l.length - 1) (by omega) with g | ⟨i, hi, ga, gb⟩
    · rw [hlast] at g; exact absurd h4 (not_lt.mpr g)
    · have hpos := sub_pos.mpr (hlt i hi)
      have ho : Orbit l x (l.getD i 0) (l.getD (i + 1) 0) := by
        refine ⟨ga, gb, i, ?_, ?_⟩
        · rw [List.getD_eq_getElem _ _ (by omega)]; exact List.getElem?_eq_getElem _
        · rw [List.getD_eq_getElem _ _ hi]; exact List.getElem?_eq_getElem _
      refine ⟨i, (x - l.getD i 0) / (l.getD (i + 1) 0 - l.getD i 0), 0, hi, ?_, ?_, ?_, ?_⟩
      · exact div_nonneg (sub_nonneg.mpr ga) hpos.le
      · rw [div_le_one hpos]; linarith
      · rw [div_mul_cancel₀ _ hpos.ne']; ring
      · rw [hv.1 _ _ ho]; simp
  · refine ⟨l.length - 2, 1, 1, by omega, zero_le_one, le_rfl, ?_, ?_⟩
    · rw [show l.length - 2 + 1 = l.length - 1 by omega, hlast, h4]; ring
    · rw [hv.2 (h4 ▸ h2)]; simp

/-- the number of pericenters passed changes at most by one per shortest orbit. -/
theorem passed_lipschitz {p : ℕ → K} {n : ℕ} {T : K} (hT : 0 < T) (hg : ∀ i, i + 1 < n → T ≤ p (i + 1) - p i)
    {i j : ℕ} (hij : i ≤ j) (hj : j + 1 < n) {s r : K} (hs0 : 0 ≤ s) (hs1 : s ≤ 1) (hr0 : 0 ≤ r) (hr1 : r ≤ 1) :
    T * |((j : K) + r) - (i + s)| ≤ |(p j + r * (p (j + 1) - p j)) - (p i + s * (p (i + 1) - p i))| := by
  rcases hij.eq_or_lt with rfl | hij
  · have hgi := hg i hj
    rw [show (i : K) + r - (i + s) = r - s by ring,
      show p i + r * (p (i + 1) - p i) - (p i + s * (p (i + 1) - p i)) = (r - s) * (p (i + 1) - p i) by ring,
      abs_mul, abs_of_pos (lt_of_lt_of_le hT hgi), mul_comm]
    exact mul_le_mul_of_nonneg_left hgi (abs_nonneg _)
  · have hspan : ∀ d, i + 1 + d < n → T * d ≤ p (i + 1 + d) - p (i + 1) := by
      intro d
      induction d with
      | zero => intro _; simp
      | succ d ih =>
        intro hd
        have h1 := ih (by omega)
        have h2 := hg (i + 1 + d) (by omega)
        rw [show i + 1 + (d + 1) = i + 1 + d + 1 by ring]
        push_cast
        linarith
    obtain ⟨d, rfl⟩ : ∃ d, j = i + 1 + d := ⟨j - (i + 1), by omega⟩
    have h1 := hspan d (by omega)
    have h2 := hg i (by omega)
    have h3 := hg (i + 1 + d) hj
    have e1 : ((i + 1 + d : ℕ) : K) + r - (i + s) = (1 - s) + d + r := by push_cast; ring
    have e2 : p (i + 1 + d) + r * (p (i + 1 + d + 1) - p (i + 1 + d)) - (p i + s * (p (i + 1) - p i)) =
        (1 - s) * (p (i + 1) - p i) + (p (i + 1 + d) - p (i + 1)) + r * (p (i + 1 + d + 1) - p (i + 1 + d)) := by ring
    have hd0 : (0 : K) ≤ d := Nat.cast_nonneg d
    have a1 : (1 - s) * T ≤ (1 - s) * (p (i + 1) - p i) := mul_le_mul_of_nonneg_left h2 (by linarith)
    have a2 : r * T ≤ r * (p (i + 1 + d + 1) - p (i + 1 + d)) := mul_le_mul_of_nonneg_left h3 hr0
    rw [e1, e2, abs_of_nonneg (by linarith), abs_of_nonneg]
    · linarith
    · have b1 : 0 ≤ (1 - s) * T := mul_nonneg (by linarith) hT.le
      have b2 : 0 ≤ r * T := mul_nonneg hr0 hT.le
      have b3 : 0 ≤ T * d := mul_nonneg hT.le hd0
      linarith

theorem anomaly_stable {pi : K} (hpi : 0 < pi) {l l' : List K} (hs : l.Pairwise (· < ·)) (hs' : l'.Pairwise (· < ·))
    {δ T : K} (hδ : List.Forall₂ (fun a b => |a - b| ≤ δ) l l') (hT : 0 < T)
    (hgap : ∀ i a b, l'[i]? = some a → l'[i + 1]? = some b → T ≤ b - a) {x v v' : K} (hx : Within l x) (hx' : Within l' x)
    (hv : IsMeanAnomaly pi l x v) (hv' : IsMeanAnomaly pi l' x v') :
    ∃ k : ℤ, |v - v' - 2 * pi * k| ≤ 2 * pi * (δ / T) := by
  have hlen := hδ.length_eq
  have hdist : ∀ i, i < l.length → |l.getD i 0 - l'.getD i 0| ≤ δ := by
    intro i hi
    rw [List.getD_eq_getElem _ _ hi, List.getD_eq_getElem _ _ (hlen ▸ hi)]
    exact (List.forall₂_iff_get.mp hδ).2 i hi (hlen ▸ hi)
  rcases Nat.lt_or_ge l.length 2 with h2 | h2
  · -- at most one pericenter
    have one : ∀ {l : List K} {v : K}, l.length < 2 → Within l x → IsMeanAnomaly pi l x v → v = 0 := by
      intro l v hl hw hv
      obtain ⟨f, g, a1, a2, a3, a4⟩ := hw
      match l, hl, a1, a2 with
      | [y], _, a1, a2 =>
        simp at a1 a2
        subst a1 a2
        exact hv.2 (by simp [le_antisymm a3 a4])
    rw [one h2 hx hv, one (hlen ▸ h2) hx' hv']
    have hpos : 0 < l.length := by
      obtain ⟨f, g, a1, _⟩ := hx
      cases l with
      | nil => cases a1
      | cons _ _ => simp
    have h0 := (abs_nonneg _).trans (hdist 0 hpos)
    refine ⟨0, ?_⟩
    simp only [sub_zero, Int.cast_zero, mul_zero, abs_zero]
    exact mul_nonneg (by linarith) (div_nonneg h0 hT.le)
  · obtain ⟨i, s, k, hi, hs0, hs1, hxi, hvi⟩ := anomaly_place hs h2 hx hv
    obtain ⟨j, r, k', hj, hr0, hr1, hxj, hvj⟩ := anomaly_place hs' (hlen ▸ h2) hx' hv'
    set p' : ℕ → K := fun n => l'.getD n 0 with hp'
    have hg : ∀ n, n + 1 < l'.length → T ≤ p' (n + 1) - p' n := by
      intro n hn
      refine hgap n _ _ ?_ ?_
      · simp only [hp']; rw [List.getD_eq_getElem _ _ (by omega)]; exact List.getElem?_eq_getElem _
      · simp only [hp']; rw [List.getD_eq_getElem _ _ hn]; exact List.getElem?_eq_getElem _
    have hclose : |(p' j + r * (p' (j + 1) - p' j)) - (p' i + s * (p' (i + 1) - p' i))| ≤ δ := by
      have h1 := hdist i (by omega)
      have h3 := hdist (i + 1) hi
      have e : (p' j + r * (p' (j + 1) - p' j)) - (p' i + s * (p' (i + 1) - p' i)) =
          (1 - s) * (l.getD i 0 - p' i) + s * (l.getD (i + 1) 0 - p' (i + 1)) := by
        rw [show p' j + r * (p' (j + 1) - p' j) = x from hxj.symm, hxi]; ring
      rw [e]
      refine (abs_add_le _ _).trans ?_
      rw [abs_mul, abs_mul, abs_of_nonneg (by linarith : (0 : K) ≤ 1 - s), abs_of_nonneg hs0]
      have a1 : (1 - s) * |l.getD i 0 - p' i| ≤ (1 - s) * δ := mul_le_mul_of_nonneg_left h1 (by linarith)
      have a2 : s * |l.getD (i + 1) 0 - p' (i + 1)| ≤ s * δ := mul_le_mul_of_nonneg_left h3 hs0
      linarith
    have hlip : T * |((j : K) + r) - (i + s)| ≤ δ := by
      rcases le_total i j with hij | hij
      · exact (passed_lipschitz hT hg hij hj hs0 hs1 hr0 hr1).trans hclose
      · have := passed_lipschitz hT hg hij (hlen ▸ hi) hr0 hr1 hs0 hs1
        rw [abs_sub_comm]
        rw [abs_sub_comm] at hclose
        exact this.trans hclose
    refine ⟨(j : ℤ) - i - k + k', ?_⟩
    have e : v - v' - 2 * pi * (((j : ℤ) - i - k + k' : ℤ) : K) = 2 * pi * ((i + s) - (j + r)) := by
      rw [hvi, hvj]; push_cast; ring
    rw [e, abs_mul, abs_of_pos (by linarith : (0 : K) < 2 * pi)]
    refine mul_le_mul_of_nonneg_left ?_ (by linarith)
    rw [abs_sub_comm, le_div_iff₀ hT, mul_comm]
    exact hlip

end anomaly

end GwEcc
