import Verif.Spec.WholeCall
import Verif.Props.NewtonianCall
import Verif.Props.Values
import Verif.Props.Segment

/-! Lemmas for C89: from the object a call builds back to the caller's dictionary. -/

set_option linter.unusedSectionVars false

namespace GwEcc

open Spec

section
variable {K C : Type} [Field K] [LinearOrder K] [IsStrictOrderedRing K] [FloorRing K]

theorem entry_array {v : DataV K C} {key : String} {l : List K} (h : v.get? key = some (.arr l)) :
    array v key = some l := by
  unfold array
  rw [h]; rfl

/-- Without precession, the waveform quantities used are the first samples of those of the (2,2) mode. -/
theorem loadWave_dominant {lib : Libs K C} {a : Call K C} {nd : DataV K C} {an : Analysis K} {w : Wave K}
    (h : loadWave lib a = .ok (nd, an, w)) (hp : a.precessing = .isFalse) (hd : ProperDicts a.dataDict) :
    ∃ t A P W idx, Dominant lib.wave a.dataDict t A P W ∧ w = ⟨t.take idx, A.take idx, P.take idx, W.take idx⟩ := by
  obtain ⟨hpd, ht', _, hq⟩ := loadWave_ok h
  obtain ⟨v', full, _, hv', hnd, han, hcut⟩ := processData_ok hpd
  rw [hp] at hv'
  cases hv'
  obtain ⟨c1, c2, c3, c4, c5⟩ := newData_contents hd hnd "" (Or.inl rfl) (2, 2)
  simp only [String.append_empty] at c1 c2 c3 c4 c5
  -- the modes that `gwQuantities` reads
  have read : realMode nd "amplm" (2, 2) = some w.amp ∧ realMode nd "phaselm" (2, 2) = some w.phase ∧
      realMode nd "omegalm" (2, 2) = some w.omega := by
    rw [hp] at hq
    unfold gwQuantities at hq
    obtain ⟨da, g1, hq⟩ := bind_ok hq
    obtain ⟨dp, g2, hq⟩ := bind_ok hq
    rw [if_pos (by rfl)] at hq
    obtain ⟨x, g3, hq⟩ := bind_ok hq
    obtain ⟨y, g4, hq⟩ := bind_ok hq
    obtain ⟨dw, g5, hq⟩ := bind_ok hq
    obtain ⟨z, g6, hq⟩ := bind_ok hq
    have := Except.ok.inj hq
    simp only [Prod.mk.injEq] at this
    obtain ⟨rfl, rfl, rfl⟩ := this
    have k1 := getR_realMode g1 (2, 2)
    have k2 := getR_realMode g2 (2, 2)
    have k3 := getR_realMode g5 (2, 2)
    rw [getItem_ok g3] at k1
    rw [getItem_ok g4] at k2
    rw [getItem_ok g6] at k3
    exact ⟨k1, k2, k3⟩
  obtain ⟨r1, r2, r3⟩ := read
  have build : ∀ {t A P W : List K}, full.get? "t" = some (.arr t) → realMode full "amplm" (2, 2) = some A →
      realMode full "phaselm" (2, 2) = some P → realMode full "omegalm" (2, 2) = some W →
      Dominant lib.wave a.dataDict t A P W := by
    intro t A P W h1 h2 h3 h4
    have ht : array a.dataDict "t" = some t := entry_array (c1.symm.trans h1)
    refine ⟨ht, c2.symm.trans h2, c3.symm.trans h3, fun hh => (c4 hh).symm.trans h4, fun hh => ?_⟩
    obtain ⟨φ, t', t0, t1, e1, e2, e3, e4, e5⟩ := c5 hh W h4
    cases ht.symm.trans e2
    cases h3.symm.trans e1
    exact ⟨t0, t1, e3, e4, e5⟩
  rcases hcut with ⟨_, rfl⟩ | ⟨idx, _, hc⟩
  · refine ⟨w.t, w.amp, w.phase, w.omega, w.t.length + w.amp.length + w.phase.length + w.omega.length,
      build (getArr_ok ht') r1 r2 r3, ?_⟩
    rw [List.take_of_length_le (by omega), List.take_of_length_le (by omega), List.take_of_length_le (by omega),
      List.take_of_length_le (by omega)]
  · obtain ⟨sp1, sp2⟩ := (newData_spec hnd).amp, (newData_spec hnd).omega
    obtain ⟨da, _, _, _, ea, _⟩ := sp1
    obtain ⟨dp, _, _, _, _, ep, _⟩ := sp2
    obtain ⟨w0, w', t2, g1, g2, g3, get⟩ := cutData_ok hc ea ep
    have n1 : nd.get? "amplm" = _ := get "amplm"
    have n2 : nd.get? "phaselm" = _ := get "phaselm"
    have n3 : nd.get? "omegalm" = _ := get "omegalm"
    have n4 : nd.get? "t" = _ := get "t"
    simp only [reduceIte, String.reduceEq] at n1 n2 n3 n4
    have m1 := realMode_cut (idx := idx) ea n1 rfl (2, 2)
    have m2 := realMode_cut (idx := idx) ep n2 rfl (2, 2)
    have m3 := realMode_cut (idx := idx) g1 n3 g2 (2, 2)
    rw [r1] at m1
    rw [r2] at m2
    rw [r3] at m3
    obtain ⟨A, hA, eA⟩ := Option.map_eq_some_iff.mp m1.symm
    obtain ⟨P, hP, eP⟩ := Option.map_eq_some_iff.mp m2.symm
    obtain ⟨W, hW, eW⟩ := Option.map_eq_some_iff.mp m3.symm
    refine ⟨t2, A, P, W, idx, build g3 hA hP hW, ?_⟩
    have := getArr_ok ht'
    rw [n4] at this
    cases w
    simp only at eA eP eW this
    cases this
    rw [eA, eP, eW]

/-- The samples of a piece, as a list. -/
theorem piece_list {l l' : List K} {s e : ℕ} (he : e ≤ l.length)
    (h : ∀ k, l'[k]? = if s + k < e then l[s + k]? else none) : l' = (l.drop s).take (e - s) := by
  apply List.ext_getElem?
  intro k
  rw [h, List.getElem?_take, List.getElem?_drop]
  by_cases hk : s + k < e
  · rw [if_pos hk, if_pos (by omega)]
  · rw [if_neg hk, if_neg (by omega)]

/-- The waveform used for the search is a stretch of the (2,2) data, the same for all arrays. -/
theorem stretch_of {t A P W : List K} {w w' : Wave K} {idx s e : ℕ} (hw : w = ⟨t.take idx, A.take idx, P.take idx, W.take idx⟩)
    (h : IsPiece w w' s e) (hs : SameLength w) : ∃ n, w' = ⟨(t.drop s).take n, (A.drop s).take n, (P.drop s).take n,
      (W.drop s).take n⟩ := by
  obtain ⟨he, h1, h2, h3, h4⟩ := h
  obtain ⟨l1, l2, l3⟩ := hs
  have e1 := piece_list he h1
  have e2 := piece_list (l1 ▸ he) h2
  have e3 := piece_list (l2 ▸ he) h3
  have e4 := piece_list (l3 ▸ he) h4
  refine ⟨min (e - s) (idx - s), ?_⟩
  rw [hw] at e1 e2 e3 e4
  simp only [List.drop_take, List.take_take] at e1 e2 e3 e4
  cases w'
  simp only at e1 e2 e3 e4
  rw [e1, e2, e3, e4]

theorem stretch_getD (l : List K) (s n i : ℕ) (h : i < ((l.drop s).take n).length) :
    ((l.drop s).take n).getD i 0 = l.getD (s + i) 0 := by
  rw [List.length_take] at h
  rw [List.getD_eq_getElem?_getD, List.getD_eq_getElem?_getD, List.getElem?_take, if_pos (by omega), List.getElem?_drop]

theorem stretch_values (l : List K) (s n : ℕ) (idx : List ℕ) (h : ∀ i ∈ idx, i < ((l.drop s).take n).length) :
    (idx.map fun i => ((l.drop s).take n).getD i 0) = valuesAt l (idx.map (s + ·)) := by
  unfold valuesAt
  rw [List.map_map]
  exact List.map_congr_left fun i hi => stretch_getD l s n i (h i hi)

theorem stretch_orbit (φ t : List K) (s n : ℕ) (idx : List ℕ) (h1 : ∀ i ∈ idx, i < ((φ.drop s).take n).length)
    (h2 : ∀ i ∈ idx, i < ((t.drop s).take n).length) :
    OrbitPoints ((φ.drop s).take n) ((t.drop s).take n) idx = OrbitPoints φ t (idx.map (s + ·)) := by
  unfold OrbitPoints
  rw [← List.map_tail, List.zip_map, List.map_map]
  refine List.map_congr_left fun ij hij => ?_
  obtain ⟨i, j⟩ := ij
  have hi := (List.of_mem_zip hij).1
  have hj := List.mem_of_mem_tail (List.of_mem_zip hij).2
  simp only [Function.comp, Prod.map, MeanRate]
  rw [stretch_getD t s n i (h2 i hi), stretch_getD t s n j (h2 j hj), stretch_getD φ s n i (h1 i hi),
    stretch_getD φ s n j (h1 j hj)]

/-- Midpoints of increasing positions are increasing positions. -/
theorem midpoints_positions {n : ℕ} {p : List ℕ} (h1 : p.Pairwise (· < ·)) (h2 : ∀ i ∈ p, i < n) :
    (midpointApocenters p).Pairwise (· < ·) ∧ ∀ i ∈ midpointApocenters p, i < n := by
  have len := (C26_midpoints p).1
  have val : ∀ i (h : i + 1 < p.length) (h' : i < (midpointApocenters p).length),
      (midpointApocenters p)[i] = (p[i] + p[i + 1]) / 2 := by
    intro i h h'
    simp only [midpointApocenters, List.getElem_zipWith, List.getElem_dropLast, List.getElem_drop]
    congr 3; simp [Nat.add_comm]
  have mono := List.pairwise_iff_getElem.mp h1
  constructor
  · rw [List.pairwise_iff_getElem]
    intro i j hi hj hij
    rw [val i (by omega) hi, val j (by omega) hj]
    have a1 := mono i (i + 1) (by omega) (by omega) (by omega)
    have a2 := mono j (j + 1) (by omega) (by omega) (by omega)
    rcases Nat.lt_or_ge (i + 1) j with h | h
    · have a3 := mono (i + 1) j (by omega) (by omega) h
      omega
    · have : j = i + 1 := by omega
      subst this
      omega
  · intro x hx
    obtain ⟨i, hi, rfl⟩ := List.getElem_of_mem hx
    rw [val i (by omega) hi]
    have a1 := h2 _ (List.getElem_mem (show i < p.length by omega))
    have a2 := h2 _ (List.getElem_mem (show i + 1 < p.length by omega))
    omega

/-- The choice of the class and of the reference points. -/
theorem dispatch_cases {a : Call K C} {c : MethodClass} {domain : Domain} {ref : Val K}
    (h : dispatch a = .ok (c, domain, ref)) : availableMethods.get? a.method = some c ∧
      ((a.trefIn = some ref ∧ a.frefIn = none ∧ domain = .time) ∨
        (a.trefIn = none ∧ a.frefIn = some ref ∧ domain = .frequency)) := by
  unfold dispatch at h
  split at h
  · obtain ⟨c', h1, h⟩ := bind_ok h
    obtain ⟨⟨d, v⟩, h2, h⟩ := bind_ok h
    cases h
    refine ⟨getItem_ok h1, ?_⟩
    unfold initReference at h2
    obtain ⟨r, h3, h2⟩ := bind_ok h2
    split at h2
    · cases h2
      cases ht : a.trefIn <;> cases hf : a.frefIn <;> rw [ht, hf] at h3 <;> cases h3
      · exact Or.inr ⟨rfl, rfl, rfl⟩
      · exact Or.inl ⟨rfl, rfl, rfl⟩
    · cases h2
  · cases h

theorem residual_lengths {lib : Libs K C} {kw : SplineKwargs} {precessing : Bool} {nd : DataV K C} {tMerger : K} {w : Wave K}
    {res : Option (Residual K)} {z : Option (List K × List K)}
    (h : residualStage lib kw precessing nd tMerger w = .ok (res, z)) :
    ∀ r, res = some r → r.resAmp.length = w.amp.length ∧ r.resOmega.length = w.omega.length := by
  unfold residualStage at h
  obtain ⟨r, h1, h⟩ := bind_ok h
  have hr : res = r := by
    cases r with
    | none => cases h; rfl
    | some r =>
      obtain ⟨_, _, h⟩ := bind_ok h
      obtain ⟨⟨_, _, _⟩, _, h⟩ := bind_ok h
      cases h; rfl
  subst hr
  intro r hr
  subst hr
  unfold residualData at h1
  split at h1
  swap
  · cases h1
  obtain ⟨_, _, h1⟩ := bind_ok h1
  obtain ⟨_, _, h1⟩ := bind_ok h1
  obtain ⟨⟨_, _, _⟩, _, h1⟩ := bind_ok h1
  obtain ⟨_, _, h1⟩ := bind_ok h1
  obtain ⟨_, _, h1⟩ := bind_ok h1
  obtain ⟨r', hr, h1⟩ := bind_ok h1
  cases h1
  unfold residualCore at hr
  obtain ⟨⟨tm, fm⟩, _, hr⟩ := bind_ok hr
  obtain ⟨_, _, hr⟩ := bind_ok hr
  obtain ⟨_, _, hr⟩ := bind_ok hr
  split at hr
  · cases hr
  obtain ⟨_, _, hr⟩ := bind_ok hr
  split at hr
  · cases hr
  obtain ⟨x, _, hr⟩ := bind_ok hr
  obtain ⟨ra, hra, hr⟩ := bind_ok hr
  obtain ⟨y, _, hr⟩ := bind_ok hr
  obtain ⟨ro, hro, hr⟩ := bind_ok hr
  cases hr
  unfold npZip at hra hro
  split at hra
  swap
  · cases hra
  split at hro
  swap
  · cases hro
  rename_i q1 q2
  cases hra; cases hro
  exact ⟨by simp [q1], by simp [q2]⟩

end

end GwEcc
