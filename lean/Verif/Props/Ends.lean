import Verif.Spec.Ends
import Verif.Lemmas.SampleCount
import Verif.Lemmas.Construct
import Verif.Lemmas.RunDemo
import Verif.Props.Options
import Verif.Props.SpinFilter
import Verif.Props.Fits

/-!
# C86: a whole call comes to an end
-/

set_option linter.unusedSectionVars false

namespace GwEcc

open Spec

section
variable {K C : Type} [Field K] [LinearOrder K] [IsStrictOrderedRing K] [FloorRing K]

/-- The times after the preparation are the first of those given. -/
theorem loadWave_times {lib : Libs K C} {a : Call K C} {nd : DataV K C} {an : Analysis K} {w : Wave K}
    (h : loadWave lib a = .ok (nd, an, w)) :
    ∃ (t : List K) (idx : ℕ), a.dataDict.get? "t" = some (.arr t) ∧ w.t = t.take idx := by
  obtain ⟨hp, ht', _, _⟩ := loadWave_ok h
  obtain ⟨v', full, _, hv', hnd, han, hcut⟩ := processData_ok hp
  obtain ⟨t, _, b, _, _, _, _, _, _, _, _, ht, hb, _⟩ := (analyse_spec han).parts
  have sp := newData_spec hnd
  have hkeys : ∀ key ∈ ["t", "t_zeroecc"], v'.get? key = a.dataDict.get? key := by
    split at hv'
    · exact toCoprecessing_t hv'
    · cases hv'
      exact fun _ _ => rfl
  have htv : a.dataDict.get? "t" = some (.arr t) := by rw [← hkeys "t" (by simp), ← sp.t.2, ht]
  have hw := getArr_ok ht'
  rcases hcut with ⟨_, rfl⟩ | ⟨idx, _, hc⟩
  · rw [ht] at hw
    exact ⟨t, t.length, htv, by rw [List.take_length]; exact (Entry.arr.inj (Option.some.inj hw)).symm⟩
  · obtain ⟨p, q, x, hp, _, hnp, _⟩ := sp.omega
    obtain ⟨_, _, t2, _, _, ht2, get⟩ := cutData_ok hc hb hnp
    rw [ht] at ht2
    cases ht2
    rw [get, if_pos rfl] at hw
    exact ⟨t, idx, htv, (Entry.arr.inj (Option.some.inj hw)).symm⟩

theorem le_head_of_diff_neg : ∀ (x : K) (l : List K), (∀ d ∈ diff (x :: l), d < 0) → ∀ y ∈ x :: l, y ≤ x
  | x, [], _, y, hy => by simp at hy; exact hy.le
  | x, z :: l, h, y, hy => by
    have hz : z - x < 0 := h _ (by simp [diff])
    have ih := le_head_of_diff_neg z l fun d hd => h d (by simp [diff, hd])
    rcases List.mem_cons.mp hy with rfl | hy
    · exact le_refl _
    · have := ih y hy
      linarith

/-- Steps that are accepted and do not vanish go in one direction. -/
theorem checkSteps_direction {t : List K} (h : checkSteps t = .ok ()) (hf : FirstStep t) :
    t.Pairwise (· < ·) ∨ ∀ x l, t = x :: l → ∀ y ∈ t, y ≤ x := by
  unfold checkSteps at h
  obtain ⟨d0, h0, h⟩ := bind_ok h
  split at h
  · rename_i hc
    match t, h0, hf, hc with
    | [], h0, _, _ => exact .inl List.Pairwise.nil
    | [x], h0, _, _ => exact .inl (List.pairwise_singleton _ _)
    | x :: y :: l, h0, hf, hc =>
      have e : d0 = y - x := (Except.ok.inj h0).symm
      have hf := hf x y rfl rfl
      rw [← e] at hf
      have hall : ∀ d ∈ diff (x :: y :: l), |d - d0| < |d0| := by
        intro d hd
        have := of_decide_eq_true (List.all_eq_true.mp hc d hd)
        have h1 : (1 : K) / 10 ^ 8 + 1 / 10 ^ 5 * |d0| < |d0| := by
          have : (1 : K) / 10 ^ 8 < (1 - 1 / 10 ^ 5) * (1 / 10 ^ 7) := by norm_num
          have : (1 - 1 / 10 ^ 5) * (1 / 10 ^ 7) ≤ (1 - 1 / 10 ^ 5) * |d0| := mul_le_mul_of_nonneg_left hf (by norm_num)
          linarith
        linarith
      rcases lt_trichotomy d0 0 with hn | hz | hp
      · right
        intro z m hm
        cases hm
        refine le_head_of_diff_neg x (y :: l) fun d hd => ?_
        have := (abs_lt.mp (hall d hd)).2
        rw [abs_of_neg hn] at this
        linarith
      · rw [hz, abs_zero] at hf
        exact absurd hf (by norm_num)
      · left
        refine (diff_pos_iff _).mp fun d hd => ?_
        have := (abs_lt.mp (hall d hd)).1
        rw [abs_of_pos hp] at this
        linarith
  · cases h

open GwEcc.Filter in
theorem segments_end (lib : FilterLib K) (cfg : FilterCfg K) (o : FilterObj K)
    (ht : o.t.Pairwise (· < ·) ∨ ∀ x l, o.t = x :: l → ∀ y ∈ o.t, y ≤ x) (hseg : 0 < cfg.segmentSize) (ha : 0 < cfg.alpha) :
    ∃ n r, ∀ fuel, n ≤ fuel → segments fuel lib cfg o = some r := by
  rcases ht with hs | hd
  · exact C46_terminates lib cfg o hs hseg ha
  · unfold segments
    split
    · rename_i first last h0 h1
      refine ⟨1, .ok [], fun fuel hf => ?_⟩
      obtain ⟨f, rfl⟩ : ∃ f, fuel = f + 1 := ⟨fuel - 1, by omega⟩
      obtain ⟨hne, hl⟩ := pyLast_ok h1
      have hfirst := pyGet_getElem? h0
      have hle : last ≤ first := by
        have hmem : last ∈ o.t := by
          rw [← hl]
          exact List.getLast_mem hne
        generalize o.t = t at *
        cases t with
        | nil => cases hfirst
        | cons x l =>
          cases hfirst
          exact hd first l rfl last hmem
      refine runLoop_inr ?_ f
      unfold segmentStep
      rw [if_neg (not_lt.mpr hle)]
    · exact ⟨0, _, fun _ _ => rfl⟩

open GwEcc.Filter in
theorem filterKind_end (lib : FilterLib K) (cfg : FilterCfg K) (tm : K) (m : CoprModes K) (kind : Kind)
    (ht : m.t.Pairwise (· < ·) ∨ ∀ x l, m.t = x :: l → ∀ y ∈ m.t, y ≤ x) (hseg : 0 < cfg.segmentSize) (ha : 0 < cfg.alpha) :
    ∃ n r, ∀ fuel, n ≤ fuel → filterKind fuel lib cfg tm m kind = some r := by
  unfold filterKind
  split
  · exact ⟨0, _, fun _ _ => rfl⟩
  · exact ⟨0, _, fun _ _ => rfl⟩
  · rename_i data o hm
    have hot : o.t = m.t := by
      unfold makeFilter at hm
      obtain ⟨_, _, hm⟩ := bind_ok hm
      obtain ⟨_, _, hm⟩ := bind_ok hm
      split at hm
      · cases hm
      · obtain ⟨⟨_, _, _⟩, _, hm⟩ := bind_ok hm
        dsimp only at hm
        split at hm
        · obtain ⟨_, _, hm⟩ := bind_ok hm
          obtain ⟨_, _, hm⟩ := bind_ok hm
          cases hm; rfl
        · obtain ⟨_, _, hm⟩ := bind_ok hm
          cases hm; rfl
    split
    · exact ⟨0, _, fun _ _ => rfl⟩
    · obtain ⟨n, r, h⟩ := segments_end lib cfg o (by rw [hot]; exact ht) hseg ha
      refine ⟨n, r.bind fun segs => (combine lib.hanning o.t segs).bind fun f => .ok ⟨f, data, some f⟩, fun fuel hf => ?_⟩
      unfold applyFilter
      rw [h fuel hf]
      cases r <;> rfl

open GwEcc.Filter in
theorem checkAndFilter_end (lib : FilterLib K) (cfg : FilterCfg K) (tm : K) (m : CoprModes K)
    (ht : m.t.Pairwise (· < ·) ∨ ∀ x l, m.t = x :: l → ∀ y ∈ m.t, y ≤ x) (hseg : 0 < cfg.segmentSize) (ha : 0 < cfg.alpha) :
    ∃ n r, ∀ fuel, n ≤ fuel → checkAndFilter fuel lib cfg tm m = some r := by
  obtain ⟨n1, r1, h1⟩ := filterKind_end lib cfg tm m .amp ht hseg ha
  obtain ⟨n2, r2, h2⟩ := filterKind_end lib cfg tm m .omega ht hseg ha
  cases r1 with
  | error e =>
    refine ⟨n1, .error e, fun fuel hf => ?_⟩
    unfold checkAndFilter
    rw [h1 fuel hf]
  | ok a =>
    cases r2 with
    | error e =>
      refine ⟨max n1 n2, .error e, fun fuel hf => ?_⟩
      unfold checkAndFilter
      rw [h1 fuel (le_trans (le_max_left _ _) hf), h2 fuel (le_trans (le_max_right _ _) hf)]
    | ok w =>
      refine ⟨max n1 n2, (filterPhase m w).bind fun p => .ok ⟨a, w, p⟩, fun fuel hf => ?_⟩
      unfold checkAndFilter
      rw [h1 fuel (le_trans (le_max_left _ _) hf), h2 fuel (le_trans (le_max_right _ _) hf)]
      rfl

theorem number_pos {v : Leaf K} {x : K} (h : v.number = .ok x) (hp : PositiveLeaf v) : 0 < x := by
  cases v with
  | num y => cases h; exact hp
  | int n => cases h; exact Int.cast_pos.mpr hp
  | bool b =>
    cases h
    rw [show b = true from hp]
    simp
  | _ => exact hp.elim

theorem filterInput_end {a : Call K C} {nd : DataV K C} {w : Wave K} {kw : Kwargs K} {cfg : Filter.FilterCfg K}
    {m : Filter.CoprModes K} (h : filterInput a nd w = .ok (kw, cfg, m))
    (halpha : ∀ v, filterOption a.extra "alpha" = some v → PositiveLeaf v)
    (hsize : ∀ v, filterOption a.extra "segment_size" = some v → PositiveLeaf v) :
    0 < cfg.alpha ∧ 0 < cfg.segmentSize ∧ m.t = w.t := by
  unfold filterInput at h
  obtain ⟨kw', hkw, h⟩ := bind_ok h
  obtain ⟨cfg', hcfg, h⟩ := bind_ok h
  obtain ⟨m', hm, h⟩ := bind_ok h
  cases h
  have hin : ∀ k v, kw.get? k = some v → filterOption a.extra k = some v := by
    intro k v hv
    unfold filterOptions at hkw
    obtain ⟨u, hu, hkw⟩ := bind_ok hkw
    rw [(checkKwargs_known hkw).2 k] at hv
    unfold filterOption
    cases hg : (a.extra.getD []).get? "filter_kwargs" with
    | none =>
      rw [hg] at hu
      cases hu
      rw [inForce_eq] at hv ⊢
      exact hv
    | some o =>
      rw [hg] at hu
      cases o with
      | dict d => cases hu; exact hv
      | leaf l =>
        cases l with
        | none => cases hu; exact hv
        | _ => cases hu
  have hmt : m.t = w.t := by
    unfold coprModes at hm
    repeat obtain ⟨_, _, hm⟩ := bind_ok hm
    cases hm
    rfl
  unfold filterCfg at hcfg
  obtain ⟨_, _, hcfg⟩ := bind_ok hcfg
  obtain ⟨_, _, hcfg⟩ := bind_ok hcfg
  obtain ⟨va, hva, hcfg⟩ := bind_ok hcfg
  obtain ⟨xa, hxa, hcfg⟩ := bind_ok hcfg
  obtain ⟨vs, hvs, hcfg⟩ := bind_ok hcfg
  obtain ⟨xs, hxs, hcfg⟩ := bind_ok hcfg
  have h1 := number_pos hxa (halpha va (hin _ _ (getItem_ok hva)))
  have h2 := number_pos hxs (hsize vs (hin _ _ (getItem_ok hvs)))
  repeat obtain ⟨_, _, hcfg⟩ := bind_ok hcfg
  cases hcfg
  exact ⟨h1, h2, hmt⟩

/-- **C86.**  A whole call comes to an end, with a result or an exception, for every waveform, every reference point, every
other option and every behaviour of the numerical libraries, if the first two times differ by at least 1e-7 and the advance and
the size of the segments of the spin filter are positive (they are by default). -/
theorem C86_ends_partial (lib : Libs K C) (a : Call K C) (ht : ∀ t, Spec.array a.dataDict "t" = some t → FirstStep t)
    (halpha : ∀ v, filterOption a.extra "alpha" = some v → PositiveLeaf v)
    (hsize : ∀ v, filterOption a.extra "segment_size" = some v → PositiveLeaf v) :
    ∃ n r, ∀ fuel, n ≤ fuel → run fuel lib a = some r := by
  unfold run
  cases hd : dispatch a with
  | error e => exact ⟨0, _, fun _ _ => rfl⟩
  | ok q =>
    obtain ⟨c, domain, ref⟩ := q
    dsimp only
    unfold construct
    cases hl : loadWave lib a with
    | error e => exact ⟨0, _, fun _ _ => rfl⟩
    | ok q =>
      obtain ⟨nd, an, w⟩ := q
      dsimp only
      have hf : ∃ n r, ∀ fuel, n ≤ fuel → filterStage fuel lib a nd an w = some r := by
        unfold filterStage
        split
        · cases hi : filterInput a nd w with
          | error e => exact ⟨0, _, fun _ _ => rfl⟩
          | ok q =>
            obtain ⟨kw, cfg, m⟩ := q
            dsimp only
            obtain ⟨h1, h2, h3⟩ := filterInput_end hi halpha hsize
            obtain ⟨t, idx, htv, hwt⟩ := loadWave_times hl
            have hs : FirstStep w.t := by
              intro x y hx hy
              rw [hwt, List.getElem?_take] at hx hy
              split at hx <;> split at hy <;> try contradiction
              exact ht t (array_of htv) x y hx hy
            have hdir := checkSteps_direction (loadWave_ok hl).2.2.1 hs
            rw [← h3] at hdir
            obtain ⟨n, r, h⟩ := checkAndFilter_end lib.filter cfg an.tMerger m hdir h2 h1
            exact ⟨n, _, fun fuel hf => by rw [h fuel hf, Option.map_some]⟩
        · exact ⟨0, _, fun _ _ => rfl⟩
      obtain ⟨n, r, h⟩ := hf
      exact ⟨n, _, fun fuel hf => by rw [h fuel hf, Option.map_some, Option.map_some]⟩

/-- **C86.**  Without precession there is no condition. -/
theorem C86_nonprecessing (lib : Libs K C) (a : Call K C) (h : a.precessing.truth = false) :
    ∃ r, ∀ fuel, run fuel lib a = some r := by
  unfold run
  cases hd : dispatch a with
  | error e => exact ⟨_, fun _ => rfl⟩
  | ok q =>
    obtain ⟨c, domain, ref⟩ := q
    dsimp only
    unfold construct
    cases hl : loadWave lib a with
    | error e => exact ⟨_, fun _ => rfl⟩
    | ok q =>
      obtain ⟨nd, an, w⟩ := q
      simp only [filterStage_off _ lib a nd an w h]
      exact ⟨_, fun _ => rfl⟩

/-- **C86.**  The searches of the fits methods end within the passes the model of a call gives them: the failure the model
uses for a search that does not end never occurs. -/
theorem C86_search (lib : Libs K C) (cfg : FitsCfg K) (d : FitsData K) (ty : ExtType) :
    ∃ r, findExtrema passLimit fitsFuel lib.fits cfg d ty.sign = some r ∧
      ∀ fuel, fitsFuel ≤ fuel → findExtrema passLimit fuel lib.fits cfg d ty.sign = some r := by
  obtain ⟨r, h⟩ := Fits.C39_terminates lib.fits cfg d ty.sign
  exact ⟨r, h _ (le_refl _), h⟩

end

/-! ### A concrete case -/

example : (∀ t, Spec.array RunDemo.callP.dataDict "t" = some t → FirstStep t) ∧
    (∀ v, filterOption RunDemo.callP.extra "alpha" = some v → PositiveLeaf v) ∧
    (∀ v, filterOption RunDemo.callP.extra "segment_size" = some v → PositiveLeaf v) := by
  refine ⟨?_, ?_, ?_⟩
  · intro t ht
    have : t = RunDemo.times := (Option.some.inj ht).symm
    subst this
    intro x y hx hy
    cases hx
    cases hy
    norm_num
  · intro v hv
    cases hv
    exact (by decide : (0 : ℤ) < 2)
  · intro v hv
    cases hv
    exact (by decide : (0 : ℤ) < 15)

example : RunDemo.call.precessing.truth = false := rfl

/-! ### An advance of zero -/

namespace EndsDemo

/-- A user sets the advance of the filter's segments. -/
def advance (n : ℤ) : Call ℚ (ℚ × ℚ) :=
  { RunDemo.callP with
    extra := some [("filter_kwargs", .dict [("alpha", .int n), ("filter_threshold", .num 0), ("padding_length", .int 4)])] }

end EndsDemo

section
variable {K : Type} [Field K] [LinearOrder K] [IsStrictOrderedRing K] [FloorRing K]

open GwEcc.Filter in
theorem segments_stuck {lib : FilterLib K} {cfg : FilterCfg K} {o : FilterObj K} {first last : K} {r : Segment K}
    (h0 : pyGet o.t 0 = .ok first) (h1 : pyLast o.t = .ok last) (hlt : first < last) (ha : cfg.alpha = 0)
    (hr : filterSegment lib cfg o first = .ok r) (fuel : ℕ) : segments fuel lib cfg o = none := by
  unfold segments
  rw [h0, h1]
  dsimp only
  generalize ([] : List (Segment K)) = acc
  induction fuel generalizing acc with
  | zero => rfl
  | succ f ih =>
    have : segmentStep lib cfg o last (first, acc) = .inl (first, acc ++ [r]) := by
      unfold segmentStep
      rw [if_pos hlt, hr, ha, zero_mul, add_zero]
    rw [runLoop_inl this]
    exact ih _

end

/-- Everything up to the first segment succeeds. -/
def EndsDemo.reaches (lib : Libs ℚ (ℚ × ℚ)) (a : Call ℚ (ℚ × ℚ)) : Bool :=
  match dispatch a, loadWave lib a with
  | .ok _, .ok (nd, an, w) =>
    match filterInput a nd w with
    | .ok (_, cfg, m) =>
      match Filter.makeFilter lib.filter cfg an.tMerger m .amp with
      | .ok (_, some o) =>
        match pyGet o.t 0, pyLast o.t with
        | .ok first, .ok last =>
          match Filter.filterSegment lib.filter cfg o first with
          | .ok _ => decide (first < last ∧ cfg.alpha = 0 ∧ cfg.doNotFilter = false ∧ a.precessing.truth = true)
          | .error _ => false
        | _, _ => false
      | _ => false
    | .error _ => false
  | _, _ => false

theorem EndsDemo.none_of_reaches {lib : Libs ℚ (ℚ × ℚ)} {a : Call ℚ (ℚ × ℚ)} (h : EndsDemo.reaches lib a = true) (fuel : ℕ) :
    run fuel lib a = none := by
  unfold EndsDemo.reaches at h
  split at h
  · rename_i q nd an w hd hl
    split at h
    · rename_i kw cfg m hi
      split at h
      · rename_i data o hm
        split at h
        · rename_i first last h0 h1
          split at h
          · rename_i r hr
            obtain ⟨hlt, ha, hdo, hp⟩ := of_decide_eq_true h
            have hseg := segments_stuck h0 h1 hlt ha hr fuel
            obtain ⟨c, domain, ref⟩ := q
            unfold run
            rw [hd]
            dsimp only
            unfold construct
            rw [hl]
            dsimp only
            unfold filterStage
            rw [if_pos hp, hi]
            dsimp only
            unfold Filter.checkAndFilter Filter.filterKind
            rw [hm]
            dsimp only
            rw [hdo]
            unfold Filter.applyFilter
            rw [hseg]
            rfl
          · cases h
        · cases h
      · cases h
    · cases h
  · cases h

/-- **C86 (violation).**  The advance is not checked: with `filter_kwargs={"alpha": 0}` a call for a precessing system that
otherwise returns never ends. -/
theorem C86_advance_violation :
    RunDemo.ecc (run 60 RunDemo.lib (EndsDemo.advance 2)) = some (.ok (some (.array [25 / 204]))) ∧
      ∀ fuel, run fuel RunDemo.lib (EndsDemo.advance 0) = none :=
  ⟨by decide +kernel, EndsDemo.none_of_reaches (by decide +kernel)⟩

end GwEcc
