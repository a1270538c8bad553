import Verif.Lemmas.ConstructOk
import Verif.Lemmas.RunDemo

set_option linter.unusedSectionVars false

/-!
# Properties of the options of a call (C80, C81)
-/

namespace GwEcc

open Spec

section
variable {K C : Type} [Field K] [LinearOrder K] [FloorRing K]

theorem extraDefaults_keys : (extraDefaults (K := K)).keys = optionNames := rfl

theorem splineDefaults_keys : (splineDefaults (K := K)).keys = splineNames := rfl

theorem rationalDefaults_keys : (rationalDefaults (K := K)).keys = rationalNames := rfl

theorem peaksDefaults_keys (w : ℤ) : (peaksDefaults (K := K) w).keys = peaksNames := rfl

theorem fitsDefaults_keys (b : Bool) : (fitsDefaults (K := K) b).keys = fitsNames := rfl

theorem filterDefaults_keys : (filterDefaults (K := K)).keys = filterNames := rfl

/-- A call that finishes either fails or returns. -/
theorem error_of_not_ok {fuel : ℕ} {lib : Libs K C} {a : Call K C} {r : Py (Answer K C)} (h : run fuel lib a = some r)
    (hn : ∀ ans, ¬ Nonempty (Ran fuel lib a ans)) : ∃ e, r = .error e := by
  cases r with
  | error e => exact ⟨e, rfl⟩
  | ok ans => exact absurd (run_ok h) (hn ans)

theorem subKwargs_ok {ex : Extra K} {key : String} {defaults d : Kwargs K} (h : subKwargs ex key defaults = .ok d) :
    ∃ v u, ex.get? key = some v ∧ v.kwargs = .ok u ∧ (∀ k ∈ (u.getD []).keys, k ∈ defaults.keys) ∧
      ∀ k, d.get? k = inForce defaults u k := by
  unfold subKwargs at h
  obtain ⟨v, h1, h⟩ := bind_ok h
  obtain ⟨u, h2, h⟩ := bind_ok h
  refine ⟨v, u, ?_, h2, checkKwargs_known h⟩
  unfold Dict.getItem at h1
  cases hg : ex.get? key with
  | none => rw [hg] at h1; simp at h1
  | some v' => rw [hg] at h1; cases h1; rfl

/-- In the complete options, what the user gave is in force. -/
theorem Finished.given {lib : Libs K C} {c : MethodClass} {domain : Domain} {ref : Val K} {a : Call K C} {nd : DataV K C}
    {an : Analysis K} {w : Wave K} {filtered : Bool} {extra : Option (Extra K)} {b : Built K C}
    (f : Finished lib c domain ref a nd an w filtered extra b) (k : String) :
    f.ex.get? k = inForce extraDefaults extra k := (checkKwargs_known f.h_ex).2 k

theorem Ran.inForce {fuel : ℕ} {lib : Libs K C} {a : Call K C} {ans : Answer K C} (r : Ran fuel lib a ans) (k : String)
    (hk : k ≠ "filter_kwargs") : inForce extraDefaults r.extra k = Spec.inForce extraDefaults a.extra k := by
  rw [inForce_eq, inForce_eq, filterStage_extra r.h_filter k hk]

/-- C80: a call with an option that does not exist fails. -/
theorem C80_option {fuel : ℕ} {lib : Libs K C} {a : Call K C} {r : Py (Answer K C)} (h : run fuel lib a = some r) {k : String}
    (hk : k ∈ (a.extra.getD []).keys) (hn : k ∉ optionNames) : ∃ e, r = .error e := by
  refine error_of_not_ok h fun ans ⟨R⟩ => ?_
  obtain ⟨f⟩ := finish_ok R.h_finish
  have hkf : k ≠ "filter_kwargs" := by rintro rfl; exact hn (by simp [optionNames])
  refine hn ((checkKwargs_known f.h_ex).1 k ?_)
  rw [← Dict.has_iff, Dict.has_iff_get?] at hk ⊢
  rwa [filterStage_extra R.h_filter k hkf]

/-- The names that may be used inside an option that is a set of options: `none` if whatever is there is ignored. -/
def Spec.memberNames (fits : Bool) (precessing : Bool) (interp : String) (key : String) : Option (List String) :=
  if key = "general_interp_kwargs" then some splineNames
  else if key = "special_interp_kwargs_for_omega_gw_extrema" then
    some (if interp = "spline" then splineNames else rationalNames)
  else if key = "extrema_finding_kwargs" then some peaksNames
  else if key = "kwargs_for_fits_methods" ∧ fits = true then some fitsNames
  else if key = "filter_kwargs" ∧ precessing = true then some filterNames
  else none

theorem subKwargs_given {ex : Extra K} {key : String} {defaults d' : Kwargs K} {v : Opt K}
    (h : subKwargs ex key defaults = .ok d') (hg : ex.get? key = some v) :
    ∃ u, v.kwargs = .ok u ∧ ∀ k ∈ (u.getD []).keys, k ∈ defaults.keys := by
  obtain ⟨v', u, h1, h2, h3, -⟩ := subKwargs_ok h
  rw [hg] at h1
  cases h1
  exact ⟨u, h2, h3⟩

theorem extremaOptions_given {ex : Extra K} {level : ℤ} {name : String} {v : Opt K} {r : SplineKwargs × Kwargs K}
    (h : extremaOptions ex level name = .ok r) (hg : ex.get? "special_interp_kwargs_for_omega_gw_extrema" = some v) :
    ∃ u, v.kwargs = .ok u ∧ ∀ k ∈ (u.getD []).keys, k ∈ if name = "spline" then splineNames else rationalNames := by
  unfold extremaOptions at h
  split at h
  · cases h
  · split at h
    · rename_i e
      obtain ⟨kw, h1, -⟩ := bind_ok h
      rw [if_pos e]
      exact subKwargs_given h1 hg
    · rename_i e
      obtain ⟨kw, h1, -⟩ := bind_ok h
      rw [if_neg e]
      exact subKwargs_given h1 hg

theorem finder_given {lib : Libs K C} {c : MethodClass} {ex : Extra K} {p : Kwargs K} {v : Opt K} {tm : K} {s : Series K}
    {w : Wave K} {find : ExtType → Py (List ℕ)} (h : finder lib c ex p tm s w = .ok find) (hc : c.isFits = true)
    (hg : ex.get? "kwargs_for_fits_methods" = some v) :
    ∃ u, v.kwargs = .ok u ∧ ∀ k ∈ (u.getD []).keys, k ∈ fitsNames := by
  unfold finder at h
  obtain ⟨data, -, h1⟩ := bind_ok h
  rw [if_pos hc] at h1
  obtain ⟨kw, h2, -⟩ := bind_ok h1
  exact subKwargs_given h2 hg

theorem filterOptions_given {extra : Option (Extra K)} {kw : Kwargs K} {v : Opt K} (h : filterOptions extra = .ok kw)
    (hg : (extra.getD []).get? "filter_kwargs" = some v) :
    ∃ u, v.kwargs = .ok u ∧ ∀ k ∈ (u.getD []).keys, k ∈ filterNames := by
  unfold filterOptions at h
  dsimp only at h
  rw [hg] at h
  obtain ⟨u, h1, h2⟩ := bind_ok h
  exact ⟨u, h1, (checkKwargs_known h2).1⟩

/-- In a call that returns, a set of options that is looked at is none or a dictionary of names that exist. -/
theorem Ran.members {fuel : ℕ} {lib : Libs K C} {a : Call K C} {ans : Answer K C} (R : Ran fuel lib a ans)
    {c : MethodClass} (hc : availableMethods.get? a.method = some c) {interp : Opt K}
    (hi : Spec.inForce extraDefaults a.extra "omega_gw_extrema_interpolation_method" = some interp) {key : String} {v : Opt K}
    (hg : (a.extra.getD []).get? key = some v) {names : List String}
    (hm : memberNames c.isFits a.precessing.truth interp.name key = some names) :
    ∃ u, v.kwargs = .ok u ∧ ∀ k ∈ (u.getD []).keys, k ∈ names := by
  obtain ⟨f⟩ := finish_ok R.h_finish
  have hgiven : ∀ key, key ≠ "filter_kwargs" → (a.extra.getD []).get? key = some v → f.ex.get? key = some v := by
    intro key hne hg
    rw [f.given, R.inForce key hne, inForce_eq, hg]
    rfl
  have hcc : R.c = c := by
    have h1 := R.h_dispatch
    unfold dispatch at h1
    split at h1
    · unfold Dict.getItem at h1
      rw [hc] at h1
      simp only [ok_bind] at h1
      obtain ⟨x, -, h2⟩ := bind_ok h1
      exact (congrArg (·.1) (Except.ok.inj h2)).symm
    · cases h1
  have hmeth : f.method = interp := by
    have h1 := f.h_method
    unfold Dict.getItem at h1
    rw [f.given, R.inForce _ (by decide), hi] at h1
    exact (Except.ok.inj h1).symm
  unfold memberNames at hm
  split at hm
  · rename_i e; subst e; cases hm
    exact subKwargs_given f.h_general (hgiven _ (by decide) hg)
  split at hm
  · rename_i e; subst e; cases hm
    have h1 := f.h_special
    rw [hmeth] at h1
    exact extremaOptions_given h1 (hgiven _ (by decide) hg)
  split at hm
  · rename_i e; subst e; cases hm
    exact subKwargs_given f.h_peaks (hgiven _ (by decide) hg)
  split at hm
  · rename_i e; obtain ⟨rfl, e⟩ := e; cases hm
    exact finder_given f.h_find (by rw [hcc]; exact e) (hgiven _ (by decide) hg)
  split at hm
  · rename_i e; obtain ⟨rfl, e⟩ := e; cases hm
    obtain ⟨kw, cfg, m, ff, h1, -⟩ := filterStage_on e R.h_filter
    exact filterOptions_given h1 hg
  · cases hm

/-- C80, as far as it holds: a call with a member that does not exist, in a set of options that is looked at, fails.  `c` is
the class of the method. -/
theorem C80_member_partial {fuel : ℕ} {lib : Libs K C} {a : Call K C} {r : Py (Answer K C)} (h : run fuel lib a = some r)
    {c : MethodClass} (hc : availableMethods.get? a.method = some c) {interp : Opt K}
    (hi : inForce extraDefaults a.extra "omega_gw_extrema_interpolation_method" = some interp) {key k : String} {d : Kwargs K}
    (hg : (a.extra.getD []).get? key = some (.dict d)) (hk : k ∈ d.keys) {names : List String}
    (hm : memberNames c.isFits a.precessing.truth interp.name key = some names) (hn : k ∉ names) : ∃ e, r = .error e := by
  refine error_of_not_ok h fun ans ⟨R⟩ => ?_
  obtain ⟨u, h1, h2⟩ := R.members hc hi hg hm
  cases h1
  exact hn (h2 k hk)

/-- C80, as far as it holds: nor is anything but `None` or a dictionary accepted for a set of options that is looked at, not
even `False` or an empty string. -/
theorem C80_value_partial {fuel : ℕ} {lib : Libs K C} {a : Call K C} {r : Py (Answer K C)} (h : run fuel lib a = some r)
    {c : MethodClass} (hc : availableMethods.get? a.method = some c) {interp : Opt K}
    (hi : inForce extraDefaults a.extra "omega_gw_extrema_interpolation_method" = some interp) {key : String} {v : Leaf K}
    (hg : (a.extra.getD []).get? key = some (.leaf v)) (hv : v ≠ .none) {names : List String}
    (hm : memberNames c.isFits a.precessing.truth interp.name key = some names) : ∃ e, r = .error e := by
  refine error_of_not_ok h fun ans ⟨R⟩ => ?_
  obtain ⟨u, h1, -⟩ := R.members hc hi hg hm
  cases v <;> first | exact hv rfl | cases h1

theorem checkKwargs_rel_except {u u' : Option (Extra K)} {k0 : String} (hk0 : k0 ∈ optionNames)
    (h : ∀ k, k ≠ k0 → (u.getD []).get? k = (u'.getD []).get? k) :
    PyRel (fun d d' => ∀ k, k ≠ k0 → d.get? k = d'.get? k) (checkKwargs u extraDefaults) (checkKwargs u' extraDefaults) := by
  have key : ∀ (u u' : Option (Extra K)), (∀ k, k ≠ k0 → (u.getD []).get? k = (u'.getD []).get? k) →
      (∀ k ∈ (u.getD []).keys, k ∈ (extraDefaults (K := K)).keys) → ∀ k ∈ (u'.getD []).keys, k ∈ (extraDefaults (K := K)).keys := by
    intro u u' h hu k hk
    by_cases e : k = k0
    · subst e; exact hk0
    · refine hu k ?_
      rw [← Dict.has_iff, Dict.has_iff_get?] at hk ⊢
      rwa [h k e]
  by_cases hu : ∀ k ∈ (u.getD []).keys, k ∈ (extraDefaults (K := K)).keys
  · obtain ⟨d, e, hd⟩ := checkKwargs_ok hu
    obtain ⟨d', e', hd'⟩ := checkKwargs_ok (key u u' h hu)
    rw [e, e']
    refine .ok fun k hk => ?_
    rw [hd, hd', inForce_eq, inForce_eq, h k hk]
  · have hu' : ¬ ∀ k ∈ (u'.getD []).keys, k ∈ (extraDefaults (K := K)).keys :=
      fun hc => hu (key u' u (fun k hk => (h k hk).symm) hc)
    push Not at hu hu'
    obtain ⟨k, h1, h2⟩ := hu
    obtain ⟨k', h1', h2'⟩ := hu'
    rw [checkKwargs_unknown h1 h2, checkKwargs_unknown h1' h2']
    exact .error _

theorem subKwargs_congr {ex ex' : Extra K} {key : String} (h : ex.get? key = ex'.get? key) (d : Kwargs K) :
    PyRel SameDict (subKwargs ex key d) (subKwargs ex' key d) := by
  unfold subKwargs
  rw [Dict.getItem_congr h]
  exact PyRel.refl (fun _ => SameDict.rfl') _

theorem sameFor_fits {c : MethodClass} (hc : c.isFits = false) {ex ex' : Extra K}
    (h : ∀ k, k ≠ "kwargs_for_fits_methods" → ex.get? k = ex'.get? k) : SameFor c ex ex' where
  leaf := by
    intro k hk
    refine Dict.getItem_congr (h k ?_)
    rintro rfl
    simp at hk
  general := subKwargs_congr (h _ (by decide)) _
  peaks := fun _ _ => subKwargs_congr (h _ (by decide)) _
  special := fun _ _ => subKwargs_congr (h _ (by decide)) _
  fits := by rw [hc]; intro e; cases e

theorem sameFor_filter {c : MethodClass} {ex ex' : Extra K}
    (h : ∀ k, k ≠ "filter_kwargs" → ex.get? k = ex'.get? k) : SameFor c ex ex' where
  leaf := by
    intro k hk
    refine Dict.getItem_congr (h k ?_)
    rintro rfl
    simp at hk
  general := subKwargs_congr (h _ (by decide)) _
  peaks := fun _ _ => subKwargs_congr (h _ (by decide)) _
  special := fun _ _ => subKwargs_congr (h _ (by decide)) _
  fits := fun _ => ⟨Dict.getItem_congr (h _ (by decide)), subKwargs_congr (h _ (by decide)) _⟩

/-- C80 does not hold in full: with a method that does not use fits, whatever is given as `kwargs_for_fits_methods` – misspelt
names, no dictionary at all – gives the same. -/
theorem C80_fits_violation (fuel : ℕ) (lib : Libs K C) (a : Call K C) {c : MethodClass}
    (hc : availableMethods.get? a.method = some c) (hf : c.isFits = false) (ex : Extra K) (v v' : Opt K) :
    run fuel lib { a with extra := some (ex.set "kwargs_for_fits_methods" v) } =
      run fuel lib { a with extra := some (ex.set "kwargs_for_fits_methods" v') } := by
  have hg : ∀ k, k ≠ "kwargs_for_fits_methods" →
      (ex.set "kwargs_for_fits_methods" v).get? k = (ex.set "kwargs_for_fits_methods" v').get? k := by
    intro k hk; rw [Dict.get?_set, Dict.get?_set, if_neg hk, if_neg hk]
  have hcl : ∀ b : Call K C, b.method = a.method → ∀ c' d r, dispatch b = .ok (c', d, r) → c'.isFits = false := by
    intro b hb c' d r h1
    unfold dispatch at h1
    rw [hb] at h1
    split at h1
    · unfold Dict.getItem at h1
      rw [hc] at h1
      simp only [ok_bind] at h1
      obtain ⟨x, -, h2⟩ := bind_ok h1
      have : c = c' := congrArg (·.1) (Except.ok.inj h2)
      rw [← this]; exact hf
    · cases h1
  have hfo : filterOptions (some (ex.set "kwargs_for_fits_methods" v)) =
      filterOptions (some (ex.set "kwargs_for_fits_methods" v')) := by
    unfold filterOptions
    dsimp only [Option.getD_some]
    rw [hg _ (by decide)]
  refine run_congr fuel lib { a with extra := some (ex.set "kwargs_for_fits_methods" v) }
    (some (ex.set "kwargs_for_fits_methods" v')) ?_ ?_ ?_
  · intro _
    rw [hfo]
    exact PyRel.refl (fun _ => SameDict.rfl') _
  · intro c' d r hd _
    refine PyRel.mono (checkKwargs_rel_except (k0 := "kwargs_for_fits_methods") (by simp [optionNames]) ?_)
      fun _ _ h => sameFor_fits (hcl _ rfl _ _ _ hd) h
    exact hg
  · intro c' d r hd _ kw kw' h1 h2
    rw [hfo, h2] at h1
    cases h1
    refine PyRel.mono (checkKwargs_rel_except (k0 := "kwargs_for_fits_methods") (by simp [optionNames]) ?_)
      fun _ _ h => sameFor_fits (hcl _ rfl _ _ _ hd) h
    intro k hk
    dsimp only [Option.getD_some]
    rw [Dict.get?_set, Dict.get?_set _ "filter_kwargs", hg k hk]

/-- The same for `filter_kwargs` when the system does not precess. -/
theorem C80_filter_violation (fuel : ℕ) (lib : Libs K C) (a : Call K C) (hp : a.precessing.truth = false) (ex : Extra K)
    (v v' : Opt K) :
    run fuel lib { a with extra := some (ex.set "filter_kwargs" v) } =
      run fuel lib { a with extra := some (ex.set "filter_kwargs" v') } := by
  refine run_congr fuel lib { a with extra := some (ex.set "filter_kwargs" v) } (some (ex.set "filter_kwargs" v')) ?_ ?_ ?_
  · intro h; rw [show _ = _ from hp] at h; cases h
  · intro c' d r hd _
    refine PyRel.mono (checkKwargs_rel_except (k0 := "filter_kwargs") (by simp [optionNames]) ?_) fun _ _ h => sameFor_filter h
    intro k hk
    dsimp only [Option.getD_some]
    rw [Dict.get?_set, Dict.get?_set, if_neg hk, if_neg hk]
  · intro c' d r hd h; rw [show _ = _ from hp] at h; cases h

/-! ### C81 -/

theorem sameValue_rel {d : Kwargs K} {v v' : Opt K} (h : SameValue d v v') :
    PyRel SameDict (v.kwargs >>= fun u => checkKwargs u d) (v'.kwargs >>= fun u => checkKwargs u d) := by
  rcases h with rfl | ⟨u, u', e, e', h⟩
  · exact PyRel.refl (fun _ => SameDict.rfl') _
  · rw [e, e']
    exact checkKwargs_rel h

theorem inForce_some {ex : Option (Extra K)} {k : String} (hk : k ∈ optionNames) :
    ∃ v, inForce extraDefaults ex k = some v := by
  rw [inForce_eq]
  have : (extraDefaults (K := K)).has k = true := (Dict.has_iff _ _).mpr hk
  obtain ⟨v, hv⟩ := (Dict.has_iff_get? _ _).mp this
  rw [hv]
  cases (ex.getD []).get? k with
  | none => exact ⟨v, rfl⟩
  | some w => exact ⟨w, rfl⟩

/-- C81: two users who ask for the same get the same – leaving an option out, giving its default and giving the options in
another order make no difference. -/
theorem C81_same_options (fuel : ℕ) (lib : Libs K C) (a : Call K C) (x : Option (Extra K)) {c : MethodClass}
    (hc : availableMethods.get? a.method = some c) {interp : Opt K}
    (hi : inForce extraDefaults a.extra "omega_gw_extrema_interpolation_method" = some interp)
    (h : ∀ width, SameExtra extraDefaults (groupDefaults c interp.name width) a.extra x) :
    run fuel lib a = run fuel lib { a with extra := x } := by
  have h0 := h 0
  have hcl : ∀ c' d r, dispatch a = .ok (c', d, r) → c' = c := by
    intro c' d r h1
    unfold dispatch at h1
    split at h1
    · unfold Dict.getItem at h1
      rw [hc] at h1
      simp only [ok_bind] at h1
      obtain ⟨x, -, h2⟩ := bind_ok h1
      exact (congrArg (·.1) (Except.ok.inj h2)).symm
    · cases h1
  -- complete dictionaries in which, apart from the filter, what is in force is found
  have main : ∀ ex ex' : Extra K, (∀ k, k ≠ "filter_kwargs" → ex.get? k = inForce extraDefaults a.extra k) →
      (∀ k, k ≠ "filter_kwargs" → ex'.get? k = inForce extraDefaults x k) → SameFor c ex ex' := by
    intro ex ex' he he'
    have single : ∀ k, k ≠ "filter_kwargs" → groupDefaults (K := K) c interp.name 0 k = none → ex.get? k = ex'.get? k := by
      intro k hk hg
      rw [he k hk, he' k hk, h0.single k hg]
    have group : ∀ k w d, k ≠ "filter_kwargs" → k ∈ optionNames → groupDefaults c interp.name w k = some d →
        PyRel SameDict (subKwargs ex k d) (subKwargs ex' k d) := by
      intro k w d hk hm hg
      obtain ⟨v, hv⟩ := inForce_some (K := K) (ex := a.extra) hm
      obtain ⟨v', hv'⟩ := inForce_some (K := K) (ex := x) hm
      have hs := (h w).group k d v v' hg hv hv'
      unfold subKwargs Dict.getItem
      rw [he k hk, he' k hk, hv, hv']
      exact sameValue_rel hs
    refine ⟨?_, ?_, ?_, ?_, ?_⟩
    · intro k hk
      refine Dict.getItem_congr (single k ?_ ?_)
      · rintro rfl; simp at hk
      · simp only [List.mem_cons, List.not_mem_nil, or_false] at hk
        rcases hk with rfl | rfl | rfl | rfl | rfl <;> rfl
    · exact group "general_interp_kwargs" 0 _ (by decide) (by simp [optionNames]) rfl
    · exact fun w _ => group "extrema_finding_kwargs" w _ (by decide) (by simp [optionNames]) rfl
    · intro m hm
      unfold Dict.getItem at hm
      rw [he _ (by decide), hi] at hm
      cases hm
      exact group "special_interp_kwargs_for_omega_gw_extrema" 0 _ (by decide) (by simp [optionNames]) rfl
    · intro _
      exact ⟨Dict.getItem_congr (single _ (by decide) rfl),
        group "kwargs_for_fits_methods" 0 _ (by decide) (by simp [optionNames]) rfl⟩
  refine run_congr fuel lib a x ?_ ?_ ?_
  · intro _
    obtain ⟨v, hv⟩ := inForce_some (K := K) (ex := a.extra) (k := "filter_kwargs") (by simp [optionNames])
    obtain ⟨v', hv'⟩ := inForce_some (K := K) (ex := x) (k := "filter_kwargs") (by simp [optionNames])
    have hs := h0.group "filter_kwargs" filterDefaults v v' rfl hv hv'
    have e : ∀ (y : Option (Extra K)) v, inForce extraDefaults y "filter_kwargs" = some v →
        filterOptions y = (v.kwargs >>= fun u => checkKwargs u filterDefaults) := by
      intro y v hy
      unfold filterOptions
      dsimp only
      rw [inForce_eq] at hy
      cases hg : (y.getD []).get? "filter_kwargs" with
      | none =>
        rw [hg] at hy
        have : v = Opt.dict [] := by
          have h1 : (extraDefaults (K := K)).get? "filter_kwargs" = some v := hy
          exact (Option.some.inj h1).symm
        subst this
        rfl
      | some w => rw [hg] at hy; cases hy; rfl
    rw [e _ _ hv, e _ _ hv']
    exact sameValue_rel hs
  · intro c' d r hd _
    rw [hcl _ _ _ hd]
    obtain ⟨ex, e, he⟩ := checkKwargs_ok (u := a.extra) (defaults := extraDefaults) h0.known
    obtain ⟨ex', e', he'⟩ := checkKwargs_ok (u := x) (defaults := extraDefaults) h0.known'
    rw [e, e']
    exact .ok (main ex ex' (fun k _ => he k) (fun k _ => he' k))
  · intro c' d r hd _ kw kw' _ _
    rw [hcl _ _ _ hd]
    have key : ∀ (y : Option (Extra K)) (v : Opt K), (∀ k ∈ (y.getD []).keys, k ∈ optionNames) →
        ∃ ex, checkKwargs (some ((y.getD []).set "filter_kwargs" v)) extraDefaults = .ok ex ∧
          ∀ k, k ≠ "filter_kwargs" → ex.get? k = inForce extraDefaults y k := by
      intro y v hy
      obtain ⟨ex, e, he⟩ := checkKwargs_ok (u := some ((y.getD []).set "filter_kwargs" v)) (defaults := extraDefaults) (by
        intro k hk
        by_cases hkf : k = "filter_kwargs"
        · subst hkf; rw [extraDefaults_keys]; simp [optionNames]
        · refine hy k ?_
          dsimp only [Option.getD_some] at hk
          rw [← Dict.has_iff, Dict.has_iff_get?] at hk ⊢
          rwa [Dict.get?_set, if_neg hkf] at hk)
      refine ⟨ex, e, fun k hk => ?_⟩
      rw [he, inForce_eq, inForce_eq]
      dsimp only [Option.getD_some]
      rw [Dict.get?_set, if_neg hk]
    obtain ⟨ex, e, he⟩ := key a.extra (.dict kw) h0.known
    obtain ⟨ex', e', he'⟩ := key x (.dict kw') h0.known'
    rw [e, e']
    exact .ok (main ex ex' he he')

theorem sameOptions_defaults {d u : Kwargs K} (hk : ∀ k ∈ u.keys, k ∈ d.keys) (h : ∀ k v, u.get? k = some v → d.get? k = some v) :
    SameOptions d (some []) (some u) where
  known := by intro k hk; cases hk
  known' := hk
  same := by
    intro k
    rw [inForce_eq, inForce_eq]
    dsimp only [Option.getD_some]
    rw [Dict.get?_nil, Option.none_or]
    cases hu : u.get? k with
    | none => rfl
    | some v => exact h k v hu

/-- Entries of an explicit dictionary are found in another one. -/
theorem get?_of_all {V : Type} {u d : Dict String V} (h : ∀ p ∈ u, d.get? p.1 = some p.2) (k : String) (v : V)
    (hv : u.get? k = some v) : d.get? k = some v := by
  induction u with
  | nil => cases hv
  | cons p u ih =>
    rw [Dict.get?_cons] at hv
    split at hv
    · rename_i e
      cases hv
      rw [e]
      exact h p (by simp)
    · exact ih (fun q hq => h q (by simp [hq])) hv

/-- C81, a special case: giving no options, giving an empty dictionary, and spelling out all documented defaults are the
same. -/
theorem C81_defaults (fuel : ℕ) (lib : Libs K C) (a : Call K C) {c : MethodClass}
    (hc : availableMethods.get? a.method = some c) :
    run fuel lib { a with extra := none } = run fuel lib { a with extra := some (documentedExtra (documentedFits c)) } ∧
      run fuel lib { a with extra := none } = run fuel lib { a with extra := some [] } := by
  constructor
  · refine C81_same_options fuel lib { a with extra := none } _ hc (interp := .leaf (.str "rational_fit")) rfl fun width => ?_
    have hnil : ∀ k, inForce (extraDefaults (K := K)) none k = extraDefaults.get? k := fun k => by
      rw [inForce_eq]
      exact Option.none_or
    have hall : ∀ k, inForce (extraDefaults (K := K)) (some (documentedExtra (documentedFits c))) k =
        (documentedExtra (documentedFits c)).get? k := by
      intro k
      rw [inForce_eq]
      dsimp only [Option.getD_some]
      cases hg : (documentedExtra (K := K) (documentedFits c)).get? k with
      | some v => rfl
      | none =>
        rw [Option.none_or, Dict.get?_none_iff]
        rw [Dict.get?_none_iff] at hg
        intro hk
        refine hg ?_
        rw [extraDefaults_keys] at hk
        simp only [optionNames, List.mem_cons, List.not_mem_nil, or_false] at hk
        simp only [documentedExtra, Dict.keys, List.map_cons, List.map_nil, List.mem_cons, List.not_mem_nil, or_false]
        tauto
    refine ⟨?_, ?_, ?_, ?_⟩
    · intro k hk; cases hk
    · intro k hk
      have hk' : k ∈ (documentedExtra (K := K) (documentedFits c)).keys := hk
      simp only [documentedExtra, Dict.keys, List.map_cons, List.map_nil, List.mem_cons, List.not_mem_nil, or_false] at hk'
      simp only [optionNames, List.mem_cons, List.not_mem_nil, or_false]
      tauto
    · intro k hk
      show inForce extraDefaults none k = _
      rw [hnil, hall]
      by_cases hm : k ∈ optionNames
      · simp only [optionNames, List.mem_cons, List.not_mem_nil, or_false] at hm
        rcases hm with rfl | rfl | rfl | rfl | rfl | rfl | rfl | rfl | rfl | rfl | rfl | rfl <;>
          first | rfl | (simp [groupDefaults] at hk)
      · have h1 : (extraDefaults (K := K)).get? k = none := (Dict.get?_none_iff _ _).mpr hm
        have h2 : (documentedExtra (K := K) (documentedFits c)).get? k = none := by
          rw [Dict.get?_none_iff]
          intro hk
          refine hm ?_
          simp only [documentedExtra, Dict.keys, List.map_cons, List.map_nil, List.mem_cons, List.not_mem_nil, or_false] at hk
          simp only [optionNames, List.mem_cons, List.not_mem_nil, or_false]
          tauto
        rw [h1, h2]
    · intro k d v v' hg hv hv'
      have hv : inForce extraDefaults none k = some v := hv
      rw [hnil] at hv
      rw [hall] at hv'
      unfold groupDefaults at hg
      split at hg
      · rename_i e; subst e; cases hg; cases hv; cases hv'
        refine Or.inr ⟨_, _, rfl, rfl, sameOptions_defaults (fun k hk => hk) (fun k v h => h)⟩
      split at hg
      · rename_i e; subst e; cases hg; cases hv; cases hv'
        refine Or.inr ⟨_, _, rfl, rfl, sameOptions_defaults (fun k hk => hk) (fun k v h => ?_)⟩
        have e : (10000000 : K) = 10 ^ 7 := by norm_num
        rw [e] at h
        exact h
      split at hg
      · rename_i e; subst e; cases hg; cases hv; cases hv'
        refine Or.inr ⟨_, _, rfl, rfl, sameOptions_defaults ?_ ?_⟩
        · intro k hk
          simp only [Dict.keys, List.map_cons, List.map_nil, List.mem_cons, List.not_mem_nil, or_false] at hk
          simp only [peaksDefaults, Dict.keys, List.map_cons, List.map_nil, List.mem_cons, List.not_mem_nil, or_false]
          tauto
        · refine get?_of_all fun p hp => ?_
          simp only [List.mem_cons, List.not_mem_nil, or_false] at hp
          rcases hp with rfl | rfl | rfl | rfl | rfl | rfl | rfl <;> rfl
      split at hg
      · rename_i e; subst e; cases hg; cases hv; cases hv'
        refine Or.inr ⟨_, _, rfl, rfl, ?_⟩
        have : documentedFits (K := K) c = fitsDefaults (decide (c = .amplitudeFits)) := by cases c <;> rfl
        rw [this]
        exact sameOptions_defaults (fun k hk => hk) (fun k v h => h)
      split at hg
      · rename_i e; subst e; cases hg; cases hv; cases hv'
        refine Or.inr ⟨_, _, rfl, rfl, sameOptions_defaults (fun k hk => hk) (fun k v h => h)⟩
      · cases hg
  · refine C81_same_options fuel lib { a with extra := none } _ hc (interp := .leaf (.str "rational_fit")) rfl fun width => ?_
    refine ⟨fun k hk => absurd hk (by simp [Dict.keys]), fun k hk => absurd hk (by simp [Dict.keys]), fun _ _ => rfl,
      fun k d v v' _ hv hv' => Or.inl ?_⟩
    have : some v = some v' := hv.symm.trans hv'
    exact Option.some.inj this

/-! ### C84 -/

/-- C84: without precession the caller's options are left as they were. -/
theorem C84_nonprecessing (fuel : ℕ) (lib : Libs K C) (a : Call K C) (h : a.precessing.truth = false) :
    extraAfter fuel lib a = some a.extra := by
  unfold extraAfter
  split
  · rw [h]; rfl
  · rfl

theorem filterOptions_complete {extra : Option (Extra K)} {kw : Kwargs K} (h : filterOptions extra = .ok kw) :
    (∀ k ∈ kw.keys, k ∈ filterNames) ∧ ∀ k ∈ filterNames, k ∈ kw.keys := by
  unfold filterOptions at h
  obtain ⟨u, -, h⟩ := bind_ok h
  obtain ⟨h1, h2⟩ := checkKwargs_known h
  constructor
  · intro k hk
    rw [← Dict.has_iff, Dict.has_iff_get?] at hk
    obtain ⟨v, hv⟩ := hk
    rw [h2, inForce_eq] at hv
    cases hu : (u.getD []).get? k with
    | some w => exact h1 k ((Dict.has_iff _ _).mp ((Dict.has_iff_get? _ _).mpr ⟨w, hu⟩))
    | none =>
      rw [hu, Option.none_or] at hv
      exact (Dict.has_iff _ _).mp ((Dict.has_iff_get? _ _).mpr ⟨v, hv⟩)
  · intro k hk
    rw [← Dict.has_iff, Dict.has_iff_get?, h2, inForce_eq]
    have : (filterDefaults (K := K)).has k = true := (Dict.has_iff _ _).mpr hk
    obtain ⟨v, hv⟩ := (Dict.has_iff_get? _ _).mp this
    rw [hv]
    cases (u.getD []).get? k with
    | none => exact ⟨v, rfl⟩
    | some w => exact ⟨w, rfl⟩

/-- C84 fails for precessing systems: after a call that returned, the caller's options contain the complete options of the
filter. -/
theorem C84_violation {fuel : ℕ} {lib : Libs K C} {a : Call K C} {ans : Answer K C} (h : run fuel lib a = some (.ok ans))
    (hp : a.precessing.truth = true) {ex : Extra K} (hex : a.extra = some ex) :
    ∃ kw, (∀ k, k ∈ kw.keys ↔ k ∈ filterNames) ∧ extraAfter fuel lib a = some (some (ex.set "filter_kwargs" (.dict kw))) := by
  obtain ⟨R⟩ := run_ok h
  obtain ⟨kw, cfg, m, f, h1, -, -, -, -, -, h2⟩ := filterStage_on hp R.h_filter
  refine ⟨kw, fun k => ⟨(filterOptions_complete h1).1 k, (filterOptions_complete h1).2 k⟩, ?_⟩
  unfold extraAfter
  rw [hex, R.h_dispatch]
  dsimp only
  rw [if_pos hp, R.h_load]
  dsimp only
  rw [hex] at h1 h2
  rw [h1]
  dsimp only
  rw [R.h_filter]
  dsimp only
  rw [h2]
  rfl

theorem run_completed (fuel : ℕ) (lib : Libs K C) (b : Call K C) {ex : Extra K} {kw : Kwargs K}
    (h : filterOptions (some ex) = .ok kw) :
    run fuel lib { b with extra := some ex } = run fuel lib { b with extra := some (ex.set "filter_kwargs" (.dict kw)) } := by
  have hk := filterOptions_complete h
  have h2 : ∃ kw', filterOptions (some (ex.set "filter_kwargs" (.dict kw))) = .ok kw' ∧ SameDict kw kw' := by
    unfold filterOptions
    dsimp only [Option.getD_some]
    rw [Dict.get?_set, if_pos rfl]
    obtain ⟨d, e, hd⟩ := checkKwargs_ok (u := some kw) (defaults := filterDefaults) hk.1
    refine ⟨d, e, fun k => ?_⟩
    rw [hd, inForce_eq]
    dsimp only [Option.getD_some]
    cases hg : kw.get? k with
    | some v => rfl
    | none =>
      rw [Option.none_or]
      rw [Dict.get?_none_iff] at hg
      exact ((Dict.get?_none_iff _ _).mpr fun hm => hg (hk.2 k hm)).symm
  obtain ⟨kw', h2, h3⟩ := h2
  refine run_congr fuel lib { b with extra := some ex } _ ?_ ?_ ?_
  · intro _
    show PyRel SameDict (filterOptions (some ex)) _
    rw [h, h2]
    exact .ok h3
  · intro c d r _ _
    refine PyRel.mono (checkKwargs_rel_except (k0 := "filter_kwargs") (by simp [optionNames]) ?_) fun _ _ h => sameFor_filter h
    intro k hk
    dsimp only [Option.getD_some]
    rw [Dict.get?_set, if_neg hk]
  · intro c d r _ _ kw1 kw2 _ _
    refine PyRel.mono (checkKwargs_rel_except (k0 := "filter_kwargs") (by simp [optionNames]) ?_) fun _ _ h => sameFor_filter h
    intro k hk
    dsimp only [Option.getD_some]
    rw [Dict.get?_set, if_neg hk, Dict.get?_set, if_neg hk, Dict.get?_set, if_neg hk]

/-- C84, what holds: the changed options mean the same as before, for any later call `b`. -/
theorem C84_meaning_partial (fuel fuel' : ℕ) (lib lib' : Libs K C) (a b : Call K C) {x : Option (Extra K)}
    (h : extraAfter fuel lib a = some x) :
    run fuel' lib' { b with extra := x } = run fuel' lib' { b with extra := a.extra } := by
  cases hex : a.extra with
  | none =>
    unfold extraAfter at h
    rw [hex] at h
    cases h
    rfl
  | some ex =>
    have key : x = some ex ∨ ∃ kw, filterOptions (some ex) = .ok kw ∧ x = some (ex.set "filter_kwargs" (.dict kw)) := by
      unfold extraAfter at h
      rw [hex] at h
      split at h
      · rename_i ex' q heq _
        cases heq
        split at h
        · rename_i hp
          split at h
          · cases h; exact Or.inl rfl
          · split at h
            · cases h; exact Or.inl rfl
            · rename_i kw hkw
              have fin : ∀ {y : Wave K × Bool × Option (Extra K)} {nd an w}, filterStage fuel lib a nd an w = some (.ok y) →
                  y.2.2 = x → x = some ex ∨ ∃ kw, filterOptions (some ex) = .ok kw ∧
                    x = some (ex.set "filter_kwargs" (.dict kw)) := by
                rintro ⟨w', b, e⟩ nd an w hs rfl
                obtain ⟨kw', cfg, m, f, h1, -, -, -, -, -, h2⟩ := filterStage_on hp hs
                rw [hex] at h1 h2
                exact Or.inr ⟨kw', h1, h2⟩
              split at h
              · split at h
                · cases h
                · cases h; exact Or.inr ⟨kw, hkw, rfl⟩
                · rename_i hs; cases h; exact fin hs rfl
              · split at h
                · cases h
                · cases h; exact Or.inl rfl
                · rename_i hs; cases h; exact fin hs rfl
        · cases h; exact Or.inl rfl
      · cases h; exact Or.inl rfl
    rcases key with rfl | ⟨kw, h1, rfl⟩
    · rfl
    · exact (run_completed fuel' lib' b h1).symm

end

end GwEcc

namespace GwEcc.RunDemo

open Spec

-- C80: misspelt options and members
example : err (run 60 lib { call with extra := some [("debug_plot", .leaf (.bool false))] }) = some (some .valueError) := by
  decide +kernel
example : err (run 60 lib { call with extra := some [("general_interp_kwargs", .dict [("kk", .int 3)])] }) =
    some (some .valueError) := by decide +kernel
example : err (run 60 lib { callP with extra := some [("filter_kwargs", .dict [("do_not_filtr", .bool true)])] }) =
    some (some .valueError) := by decide +kernel
example : err (run 60 lib { call with extra := some [("general_interp_kwargs", .leaf (.bool false))] }) =
    some (some .attributeError) := by decide +kernel
example : availableMethods.get? call.method = some .amplitude := by decide
example : inForce extraDefaults call.extra "omega_gw_extrema_interpolation_method" = some (.leaf (.str "rational_fit")) := rfl
example : memberNames false false "rational_fit" "general_interp_kwargs" = some splineNames := rfl

/-- C80 is violated: these calls with misspelt members return. -/
theorem C80_accepted_violation :
    ecc (run 60 lib { call with extra := some [("kwargs_for_fits_methods", .dict [("num_orbit", .int 3)])] }) =
      some (.ok (some (.array [10 / 81, 25 / 204]))) ∧
    ecc (run 60 lib { call with extra := some [("filter_kwargs", .dict [("do_not_filtr", .bool true)])] }) =
      some (.ok (some (.array [10 / 81, 25 / 204]))) := by decide +kernel

-- C81: the calls do return
example : ecc (run 60 lib { call with extra := some (documentedExtra (documentedFits .amplitude)) }) =
    some (.ok (some (.array [10 / 81, 25 / 204]))) := by decide +kernel
example : ecc (run 60 lib { callP with extra := some (documentedExtra (documentedFits .amplitude)) }) =
    some (.ok (some (.array [10 / 81, 25 / 204]))) := by decide +kernel

-- C84: an empty dictionary of the caller is filled
example : (extraAfter 60 lib { callP with extra := some [] }).map (fun x => x.map Dict.keys) =
    some (some ["filter_kwargs"]) := by decide +kernel
example : extraAfter 60 lib { call with extra := some [] } = some (some []) := by decide +kernel

end GwEcc.RunDemo
