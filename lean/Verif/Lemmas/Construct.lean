import Verif.Spec.Options
import Verif.Lemmas.DataDict

set_option linter.unusedSectionVars false

/-! Lemmas about options and the constructor. -/

namespace GwEcc

open Spec

theorem PyRel.bind_eq {α β γ : Type} {R : α → β → Prop} {x : Py α} {y : Py β} {f : α → Py γ} {g : β → Py γ}
    (h : PyRel R x y) (hf : ∀ a b, R a b → f a = g b) : (x >>= f) = (y >>= g) := by
  cases h with
  | ok h => exact hf _ _ h
  | error e => rfl

/-- Dictionaries with the same entries, perhaps in another order. -/
def SameDict {κ V : Type} [DecidableEq κ] (d d' : Dict κ V) : Prop := ∀ k, d.get? k = d'.get? k

namespace SameDict
variable {κ V : Type} [DecidableEq κ]

theorem rfl' {d : Dict κ V} : SameDict d d := fun _ => rfl

theorem getItem {d d' : Dict κ V} (h : SameDict d d') (k : κ) : d.getItem k = d'.getItem k := Dict.getItem_congr (h k)

theorem set {d d' : Dict κ V} (h : SameDict d d') (k : κ) (v : V) : SameDict (d.set k v) (d'.set k v) := by
  intro j; rw [Dict.get?_set, Dict.get?_set, h j]

end SameDict

section
variable {κ V : Type} [DecidableEq κ]

theorem inForce_eq (defaults : Dict κ V) (u : Option (Dict κ V)) (k : κ) :
    inForce defaults u k = ((u.getD []).get? k).or (defaults.get? k) := by
  unfold inForce
  cases (u.getD []).get? k <;> rfl

theorem checkKwargs_ok {u : Option (Dict κ V)} {defaults : Dict κ V} (h : ∀ k ∈ (u.getD []).keys, k ∈ defaults.keys) :
    ∃ d, checkKwargs u defaults = .ok d ∧ ∀ k, d.get? k = inForce defaults u k := by
  unfold checkKwargs
  dsimp only
  rw [if_neg]
  · exact ⟨_, rfl, fun k => by rw [fill_get?, inForce_eq]⟩
  · rw [List.any_eq_true]
    rintro ⟨k, hk, hn⟩
    rw [(Dict.has_iff _ _).mpr (h k hk)] at hn
    simp at hn

theorem checkKwargs_known {u : Option (Dict κ V)} {defaults d : Dict κ V} (h : checkKwargs u defaults = .ok d) :
    (∀ k ∈ (u.getD []).keys, k ∈ defaults.keys) ∧ ∀ k, d.get? k = inForce defaults u k := by
  have hk : ∀ k ∈ (u.getD []).keys, k ∈ defaults.keys := by
    intro k hk
    by_contra hc
    unfold checkKwargs at h
    dsimp only at h
    rw [if_pos] at h
    · simp at h
    · rw [List.any_eq_true]
      exact ⟨k, hk, by rw [← Dict.has_iff] at hc; simpa using hc⟩
  obtain ⟨d', h', hd⟩ := checkKwargs_ok hk
  rw [h] at h'
  cases h'
  exact ⟨hk, hd⟩

theorem checkKwargs_unknown {u : Option (Dict κ V)} {defaults : Dict κ V} {k : κ} (hk : k ∈ (u.getD []).keys)
    (hn : k ∉ defaults.keys) : checkKwargs u defaults = .error .valueError := by
  unfold checkKwargs
  dsimp only
  rw [if_pos]
  rw [List.any_eq_true]
  exact ⟨k, hk, by rw [← Dict.has_iff] at hn; simpa using hn⟩

theorem checkKwargs_rel {u u' : Option (Dict κ V)} {defaults : Dict κ V} (h : SameOptions defaults u u') :
    PyRel SameDict (checkKwargs u defaults) (checkKwargs u' defaults) := by
  obtain ⟨d, e, hd⟩ := checkKwargs_ok h.known
  obtain ⟨d', e', hd'⟩ := checkKwargs_ok h.known'
  rw [e, e']
  exact .ok fun k => by rw [hd, hd', h.same]

end

section
variable {K C : Type} [Field K] [LinearOrder K] [FloorRing K]

theorem splineKwargs_congr {d d' : Kwargs K} (h : SameDict d d') : splineKwargs d = splineKwargs d' := by
  unfold splineKwargs; simp only [h.getItem]

theorem filterCfg_congr {d d' : Kwargs K} (h : SameDict d d') : filterCfg d = filterCfg d' := by
  unfold filterCfg; simp only [h.getItem]

theorem fitsCfg_congr {d d' : Kwargs K} (h : SameDict d d') (r : Bool) : fitsCfg d r = fitsCfg d' r := by
  unfold fitsCfg; simp only [h.getItem]

/-- The default options for the extrema interpolation of the given name. -/
def specialDefaults (name : String) : Kwargs K := if name = "spline" then splineDefaults else rationalDefaults

/-- Complete option dictionaries that lead to the same object for a class and the widths in `W`. -/
structure SameAt (W : ℤ → Prop) (c : MethodClass) (ex ex' : Extra K) : Prop where
  leaf : ∀ k ∈ ["omega_gw_averaging_method", "treat_mid_points_between_pericenters_as_apocenters",
    "return_zero_if_small_ecc_failure", "omega_gw_extrema_interpolation_method", "use_only_these_many_orbits"],
    ex.getItem k = ex'.getItem k
  general : PyRel SameDict (subKwargs ex "general_interp_kwargs" splineDefaults)
    (subKwargs ex' "general_interp_kwargs" splineDefaults)
  peaks : ∀ w, W w → PyRel SameDict (subKwargs ex "extrema_finding_kwargs" (peaksDefaults w))
    (subKwargs ex' "extrema_finding_kwargs" (peaksDefaults w))
  special : ∀ m, ex.getItem "omega_gw_extrema_interpolation_method" = .ok m →
    PyRel SameDict (subKwargs ex "special_interp_kwargs_for_omega_gw_extrema" (specialDefaults m.name))
      (subKwargs ex' "special_interp_kwargs_for_omega_gw_extrema" (specialDefaults m.name))
  fits : c.isFits = true → ex.getItem "refine_extrema" = ex'.getItem "refine_extrema" ∧
    PyRel SameDict (subKwargs ex "kwargs_for_fits_methods" (fitsDefaults (decide (c = .amplitudeFits))))
      (subKwargs ex' "kwargs_for_fits_methods" (fitsDefaults (decide (c = .amplitudeFits))))

/-- The same for all widths. -/
abbrev SameFor (c : MethodClass) (ex ex' : Extra K) : Prop := SameAt (fun _ => True) c ex ex'

theorem extremaOptions_rel {W : ℤ → Prop} {c : MethodClass} {ex ex' : Extra K} (h : SameAt W c ex ex') (level : ℤ) {m : Opt K}
    (hm : ex.getItem "omega_gw_extrema_interpolation_method" = .ok m) :
    PyRel (fun r r' => r.1 = r'.1 ∧ SameDict r.2 r'.2) (extremaOptions ex level m.name) (extremaOptions ex' level m.name) := by
  have hs := h.special m hm
  unfold specialDefaults at hs
  unfold extremaOptions
  refine PyRel.ite Iff.rfl (fun _ _ => .error _) fun _ _ => ?_
  refine PyRel.ite Iff.rfl (fun e _ => ?_) fun e _ => ?_
  · rw [if_pos e] at hs
    refine PyRel.bind hs fun d d' hd => ?_
    rw [splineKwargs_congr hd]
    refine PyRel.bind (PyRel.refl (R := Eq) (fun _ => rfl) _) fun s s' hs => .ok ⟨hs, hd⟩
  · rw [if_neg e] at hs
    exact PyRel.bind hs fun d d' hd => .ok ⟨rfl, hd.set _ _⟩

theorem finder_congr {W : ℤ → Prop} {c : MethodClass} {ex ex' : Extra K} (h : SameAt W c ex ex') (lib : Libs K C) {p p' : Kwargs K}
    (hp : SameDict p p') (tm : K) (s : Series K) (w : Wave K) :
    finder lib c ex p tm s w = finder lib c ex' p' tm s w := by
  unfold finder
  have e : p.get? = p'.get? := funext hp
  cases hc : c.isFits with
  | false => simp only [e, Bool.false_eq_true, if_false]
  | true =>
    obtain ⟨h1, h2⟩ := h.fits hc
    simp only [if_true, h1]
    cases dataForExtrema c s with
    | error e => rfl
    | ok data =>
      simp only [ok_bind]
      refine PyRel.bind_eq h2 fun d d' hd => ?_
      simp only [fitsCfg_congr hd]

theorem finish_congr {W : ℤ → Prop} {c : MethodClass} {extra extra' : Option (Extra K)}
    (h : PyRel (SameAt W c) (checkKwargs extra extraDefaults) (checkKwargs extra' extraDefaults)) (lib : Libs K C)
    (domain : Domain) (ref : Val K) (a : Call K C) (x : Option (Extra K)) (nd : DataV K C) (an : Analysis K) (w : Wave K)
    (filtered : Bool) (hW : W an.width) :
    finish lib c domain ref a nd an w filtered extra = finish lib c domain ref { a with extra := x } nd an w filtered extra' := by
  unfold finish
  refine PyRel.bind_eq h fun ex ex' hex => ?_
  simp only [hex.leaf _ (show "use_only_these_many_orbits" ∈ _ by simp),
    hex.leaf _ (show "omega_gw_averaging_method" ∈ _ by simp),
    hex.leaf _ (show "treat_mid_points_between_pericenters_as_apocenters" ∈ _ by simp),
    hex.leaf _ (show "return_zero_if_small_ecc_failure" ∈ _ by simp)]
  refine bind_congr fun v => ?_
  refine bind_congr fun orbits => ?_
  refine bind_congr fun w1 => ?_
  refine bind_congr fun w' => ?_
  refine PyRel.bind_eq (hex.peaks _ hW) fun p p' hp => ?_
  have hm := hex.leaf _ (show "omega_gw_extrema_interpolation_method" ∈ _ by simp)
  rw [← hm]
  cases hme : Dict.getItem ex "omega_gw_extrema_interpolation_method" with
  | error e => rfl
  | ok m =>
    simp only [ok_bind]
    refine PyRel.bind_eq (extremaOptions_rel hex a.level hme) fun r r' hr => ?_
    obtain ⟨k, rk⟩ := r
    obtain ⟨k', rk'⟩ := r'
    obtain ⟨rfl, hrk⟩ := hr
    have e : rk.get? = rk'.get? := funext hrk
    dsimp only
    refine PyRel.bind_eq hex.general fun g g' hg => ?_
    simp only [splineKwargs_congr hg, finder_congr hex lib hp, e]

theorem filterStage_congr (fuel : ℕ) (lib : Libs K C) (a : Call K C) (x : Option (Extra K)) (nd : DataV K C)
    (an : Analysis K) (w : Wave K)
    (hF : a.precessing.truth = true → PyRel SameDict (filterOptions a.extra) (filterOptions x)) :
    a.precessing.truth = true →
    (filterStage fuel lib a nd an w = none ∧ filterStage fuel lib { a with extra := x } nd an w = none) ∨
    (∃ e, filterStage fuel lib a nd an w = some (.error e) ∧
      filterStage fuel lib { a with extra := x } nd an w = some (.error e)) ∨
    (∃ w' b kw kw', SameDict kw kw' ∧ filterOptions a.extra = .ok kw ∧ filterOptions x = .ok kw' ∧
      filterStage fuel lib a nd an w = some (.ok (w', b, some ((a.extra.getD []).set "filter_kwargs" (.dict kw)))) ∧
      filterStage fuel lib { a with extra := x } nd an w =
        some (.ok (w', b, some ((x.getD []).set "filter_kwargs" (.dict kw'))))) := by
  intro hp
  have hF := hF hp
  unfold filterStage
  dsimp only
  rw [if_pos hp, if_pos hp]
  unfold filterInput
  dsimp only
  cases h1 : filterOptions a.extra with
  | error e =>
    rw [h1] at hF
    cases h2 : filterOptions x with
    | ok d => rw [h2] at hF; nomatch hF
    | error e' =>
      rw [h2] at hF
      cases hF
      exact Or.inr (Or.inl ⟨e, rfl, rfl⟩)
  | ok kw =>
    rw [h1] at hF
    cases h2 : filterOptions x with
    | error e' => rw [h2] at hF; nomatch hF
    | ok kw' =>
      rw [h2] at hF
      have hd : SameDict kw kw' := by cases hF; assumption
      simp only [ok_bind, filterCfg_congr hd]
      cases h3 : filterCfg kw' with
      | error e => exact Or.inr (Or.inl ⟨e, rfl, rfl⟩)
      | ok cfg =>
        simp only [ok_bind]
        cases h4 : coprModes nd w.t with
        | error e => exact Or.inr (Or.inl ⟨e, rfl, rfl⟩)
        | ok m =>
          simp only [ok_bind, pure, Except.pure]
          cases h5 : Filter.checkAndFilter fuel lib.filter cfg an.tMerger m with
          | none => exact Or.inl ⟨rfl, rfl⟩
          | some r =>
            cases r with
            | error e => exact Or.inr (Or.inl ⟨e, rfl, rfl⟩)
            | ok f => exact Or.inr (Or.inr ⟨_, _, kw, kw', hd, rfl, rfl, rfl, rfl⟩)

theorem run_congr_width {W : ℤ → Prop} (fuel : ℕ) (lib : Libs K C) (a : Call K C) (x : Option (Extra K))
    (hW : ∀ nd an w, loadWave lib a = .ok (nd, an, w) → W an.width)
    (hF : a.precessing.truth = true → PyRel SameDict (filterOptions a.extra) (filterOptions x))
    (h0 : ∀ c d r, dispatch a = .ok (c, d, r) → a.precessing.truth = false →
      PyRel (SameAt W c) (checkKwargs a.extra extraDefaults) (checkKwargs x extraDefaults))
    (h1 : ∀ c d r, dispatch a = .ok (c, d, r) → a.precessing.truth = true → ∀ kw kw',
      filterOptions a.extra = .ok kw → filterOptions x = .ok kw' →
      PyRel (SameAt W c) (checkKwargs (some ((a.extra.getD []).set "filter_kwargs" (.dict kw))) extraDefaults)
        (checkKwargs (some ((x.getD []).set "filter_kwargs" (.dict kw'))) extraDefaults)) :
    run fuel lib a = run fuel lib { a with extra := x } := by
  unfold run
  have hd : dispatch { a with extra := x } = dispatch a := rfl
  rw [hd]
  cases hda : dispatch a with
  | error e => rfl
  | ok cdr =>
    obtain ⟨c, domain, ref⟩ := cdr
    dsimp only
    suffices h : construct fuel lib c domain ref a = construct fuel lib c domain ref { a with extra := x } by rw [h]
    unfold construct
    have hl : loadWave lib { a with extra := x } = loadWave lib a := rfl
    rw [hl]
    cases hlw : loadWave lib a with
    | error e => rfl
    | ok l =>
      obtain ⟨nd, an, w⟩ := l
      have hW := hW _ _ _ hlw
      dsimp only
      cases hp : a.precessing.truth with
      | false =>
        have e : ∀ y, filterStage fuel lib { a with extra := y } nd an w = some (.ok (w, false, y)) := by
          intro y; unfold filterStage; dsimp only; rw [hp]; rfl
        have e0 := e a.extra
        rw [e x, show ({ a with extra := a.extra } : Call K C) = a from rfl] at *
        rw [e0]
        simp only [Option.map_some, ok_bind]
        rw [finish_congr (h0 _ _ _ hda hp) lib domain ref a x nd an _ _ hW]
      | true =>
        rcases filterStage_congr fuel lib a x nd an w hF hp with ⟨e1, e2⟩ | ⟨e, e1, e2⟩ | ⟨w', b, kw, kw', hk, f1, f2, e1, e2⟩
        · rw [e1, e2]; rfl
        · rw [e1, e2]; rfl
        · rw [e1, e2]
          simp only [Option.map_some, ok_bind]
          rw [finish_congr (h1 _ _ _ hda hp kw kw' f1 f2) lib domain ref a x nd an _ _ hW]

theorem run_congr (fuel : ℕ) (lib : Libs K C) (a : Call K C) (x : Option (Extra K))
    (hF : a.precessing.truth = true → PyRel SameDict (filterOptions a.extra) (filterOptions x))
    (h0 : ∀ c d r, dispatch a = .ok (c, d, r) → a.precessing.truth = false →
      PyRel (SameFor c) (checkKwargs a.extra extraDefaults) (checkKwargs x extraDefaults))
    (h1 : ∀ c d r, dispatch a = .ok (c, d, r) → a.precessing.truth = true → ∀ kw kw',
      filterOptions a.extra = .ok kw → filterOptions x = .ok kw' →
      PyRel (SameFor c) (checkKwargs (some ((a.extra.getD []).set "filter_kwargs" (.dict kw))) extraDefaults)
        (checkKwargs (some ((x.getD []).set "filter_kwargs" (.dict kw'))) extraDefaults)) :
    run fuel lib a = run fuel lib { a with extra := x } :=
  run_congr_width (W := fun _ => True) fuel lib a x (fun _ _ _ _ => trivial) hF h0 h1

end

end GwEcc
