import Verif.Props.Options
import Verif.Model.SharedOptions

set_option linter.unusedSectionVars false

/-!
# Properties of calls that share their options (C90)
-/

namespace GwEcc

section
variable {K C : Type} [Field K] [LinearOrder K] [FloorRing K]

/-- When a call ends, so does the change of the caller's options. -/
theorem extraAfter_some {fuel : ℕ} {lib : Libs K C} {a : Call K C} {r : Py (Answer K C)} (h : run fuel lib a = some r) :
    ∃ x, extraAfter fuel lib a = some x := by
  unfold run at h
  unfold extraAfter
  split
  · rename_i q heq
    rw [heq] at h
    split
    · cases hl : loadWave lib a with
      | error e => exact ⟨_, rfl⟩
      | ok v =>
        obtain ⟨nd, an, w⟩ := v
        dsimp only at h ⊢
        unfold construct at h
        rw [hl] at h
        dsimp only at h
        cases hf : filterOptions a.extra with
        | error e => exact ⟨_, rfl⟩
        | ok kw =>
          dsimp only
          cases hs : filterStage fuel lib a nd an w with
          | none => rw [hs] at h; cases h
          | some s =>
            cases s with
            | error e => exact ⟨_, rfl⟩
            | ok y => exact ⟨_, rfl⟩
    · exact ⟨_, rfl⟩
  · exact ⟨_, rfl⟩

/-- C90. However many calls were made before with the same options object, and whatever they did to it: the `n`th call
returns (or raises) what it returns alone with the options as the caller wrote them. -/
theorem C90_history_independent {fuel : ℕ} {lib : Libs K C} {extra : Option (Extra K)} {calls : List (Call K C)}
    {rs : List (Py (Answer K C))} (h : runShared fuel lib extra calls = some rs) :
    rs.length = calls.length ∧
    ∀ (n : ℕ) (b : Call K C), calls[n]? = some b →
      ∃ r, rs[n]? = some r ∧ run fuel lib { b with extra := extra } = some r := by
  suffices H : ∀ (calls : List (Call K C)) (e : Option (Extra K)) (rs : List (Py (Answer K C))),
      (∀ b : Call K C, run fuel lib { b with extra := e } = run fuel lib { b with extra := extra }) →
      runShared fuel lib e calls = some rs →
      rs.length = calls.length ∧ ∀ (n : ℕ) (b : Call K C), calls[n]? = some b →
        ∃ r, rs[n]? = some r ∧ run fuel lib { b with extra := extra } = some r from H calls extra rs (fun _ => rfl) h
  clear h rs calls
  intro calls
  induction calls with
  | nil =>
    intro e rs _ h
    cases h
    exact ⟨rfl, fun n b hb => by simp at hb⟩
  | cons c cs ih =>
    intro e rs he h
    unfold runShared at h
    obtain ⟨r, hr, h⟩ := Option.bind_eq_some_iff.mp h
    obtain ⟨x, hx, h⟩ := Option.bind_eq_some_iff.mp h
    obtain ⟨rs', hrs, h⟩ := Option.bind_eq_some_iff.mp h
    cases h
    obtain ⟨h1, h2⟩ := ih x rs' (fun b => (C84_meaning_partial fuel fuel lib lib _ b hx).trans (he b)) hrs
    refine ⟨by simp [h1], ?_⟩
    rintro (_ | n) b hb
    · simp only [List.getElem?_cons_zero, Option.some.injEq] at hb
      subst hb
      exact ⟨r, rfl, (he c).symm.trans hr⟩
    · simpa using h2 n b (by simpa using hb)

/-- C90, the series of calls ends when each of its calls ends alone. -/
theorem C90_ends {fuel : ℕ} {lib : Libs K C} {extra : Option (Extra K)} {calls : List (Call K C)}
    (h : ∀ b ∈ calls, ∃ r, run fuel lib { b with extra := extra } = some r) :
    ∃ rs, runShared fuel lib extra calls = some rs := by
  suffices H : ∀ (calls : List (Call K C)) (e : Option (Extra K)),
      (∀ b : Call K C, run fuel lib { b with extra := e } = run fuel lib { b with extra := extra }) →
      (∀ b ∈ calls, ∃ r, run fuel lib { b with extra := extra } = some r) →
      ∃ rs, runShared fuel lib e calls = some rs from H calls extra (fun _ => rfl) h
  clear h calls
  intro calls
  induction calls with
  | nil => exact fun e _ _ => ⟨[], rfl⟩
  | cons c cs ih =>
    intro e he h
    obtain ⟨r, hr⟩ := h c List.mem_cons_self
    rw [← he c] at hr
    obtain ⟨x, hx⟩ := extraAfter_some hr
    obtain ⟨rs, hrs⟩ := ih x (fun b => (C84_meaning_partial fuel fuel lib lib _ b hx).trans (he b))
      fun b hb => h b (List.mem_cons_of_mem _ hb)
    exact ⟨r :: rs, by rw [runShared, hr]; simp [hx, hrs]⟩

/-- C90, order: the same calls made in another order give the same answers, each call its own. -/
theorem C90_order {fuel : ℕ} {lib : Libs K C} {extra : Option (Extra K)} {calls calls' : List (Call K C)}
    (hp : calls.Perm calls') {rs : List (Py (Answer K C))} (h : runShared fuel lib extra calls = some rs) :
    ∃ rs', runShared fuel lib extra calls' = some rs' ∧ (calls.zip rs).Perm (calls'.zip rs') := by
  obtain ⟨hl, hn⟩ := C90_history_independent h
  have hex : ∀ b ∈ calls', ∃ r, run fuel lib { b with extra := extra } = some r := by
    intro b hb
    obtain ⟨n, hn'⟩ := List.getElem?_of_mem (hp.mem_iff.mpr hb)
    obtain ⟨r, -, hr⟩ := hn n b hn'
    exact ⟨r, hr⟩
  obtain ⟨rs', h'⟩ := C90_ends hex
  obtain ⟨hl', hn'⟩ := C90_history_independent h'
  have key : ∀ (cs : List (Call K C)) (xs : List (Py (Answer K C))), xs.length = cs.length →
      (∀ (n : ℕ) (b : Call K C), cs[n]? = some b →
        ∃ r, xs[n]? = some r ∧ run fuel lib { b with extra := extra } = some r) →
      cs.zip xs = cs.map fun b => (b, (run fuel lib { b with extra := extra }).getD (.error .exception)) := by
    intro cs xs hlen hh
    refine List.ext_getElem (by simp [hlen]) fun n h1 h2 => ?_
    have hc : n < cs.length := by simpa using h2
    obtain ⟨r, hr, hb⟩ := hh n cs[n] (List.getElem?_eq_getElem hc)
    rw [List.getElem_zip, List.getElem_map, hb, Option.getD_some,
      Option.some.inj ((List.getElem?_eq_getElem (hlen ▸ hc)).symm.trans hr)]
  refine ⟨rs', h', ?_⟩
  rw [key calls rs hl hn, key calls' rs' hl' hn']
  exact hp.map _

end

end GwEcc

namespace GwEcc.RunDemo

-- three calls share one dictionary, which the first one fills
example : (runShared 60 lib (some []) [callP, call, callP]).map (fun rs => rs.map fun r => r.isOk) =
    some [true, true, true] := by decide +kernel
example : (extraAfter 60 lib { callP with extra := some [] }) ≠ some (some []) := by decide +kernel

end GwEcc.RunDemo
