import Verif.Lemmas.HeapMeasure
import Verif.Props.DataDemo

/-!
# C21, C22, C40: the caller's objects, and repeated measurements
-/

set_option linter.unusedSectionVars false

namespace GwEcc.HeapProps

open Spec

variable {K C : Type} [Field K] [LinearOrder K] [FloorRing K]

theorem unchanged_of_keep {h h' : Heap K C} (k : Keep ∅ h h') : Unchanged h h' := by
  refine ⟨h'.drop h.length, ?_⟩
  have : h'.take h.length = h := by
    refine List.ext_getElem? fun i => ?_
    rw [List.getElem?_take]
    split
    · rename_i hi; exact k.2 i hi (by simp)
    · rename_i hi; rw [List.getElem?_eq_none (by omega)]
  conv_lhs => rw [← List.take_append_drop h.length h', this]

theorem keep_of_unchanged {h h' : Heap K C} (u : Unchanged h h') : Keep ∅ h h' := by
  obtain ⟨n, rfl⟩ := u; exact Keep.append h n

section
variable {β : Type} (c : Call K C β) {root : ℕ} {h : Heap K C}

theorem topDict_has (h : Heap K C) (root : ℕ) (k : String) : (topDict h root).has k = (readV h root).has k := by
  unfold readV; rw [readTop_has]

/-- The outcome of a call on objects is the outcome on their contents, and what it leaves behind when nothing goes wrong in a
search of the fits methods. -/
theorem call_spec (w : WF h) (hcell : ∃ d, h[root]? = some (.top d))
    (hown : mustTransform c.precessing c.frame = false → c.numOrbits ≠ none → OwnOmega h root) :
    (c.run root h).1 = c.value (readV h root) ∧
    (c.SearchEnds (readV h root) → WF (c.run root h).2 ∧
      Keep (Written c.precessing c.frame c.numOrbits root h) h (c.run root h).2) := by
  obtain ⟨h1, w1, k1, hm⟩ := measureH_spec c.lib c.fits c.precessing c.frame c.numOrbits c.rest root w hcell hown
  unfold Call.run Call.value Call.SearchEnds measureV
  cases hx : constructV c.lib c.precessing c.frame c.numOrbits c.rest (readV h root) with
  | error e =>
    rw [hx] at hm
    simp only at hm
    rw [hm]
    exact ⟨rfl, fun _ => ⟨w1, k1⟩⟩
  | ok x =>
    rw [hx] at hm
    obtain ⟨rt, t, _, _, _, _, hm⟩ := hm
    rw [ok_bind]
    cases hs : searchV c.fits c.rest x with
    | error e =>
      rw [hs] at hm
      simp only at hm
      rw [hm]
      refine ⟨rfl, fun he => ?_⟩
      cases hf : c.fits with
      | false => simp only [Bool.false_eq_true, if_false]; exact ⟨w1, k1⟩
      | true =>
        obtain ⟨pa, hpa⟩ := he hf x rfl
        rw [hpa] at hs; cases hs
    | ok pa =>
      rw [hs] at hm
      simp only at hm
      rw [hm]
      exact ⟨rfl, fun _ => ⟨w1, k1⟩⟩

theorem noWrite_empty (hn : c.NoWrite (readV h root).has) : Written c.precessing c.frame c.numOrbits root h ⊆ ∅ := by
  rintro i (⟨hm, hh, _⟩ | ⟨hm, hnum, ho⟩)
  · rw [topDict_has, hn.1 hm] at hh; cases hh
  · have := hn.2 hm hnum
    rw [← topDict_has, has_false_iff, ho] at this
    cases this

theorem noWrite_own (hn : c.NoWrite (readV h root).has) :
    mustTransform c.precessing c.frame = false → c.numOrbits ≠ none → OwnOmega h root := by
  intro hm hnum r hr
  have := hn.2 hm hnum
  rw [← topDict_has, has_false_iff, hr] at this
  cases this

end

/-- C21, in part: a measurement changes none of the objects that existed before it — dictionaries, mode dictionaries,
arrays — whether it succeeds or raises, except in three situations: complex modes have to be built for the rotation to the
coprecessing frame; frequencies were given and orbits before merger are excluded; a method based on fits raises while it
searches for extrema. -/
theorem C21_unchanged_partial {β : Type} (c : Call K C β) {root : ℕ} {h : Heap K C} (w : WF h)
    (hcell : ∃ d, h[root]? = some (.top d)) (hn : c.NoWrite (readV h root).has) (hs : c.SearchEnds (readV h root)) :
    Unchanged h (c.run root h).2 := by
  have := ((call_spec c w hcell (noWrite_own c hn)).2 hs).2
  exact unchanged_of_keep (this.mono fun i _ hi => noWrite_empty c hn hi)

/-- C21, in part: apart from a fits method raising in its search, in every situation all arrays keep their contents, and the
only objects that may change are the caller's dictionary itself and its dictionary of frequencies. -/
theorem C21_arrays_partial {β : Type} (c : Call K C β) {root : ℕ} {h : Heap K C} (w : WF h)
    (hcell : ∃ d, h[root]? = some (.top d)) (hown : OwnOmega h root) (hs : c.SearchEnds (readV h root)) {i : ℕ}
    (hi : i < h.length) (hne : i ≠ root) (hom : (topDict h root).get? "omegalm" ≠ some i) :
    (c.run root h).2[i]? = h[i]? := by
  have := ((call_spec c w hcell fun _ _ => hown).2 hs).2
  refine this.2 i hi ?_
  rintro (⟨_, _, h⟩ | ⟨_, _, h⟩)
  · exact hne h
  · exact hom h

/-- C22, in part: whatever calls are made, in whatever order and on whichever `dataDict`s in memory — they may share mode
dictionaries and arrays — every call gives the outcome determined by the contents its data had at the start, provided none
of the three situations of `C21_unchanged_partial` occurs. -/
theorem C22_history_partial {β : Type} (cs : List (Call K C β × Ref)) {h : Heap K C} (w : WF h)
    (hsafe : ∀ x ∈ cs, (∃ d, h[x.2]? = some (.top d)) ∧ x.1.NoWrite (readV h x.2).has ∧ x.1.SearchEnds (readV h x.2)) :
    (runAll cs h).1 = cs.map (fun x => x.1.value (readV h x.2)) ∧ Unchanged h (runAll cs h).2 := by
  have gen : ∀ (cs : List (Call K C β × Ref)) (h' : Heap K C), WF h' → Keep ∅ h h' →
      (∀ x ∈ cs, (∃ d, h[x.2]? = some (.top d)) ∧ x.1.NoWrite (readV h x.2).has ∧ x.1.SearchEnds (readV h x.2)) →
      (runAll cs h').1 = cs.map (fun x => x.1.value (readV h x.2)) ∧ Keep ∅ h (runAll cs h').2 := by
    intro cs
    induction cs with
    | nil => intro h' _ k _; exact ⟨rfl, k⟩
    | cons x cs ih =>
      obtain ⟨c, root⟩ := x
      intro h' w' k hall
      obtain ⟨⟨d, hd⟩, hn, hs⟩ := hall (c, root) (by simp)
      simp only at hd hn hs
      have hv : readV h' root = readV h root := readV_keep k (NoArr.empty _) w (lt_of_getElem? hd) (by simp) (by simp)
      have hcell : ∃ d, h'[root]? = some (.top d) := ⟨d, by rw [k.2 root (lt_of_getElem? hd) (by simp), hd]⟩
      rw [← hv] at hn hs
      obtain ⟨hout, hkeep⟩ := call_spec c w' hcell (noWrite_own c hn)
      obtain ⟨w2, k2⟩ := hkeep hs
      have k2' : Keep ∅ h' (c.run root h').2 := k2.mono fun i _ hi => noWrite_empty c hn hi
      obtain ⟨e, kk⟩ := ih (c.run root h').2 w2 (k.trans k2') (fun x hx => hall x (by simp [hx]))
      constructor
      · show (c.run root h').1 :: (runAll cs (c.run root h').2).1 = _
        rw [e, List.map_cons, hout, hv]
      · exact kk
  obtain ⟨a, b⟩ := gen cs h w (Keep.refl _ _) hsafe
  exact ⟨a, unchanged_of_keep b⟩

/-- C22, in part: the same call twice. -/
theorem C22_twice_partial {β : Type} (c : Call K C β) {root : ℕ} {h : Heap K C} (w : WF h)
    (hcell : ∃ d, h[root]? = some (.top d)) (hn : c.NoWrite (readV h root).has) (hs : c.SearchEnds (readV h root)) :
    (c.run root (c.run root h).2).1 = (c.run root h).1 := by
  have := (C22_history_partial [(c, root), (c, root)] w (by
    intro x hx
    simp only [List.mem_cons, List.not_mem_nil, or_false, or_self] at hx
    subst hx
    exact ⟨hcell, hn, hs⟩)).1
  simp only [runAll, List.map_cons, List.map_nil, List.cons.injEq, and_true] at this
  rw [this.1, this.2]

/-- C40, in part: when the searches of a fits method return, every array — the time array among them — is as it was. -/
theorem C40_restored_partial {β : Type} (c : Call K C β) {root : ℕ} {h : Heap K C} (w : WF h)
    (hcell : ∃ d, h[root]? = some (.top d)) (hown : OwnOmega h root) {x : DataV K C × Analysis K × Option (ℕ × ℕ)}
    (hx : constructV c.lib c.precessing c.frame c.numOrbits c.rest (readV h root) = .ok x) {pa : c.α × c.α}
    (hpa : searchV c.fits c.rest x = .ok pa) {rt : ℕ} (ht : IsArr h rt) :
    readR (c.run root h).2 rt = readR h rt := by
  have hse : c.SearchEnds (readV h root) := by
    intro _ y hy
    rw [hx] at hy; cases hy
    exact ⟨pa, hpa⟩
  have k := ((call_spec c w hcell fun _ _ => hown).2 hse).2
  obtain ⟨d, hd⟩ := hcell
  -- the frequencies, cut successfully, are not an array
  by_cases hw : ∃ i, i ∈ Written c.precessing c.frame c.numOrbits root h ∧ ¬ NoArr {i} h
  · obtain ⟨i, hi, hna⟩ := hw
    exfalso
    rcases hi with ⟨_, _, rfl⟩ | ⟨hm, _, ho⟩
    · exact hna (noArr_top hd)
    · apply hna
      unfold constructV at hx
      obtain ⟨y, hy, _⟩ := bind_ok hx
      obtain ⟨v', full, _, hf, hnew, han, _⟩ := processData_ok (nd := y.1) (r := y.2) hy
      rw [hm] at hf
      cases hf
      obtain ⟨_, _, _, o, _, _, _, go⟩ := analyse_entries han
      have hget : (readV h root).get? "omegalm" = some (readEntry h i) := by
        unfold readV; rw [readTop_get?, ho]; rfl
      have hfo : full.get? "omegalm" = (readV h root).get? "omegalm" := by
        obtain ⟨_, _, w', _, _, _, _, hw', hor, _⟩ := (newData_spec hnew).omega
        rcases hor with h | ⟨h, _⟩
        · rw [hw', h]
        · rw [hget] at h; cases h
      rw [hfo, hget] at go
      simp only [Option.some.injEq] at go
      obtain ⟨m, hm', _⟩ := modesR_cell go
      exact noArr_singleton hm'
  · push Not at hw
    refine readR_keep k ?_ w ht
    intro i hi
    exact hw i hi i rfl

/-- The property C40 is violated: when a search of a fits method raises, the caller's time array stays shifted by the time of
merger.  (All samples used, no orbits excluded, no rotation.) -/
theorem C40_exception_violation {β : Type} (c : Call K C β) {root : ℕ} {h : Heap K C} (w : WF h)
    (hcell : ∃ d, h[root]? = some (.top d)) (hf : c.fits = true) (hm : mustTransform c.precessing c.frame = false)
    (hnum : c.numOrbits = none) {nd : DataV K C} {an : Analysis K}
    (hx : constructV c.lib c.precessing c.frame c.numOrbits c.rest (readV h root) = .ok (nd, an, none)) {e : Err}
    (he : searchV c.fits c.rest (nd, an, none) = .error e) {rt : ℕ} {t : List K}
    (ht : (topDict h root).get? "t" = some rt) (hc : h[rt]? = some (.nums t)) :
    (c.run root h).1 = .error e ∧ (c.run root h).2[rt]? = some (.nums (t.map (· + -an.tMerger))) := by
  obtain ⟨h1, w1, k1, hms⟩ := measureH_spec c.lib c.fits c.precessing c.frame c.numOrbits c.rest root w hcell
    (fun _ hne => absurd hnum hne)
  rw [hx] at hms
  obtain ⟨rt', t', _, _, _, hrt, hms⟩ := hms
  rw [he] at hms
  simp only at hms
  have : rt' = rt := by
    have := hrt hm hnum rfl
    rw [ht] at this; cases this; rfl
  subst this
  have hc1 : h1[rt']? = some (.nums t) := by
    rw [k1.2 rt' (lt_of_getElem? hc), hc]
    rintro (⟨h, _⟩ | ⟨_, h, _⟩)
    · rw [hm] at h; cases h
    · exact h hnum
  unfold Call.run
  rw [hms, hf]
  refine ⟨rfl, ?_⟩
  simp only [if_true]
  unfold shiftH
  rw [hc1]
  show (h1.set rt' _)[rt']? = _
  rw [List.getElem?_set_self (lt_of_getElem? hc1)]

/-! ### Concrete memories -/

namespace Demo

/-- Objects of a caller: arrays of times, amplitudes, phases and frequencies, mode dictionaries, and (last) the `dataDict`. -/
def objs : List (Cell ℚ (ℚ × ℚ)) :=
  [.nums DataDemo.times, .nums DataDemo.amps, .nums DataDemo.phases, .nums (DataDemo.phases.map (- ·)),
    .nums (DataDemo.times.map fun _ => 1), .nums (DataDemo.times.map fun _ => -1),
    .modesR [((2, 2), 1), ((2, -2), 1), ((2, 0), 1), ((2, 1), 1), ((2, -1), 1)],
    .modesR [((2, 2), 2), ((2, -2), 3), ((2, 0), 2), ((2, 1), 2), ((2, -1), 2)], .modesR [((2, 2), 4), ((2, -2), 5)]]

/-- Amplitudes and phases only. -/
def noOmega : Heap ℚ (ℚ × ℚ) := objs ++ [.top [("t", 0), ("amplm", 6), ("phaselm", 7)]]

/-- Frequencies are given too. -/
def withOmega : Heap ℚ (ℚ × ℚ) := objs ++ [.top [("t", 0), ("amplm", 6), ("phaselm", 7), ("omegalm", 8)]]

/-- A small measurement: the search returns the first time it sees (or raises, if asked to), the result is the length of
the (2,2) frequency and both extrema. -/
def rest (raises : Bool) : Rest ℚ (ℚ × ℚ) ℚ (Option ℕ × ℚ × ℚ) where
  init := fun _ _ => .ok none
  search := fun _ _ _ t => if raises then .error .exception else pyGet t 0
  midpoints := none
  final := fun nd _ p a => .ok ((realMode nd "omegalm" (2, 2)).map List.length, p, a)

/-- A call. -/
def call (fits raises : Bool) (precessing : Flag) (numOrbits : Option ℚ) : Call ℚ (ℚ × ℚ) (Option ℕ × ℚ × ℚ) where
  α := ℚ
  lib := DataDemo.waveLib
  fits := fits
  precessing := precessing
  frame := "inertial"
  numOrbits := numOrbits
  rest := rest raises

/-- Well-formedness can be checked cell by cell. -/
theorem wf_of_list {h : Heap ℚ (ℚ × ℚ)} (hall : ∀ c ∈ h, c.Ok h) : WF h := by
  intro i c hc
  exact hall c (List.mem_of_getElem? hc)

theorem objs_ok (d : Dict String Ref) (hd : ∀ p ∈ d, p.2 < 10) : WF (objs ++ [.top d]) := by
  apply wf_of_list
  intro c hc
  have arr : ∀ r ∈ ([1, 2, 3, 4, 5] : List ℕ), IsArr (objs ++ [.top d]) r := by
    intro r hr
    fin_cases hr <;> exact .inl ⟨_, rfl⟩
  simp only [objs, List.cons_append, List.nil_append, List.mem_cons, List.not_mem_nil, or_false] at hc
  rcases hc with rfl | rfl | rfl | rfl | rfl | rfl | rfl | rfl | rfl | rfl
  · trivial
  · trivial
  · trivial
  · trivial
  · trivial
  · trivial
  · intro p hp
    apply arr
    simp only [List.mem_cons, List.not_mem_nil, or_false] at hp
    rcases hp with rfl | rfl | rfl | rfl | rfl <;> decide
  · intro p hp
    apply arr
    simp only [List.mem_cons, List.not_mem_nil, or_false] at hp
    rcases hp with rfl | rfl | rfl | rfl | rfl <;> decide
  · intro p hp
    apply arr
    simp only [List.mem_cons, List.not_mem_nil, or_false] at hp
    rcases hp with rfl | rfl <;> decide
  · exact hd

theorem noOmega_wf : WF noOmega := objs_ok _ (by decide)
theorem withOmega_wf : WF withOmega := objs_ok _ (by decide)

-- hypotheses of the partial theorems are met, by runs that succeed
example : (call true false .isFalse (some 2)).NoWrite (readV noOmega 9).has :=
  ⟨fun h => absurd h (by decide), fun _ _ => by decide +kernel⟩
example : ((call true false .isFalse (some 2)).run 9 noOmega).1 = .ok (some 12, -20, -20) := by decide +kernel
example : ((call false false .isFalse none).run 9 withOmega).1 = .ok (some 24, 0, 0) := by decide +kernel
example : (call true false .isFalse (some 2)).SearchEnds (readV noOmega 9) := by
  intro _ x hx
  have hp : searchV true (rest false) x = .ok (-20, -20) := by
    have : (constructV DataDemo.waveLib .isFalse "inertial" (some 2) (rest false) (readV noOmega 9)).map
        (fun x => searchV true (rest false) x) = .ok (.ok (-20, -20)) := by decide +kernel
    have hx' : constructV DataDemo.waveLib .isFalse "inertial" (some 2) (rest false) (readV noOmega 9) = .ok x := hx
    rw [hx'] at this
    exact Except.ok.inj this
  exact ⟨_, hp⟩
example : OwnOmega withOmega 9 := by
  intro r hr k hk
  have h1 : r = 8 := by
    have : (topDict withOmega 9).get? "omegalm" = some 8 := by decide +kernel
    rw [this] at hr; cases hr; rfl
  subst h1
  have : ∀ p ∈ topDict withOmega 9, p.2 = 8 → p.1 = "omegalm" := by decide +kernel
  exact this _ (mem_of_get? hk) rfl
-- C40: the search raises, and the caller's times are left shifted
example : ((call true true .isFalse none).run 9 noOmega).1 = .error .exception := by decide +kernel

end Demo

/-- The property C21 is violated: with frequencies given and orbits before merger excluded, a successful measurement cuts
the caller's dictionary of frequencies. -/
theorem C21_omegalm_violation : ∃ (c : Call ℚ (ℚ × ℚ) (Option ℕ × ℚ × ℚ)) (h : Heap ℚ (ℚ × ℚ)) (root : ℕ), WF h ∧
    OwnOmega h root ∧ c.SearchEnds (readV h root) ∧ (∃ x, (c.run root h).1 = .ok x) ∧
    ∃ full cut, realMode (readV h root) "omegalm" (2, 2) = some full ∧
      realMode (readV (c.run root h).2 root) "omegalm" (2, 2) = some cut ∧ cut.length < full.length := by
  refine ⟨Demo.call false false .isFalse (some 2), Demo.withOmega, 9, Demo.withOmega_wf, ?_, ?_, ⟨(some 12, 0, 0), ?_⟩,
    DataDemo.times.map fun _ => 1, (DataDemo.times.map fun _ => 1).take 12, ?_, ?_, ?_⟩
  · intro r hr k hk
    have h1 : r = 8 := by
      have : (topDict Demo.withOmega 9).get? "omegalm" = some 8 := by decide +kernel
      rw [this] at hr; cases hr; rfl
    subst h1
    have : ∀ p ∈ topDict Demo.withOmega 9, p.2 = 8 → p.1 = "omegalm" := by decide +kernel
    exact this _ (mem_of_get? hk) rfl
  · intro h; cases h
  · decide +kernel
  · decide +kernel
  · decide +kernel
  · decide +kernel

/-- The property C21 is violated: a precessing system given by amplitudes and phases in the inertial frame: a successful
measurement adds the key "hlm" to the caller's dictionary. -/
theorem C21_hlm_violation : ∃ (c : Call ℚ (ℚ × ℚ) (Option ℕ × ℚ × ℚ)) (h : Heap ℚ (ℚ × ℚ)) (root : ℕ), WF h ∧
    (∃ x, (c.run root h).1 = .ok x) ∧ (readV h root).has "hlm" = false ∧ (readV (c.run root h).2 root).has "hlm" = true := by
  refine ⟨Demo.call false false .isTrue none, Demo.noOmega, 9, Demo.noOmega_wf, ⟨(some 24, 0, 0), ?_⟩, ?_, ?_⟩
  · decide +kernel
  · decide +kernel
  · decide +kernel

/-- The property C22 is violated: the second of two identical calls raises, although the first succeeds: precessing system
given by amplitudes and phases in the inertial frame. -/
theorem C22_hlm_violation : ∃ (c : Call ℚ (ℚ × ℚ) (Option ℕ × ℚ × ℚ)) (h : Heap ℚ (ℚ × ℚ)) (root : ℕ), WF h ∧
    (runAll [(c, root), (c, root)] h).1 = [.ok (some 24, 0, 0), .error .exception] :=
  ⟨Demo.call false false .isTrue none, Demo.noOmega, 9, Demo.noOmega_wf, by decide +kernel⟩

/-- The property C22 is violated: with frequencies given, a call that excludes orbits makes a later call on the same data
see fewer frequencies than it would have seen without it. -/
theorem C22_omegalm_violation : ∃ (c c' : Call ℚ (ℚ × ℚ) (Option ℕ × ℚ × ℚ)) (h : Heap ℚ (ℚ × ℚ)) (root : ℕ), WF h ∧
    (c'.run root h).1 = .ok (some 24, 0, 0) ∧
    (runAll [(c, root), (c', root)] h).1 ≠ [(c.run root h).1, (c'.run root h).1] :=
  ⟨Demo.call false false .isFalse (some 2), Demo.call false false .isFalse none, Demo.withOmega, 9, Demo.withOmega_wf,
    by decide +kernel, by decide +kernel⟩

/-- The property C22 is violated: after a call of a fits method that raised, another call on the same data sees other
times than it would have seen without it. -/
theorem C22_fits_violation : ∃ (c c' : Call ℚ (ℚ × ℚ) (Option ℕ × ℚ × ℚ)) (h : Heap ℚ (ℚ × ℚ)) (root : ℕ), WF h ∧
    (c'.run root h).1 = .ok (some 24, 0, 0) ∧ (runAll [(c, root), (c', root)] h).1 = [.error .exception, .ok (some 24, -20, -20)] :=
  ⟨Demo.call true true .isFalse none, Demo.call false false .isFalse none, Demo.noOmega, 9, Demo.noOmega_wf,
    by decide +kernel, by decide +kernel⟩

end GwEcc.HeapProps
