import Verif.Lemmas.Postprocess
import Verif.Props.Mpi
import Mathlib.Tactic.FieldSimp
import Mathlib.Algebra.Order.Ring.Rat

/-!
# Post-processing of single samples, summaries and the selection syntax (C55–C58)
-/

namespace GwEcc.Post

variable {Idx P D T F V K : Type}

/-! ## C55 -/

/-- C55, one sample: whatever the waveform generator and the measurement do, the call raises exactly when not exactly one
of `tref` and `fref` is given, and then it is a `ValueError`. -/
theorem C55_never_raises (gen : P → Py (Option D)) (measure : D → Option T → Option F → Py (V × V)) (index : Idx)
    (params : P) (tref : Option T) (fref : Option F) :
    (∀ e, postprocessSample gen measure index params tref fref = .error e →
      e = .valueError ∧ ((tref = none ∧ fref = none) ∨ (tref ≠ none ∧ fref ≠ none))) ∧
    (((tref = none ∧ fref ≠ none) ∨ (tref ≠ none ∧ fref = none)) →
      ∃ r, postprocessSample gen measure index params tref fref = .ok r ∧ r.index = index) := by
  unfold postprocessSample oneGiven
  constructor
  · intro e he
    split at he
    · next h =>
      injection he with he
      refine ⟨he.symm, ?_⟩
      cases tref <;> cases fref <;> simp_all
    · split at he <;> cases he
  · intro h
    rw [if_neg (by rcases h with ⟨h1, h2⟩ | ⟨h1, h2⟩ <;> cases tref <;> cases fref <;> simp_all)]
    split
    · exact ⟨_, rfl, rfl⟩
    · exact ⟨_, rfl, rfl⟩

/-- C55, what the row says: status success with both values iff the generator returned a dictionary and the measurement
returned; status fail, no values and the exception that was raised otherwise (`TypeError` for a generator that did not
return a dictionary). -/
theorem C55_row (gen : P → Py (Option D)) (measure : D → Option T → Option F → Py (V × V)) (index : Idx)
    (params : P) (tref : Option T) (fref : Option F) {r : Result Idx V}
    (h : postprocessSample gen measure index params tref fref = .ok r) :
    (∀ e l, (r.success = true ∧ r.egw = some e ∧ r.lgw = some l) ↔
        ∃ d, gen params = .ok (some d) ∧ measure d tref fref = .ok (e, l)) ∧
    (r.success = false ↔ ¬ ∃ d v, gen params = .ok (some d) ∧ measure d tref fref = .ok v) ∧
    (r.success = false → r.egw = none ∧ r.lgw = none) ∧ (r.success = true → r.egw ≠ none ∧ r.lgw ≠ none) ∧
    (∀ err, r.error = some err ↔ gen params = .error err ∨ (gen params = .ok none ∧ err = .typeError) ∨
      ∃ d, gen params = .ok (some d) ∧ measure d tref fref = .error err) := by
  unfold postprocessSample at h
  split at h
  · cases h
  · unfold getDataDict at h
    cases hg : gen params with
    | error e =>
      simp only [hg, Except.bind] at h
      injection h with h; subst h
      simp [eq_comm]
    | ok o =>
      cases o with
      | none =>
        simp only [hg, Except.bind] at h
        injection h with h; subst h
        simp [eq_comm]
      | some d =>
        simp only [hg, Except.bind] at h
        cases hm : measure d tref fref with
        | error e =>
          simp only [hm] at h
          injection h with h; subst h
          simp [hm, eq_comm]
        | ok v =>
          obtain ⟨e, l⟩ := v
          simp only [hm] at h
          injection h with h; subst h
          simp [hm]

/-- C55, many samples: with distinct labels in the posterior and exactly one reference point the run returns, in input
order, for every requested sample the row it gets when it is processed alone with its own parameters. -/
theorem C55_isolation [DecidableEq Idx] (gen : P → Py (Option D)) (measure : D → Option T → Option F → Py (V × V))
    (posterior : List (Idx × P)) (hp : (posterior.map Prod.fst).Nodup) (samples : List Idx)
    (hs : ∀ i ∈ samples, i ∈ posterior.map Prod.fst) (tref : Option T) (fref : Option F)
    (href : (tref = none ∧ fref ≠ none) ∨ (tref ≠ none ∧ fref = none)) :
    ∃ rs, postprocess gen measure posterior (some samples) tref fref = .ok rs ∧ rs.length = samples.length ∧
      ∀ (n : ℕ) (i : Idx), samples[n]? = some i → ∃ p r, (i, p) ∈ posterior ∧ rs[n]? = some r ∧
        postprocessSample gen measure i p tref fref = .ok r := by
  have hone : ¬ oneGiven tref fref = false := by
    unfold oneGiven
    rcases href with ⟨h1, h2⟩ | ⟨h1, h2⟩ <;> cases tref <;> cases fref <;> simp_all
  obtain ⟨rows, hrows, hidx, hmem⟩ := Mpi.C54_selection posterior hp samples hs
  unfold postprocess
  simp only [hone, if_false, Option.getD_some, hrows]
  have hzip : samples.zip (rows.map Prod.snd) = rows := by
    rw [← hidx]; exact (List.zip_of_prod rfl rfl).symm
  rw [hzip]
  have hok : ∀ s ∈ rows, postprocessSample gen measure s.1 s.2 tref fref =
      .ok (match postprocessSample gen measure s.1 s.2 tref fref with
        | .ok r => r
        | .error e => ⟨s.1, false, none, none, some e⟩) := by
    intro s _
    obtain ⟨r, hr, _⟩ := (C55_never_raises gen measure s.1 s.2 tref fref).2 href
    rw [hr]
  rw [mapM_ok hok]
  refine ⟨_, rfl, ?_, ?_⟩
  · rw [List.length_map, ← hidx, List.length_map]
  · intro n i hn
    rw [← hidx, List.getElem?_map] at hn
    cases hr : rows[n]? with
    | none => rw [hr] at hn; cases hn
    | some s =>
      rw [hr] at hn
      simp only [Option.map_some, Option.some.injEq] at hn
      have hsr : s ∈ rows := List.mem_of_getElem? hr
      have h1 : (i, s.2) ∈ posterior := by rw [← hn]; exact hmem s hsr
      have h2 := hok s hsr
      rw [hn] at h2
      refine ⟨s.2, _, h1, ?_, h2⟩
      rw [List.getElem?_map, hr, Option.map_some, hn]

/-- C55 is false of the code when a label occurs twice in the posterior: `zip` pairs the labels with the wrong
parameters. -/
theorem C55_duplicate_labels_violation :
    ∃ (posterior : List (ℕ × ℕ)) (rs : List (Result ℕ ℕ)),
      postprocess (fun p => .ok (some p)) (fun d (_ : Option Unit) (_ : Option Unit) => .ok (d, d)) posterior
        (some [1, 2]) (some ()) none = .ok rs ∧
      (2, 30) ∈ posterior ∧ (∀ p, (2, p) ∈ posterior → p = 30) ∧ ∃ r ∈ rs, r.index = 2 ∧ r.egw = some 20 :=
  ⟨[(1, 10), (1, 20), (2, 30)], _, rfl, by decide, by simp, ⟨2, true, some 20, some 20, none⟩, by simp, rfl, rfl⟩

/-- C55, frequency ranges: never raises; the range is present iff generator and measurement returned. -/
theorem C55_fref_bounds (gen : P → Py (Option D)) (mb : D → Py (K × K)) (index : Idx) (params : P) (b : K × K) :
    (frefBoundsForSample gen mb index params).index = index ∧
    ((frefBoundsForSample gen mb index params).bounds = some b ↔
      ∃ d, gen params = .ok (some d) ∧ mb d = .ok b) := by
  unfold frefBoundsForSample getDataDict
  cases hg : gen params with
  | error e => simp [Except.bind]
  | ok o =>
    cases o with
    | none => simp [Except.bind]
    | some d =>
      simp only [Except.bind]
      cases hm : mb d with
      | error e => simp [hm]
      | ok v => simp [hm]

example : postprocess (fun p => if p = 0 then .error .exception else .ok (some p))
    (fun d (_ : Option Unit) (_ : Option Unit) => .ok (d, 2 * d)) [(7, 0), (9, 5)] (some [9, 7]) (some ()) none =
    .ok [⟨9, true, some 5, some 10, none⟩, ⟨7, false, none, none, some Err.exception⟩] := by rfl

/-! ## C56 -/

/-- C56, what is returned: a frequency is in the returned range iff it is in the range of every successful sample. -/
theorem C56_intersection [LinearOrder K] {rs : List (Bounds Idx K)} {lo hi : K}
    (h : getMinmaxFref rs = .ok (lo, hi)) (x : K) :
    (lo ≤ x ∧ x ≤ hi) ↔ ∀ r ∈ rs, ∀ b, r.bounds = some b → b.1 ≤ x ∧ x ≤ b.2 := by
  unfold getMinmaxFref at h
  simp only at h
  split at h
  · cases h
  · split at h
    · cases h
    · next hne =>
      have hmem : ∀ b, b ∈ rs.filterMap Bounds.bounds ↔ ∃ r ∈ rs, r.bounds = some b := by
        intro b; simp [List.mem_filterMap]
      generalize rs.filterMap Bounds.bounds = l at h hne hmem
      cases l with
      | nil => simp at hne
      | cons a l =>
        simp only [List.map_cons, pyMax, pyMin, ok_bind, pure_eq_ok, Except.ok.injEq, Prod.mk.injEq] at h
        obtain ⟨rfl, rfl⟩ := h
        rw [foldl_max_le, le_foldl_min]
        constructor
        · rintro ⟨⟨h1, h2⟩, h3, h4⟩ r hr b hb
          rcases List.mem_cons.mp ((hmem b).mpr ⟨r, hr, hb⟩) with rfl | hbl
          · exact ⟨h1, h3⟩
          · exact ⟨h2 _ (List.mem_map_of_mem hbl), h4 _ (List.mem_map_of_mem hbl)⟩
        · intro hall
          have ha : ∀ b ∈ a :: l, b.1 ≤ x ∧ x ≤ b.2 := by
            intro b hb
            obtain ⟨r, hr, hrb⟩ := (hmem b).mp hb
            exact hall r hr b hrb
          refine ⟨⟨(ha a (by simp)).1, ?_⟩, (ha a (by simp)).2, ?_⟩
          · intro c hc
            obtain ⟨b, hb, rfl⟩ := List.mem_map.mp hc
            exact (ha b (by simp [hb])).1
          · intro c hc
            obtain ⟨b, hb, rfl⟩ := List.mem_map.mp hc
            exact (ha b (by simp [hb])).2

/-- C56, when it raises: iff no sample succeeded (`ZeroDivisionError` when there is no result at all, `Exception`
otherwise). -/
theorem C56_raises_iff [LinearOrder K] (rs : List (Bounds Idx K)) :
    ((∃ e, getMinmaxFref rs = .error e) ↔ ∀ r ∈ rs, r.bounds = none) ∧
    (getMinmaxFref rs = .error .zeroDivisionError ↔ rs = []) := by
  have hnil : rs.filterMap Bounds.bounds = [] ↔ ∀ r ∈ rs, r.bounds = none := by
    rw [List.filterMap_eq_nil_iff]
  unfold getMinmaxFref
  simp only [List.length_eq_zero_iff]
  by_cases h0 : rs = []
  · simp [h0]
  · simp only [h0, if_false, iff_false]
    by_cases hs : rs.filterMap Bounds.bounds = []
    · simp only [hs, if_true]
      exact ⟨⟨fun _ => hnil.mp hs, fun _ => ⟨_, rfl⟩⟩, by simp⟩
    · simp only [hs, if_false]
      have hok : ∃ v, (do
          let lo ← pyMax ((rs.filterMap Bounds.bounds).map Prod.fst)
          let hi ← pyMin ((rs.filterMap Bounds.bounds).map Prod.snd)
          return (lo, hi) : Py (K × K)) = .ok v := by
        cases hl : rs.filterMap Bounds.bounds with
        | nil => exact absurd hl hs
        | cons a l => exact ⟨_, rfl⟩
      obtain ⟨v, hv⟩ := hok
      rw [hv]
      refine ⟨⟨fun h => ?_, fun h => absurd (hnil.mpr h) hs⟩, by simp⟩
      obtain ⟨e, he⟩ := h
      cases he

/-- C56, remark: the range that is returned can be empty; nothing is raised then. -/
theorem C56_may_be_empty :
    getMinmaxFref ([⟨0, some (1, 2)⟩, ⟨1, some (3, 4)⟩] : List (Bounds ℕ ℕ)) = .ok (3, 2) := by rfl

example : getMinmaxFref ([⟨0, some (1, 9)⟩, ⟨1, none⟩, ⟨2, some (3, 7)⟩] : List (Bounds ℕ ℕ)) = .ok (3, 7) := by rfl

/-! ## C57 -/

/-- C57. For a non-empty list of results the summary counts all of them; the success percentage is `100·s/(s+f)` with `s`
successes and `f` failures, so that together with the failure percentage it makes 100; the listed values are those of the
successful samples in order. An empty list raises `ZeroDivisionError`. -/
theorem C57_summary [Field K] [LinearOrder K] [IsStrictOrderedRing K] (rs : List (Result Idx V)) :
    (rs = [] → (getSummary rs : Py (Summary V K)) = .error .zeroDivisionError) ∧
    (rs ≠ [] → ∃ s : Summary V K, getSummary rs = .ok s ∧
      s.total = rs.countP (fun r => r.success) + rs.countP (fun r => !r.success) ∧ s.total = rs.length ∧
      s.percentage = 100 * (rs.countP (fun r => r.success) : K) / (rs.length : K) ∧
      s.percentage + 100 * (rs.countP (fun r => !r.success) : K) / (rs.length : K) = 100 ∧
      0 ≤ s.percentage ∧ s.percentage ≤ 100 ∧
      s.egw = (rs.filter fun r => r.success).map Result.egw ∧ s.lgw = (rs.filter fun r => r.success).map Result.lgw) := by
  constructor
  · rintro rfl; rfl
  · intro hne
    have hlen : rs.length ≠ 0 := by rwa [Ne, List.length_eq_zero_iff]
    have hcount : rs.length = rs.countP (fun r => r.success) + rs.countP (fun r => !r.success) := by
      have := List.length_eq_countP_add_countP (fun r : Result Idx V => r.success) (l := rs)
      rw [this]
      congr 1
      refine List.countP_congr fun r _ => ?_
      cases r.success <;> simp
    have hfl : (rs.filter fun r => r.success).length = rs.countP (fun r => r.success) := by
      rw [List.countP_eq_length_filter]
    have hpos : (0 : K) < (rs.length : K) := by exact_mod_cast Nat.pos_of_ne_zero hlen
    have hc' : (rs.length : K) = (rs.countP (fun r => r.success) : K) + (rs.countP (fun r => !r.success) : K) := by
      exact_mod_cast hcount
    have hs0 : (0 : K) ≤ (rs.countP (fun r => r.success) : K) := Nat.cast_nonneg _
    have hf0 : (0 : K) ≤ (rs.countP (fun r => !r.success) : K) := Nat.cast_nonneg _
    have hper : ((rs.countP (fun r => r.success) : K) / (rs.length : K)) * 100 =
        100 * (rs.countP (fun r => r.success) : K) / (rs.length : K) := by ring
    unfold getSummary
    simp only [hlen, if_false]
    refine ⟨_, rfl, hcount, rfl, ?_, ?_, ?_, ?_, rfl, rfl⟩
    · simp only [hfl]; exact hper
    · simp only [hfl]
      rw [hper, ← add_div, ← mul_add, ← hc', mul_div_assoc, div_self hpos.ne', mul_one]
    · simp only [hfl]; positivity
    · simp only [hfl]
      rw [hper, div_le_iff₀ hpos]
      nlinarith

example : (getSummary [⟨0, true, some 3, some 4, none⟩, ⟨1, false, none, none, none⟩] :
    Py (Summary ℕ ℚ)).map (fun s => (s.total, s.percentage, s.egw)) = .ok (2, 50, [some 3]) := by
  decide +kernel

/-! ## C58 -/

/-- C58, `start:stop:step` for all integers: `step = 0` raises `ValueError`; otherwise exactly the integers reached from
`start` in steps of `step` before `stop`, in that order. -/
theorem C58_range_step (start stop step : ℤ) :
    (step = 0 → parseSamples (some (typed start ++ ':' :: (typed stop ++ ':' :: typed step))) = .error .valueError) ∧
    (step ≠ 0 → ∃ l, parseSamples (some (typed start ++ ':' :: (typed stop ++ ':' :: typed step))) = .ok (some l) ∧
      (∀ x, x ∈ l ↔ step ∣ (x - start) ∧ (if 0 < step then start ≤ x ∧ x < stop else stop < x ∧ x ≤ start)) ∧
      l.Pairwise (fun x y => if 0 < step then x < y else y < x)) := by
  have hpl : ∀ c ∈ typed start ++ ':' :: (typed stop ++ ':' :: typed step), Plain c := by
    intro c hc
    simp only [List.mem_append, List.mem_cons] at hc
    rcases hc with hc | rfl | hc | rfl | hc
    · exact typed_plain hc
    · exact Or.inr (Or.inr (Or.inl rfl))
    · exact typed_plain hc
    · exact Or.inr (Or.inr (Or.inl rfl))
    · exact typed_plain hc
  have hparse : parseSamples (some (typed start ++ ':' :: (typed stop ++ ':' :: typed step))) =
      (pyRange start stop step).map some := by
    rw [parse_plain hpl, if_pos (by simp), splitOn_three (typed_no_sep _).1 (typed_no_sep _).1 (typed_no_sep _).1]
    unfold parseRange
    have h1 : (typed start).isEmpty = false := by simpa using typed_ne_nil start
    have h2 : (typed step).isEmpty = false := by simpa using typed_ne_nil step
    simp only [h1, h2, pyInt_typed, ok_bind]
    rfl
  rw [hparse]
  constructor
  · rintro rfl; rfl
  · intro h0
    have : ∃ l, pyRange start stop step = .ok l := by unfold pyRange; rw [if_neg h0]; exact ⟨_, rfl⟩
    obtain ⟨l, hl⟩ := this
    refine ⟨l, by rw [hl]; rfl, mem_pyRange hl, sorted_pyRange hl⟩

/-- C58, `start:stop`, `:stop` and `start:stop:` : step 1, and start 0 when it is omitted. -/
theorem C58_range (start stop : ℤ) :
    ∃ l, parseSamples (some (typed start ++ ':' :: typed stop)) = .ok (some l) ∧
      parseSamples (some (typed start ++ ':' :: (typed stop ++ [':']))) = .ok (some l) ∧
      (start = 0 → parseSamples (some (':' :: typed stop)) = .ok (some l)) ∧
      (∀ x, x ∈ l ↔ start ≤ x ∧ x < stop) ∧ l.Pairwise (· < ·) := by
  have h1 : (typed start).isEmpty = false := by simpa using typed_ne_nil start
  have : ∃ l, pyRange start stop 1 = .ok l := by unfold pyRange; rw [if_neg (by decide)]; exact ⟨_, rfl⟩
  obtain ⟨l, hl⟩ := this
  refine ⟨l, ?_, ?_, ?_, ?_, ?_⟩
  · have hpl : ∀ c ∈ typed start ++ ':' :: typed stop, Plain c := by
      intro c hc
      simp only [List.mem_append, List.mem_cons] at hc
      rcases hc with hc | rfl | hc
      · exact typed_plain hc
      · exact Or.inr (Or.inr (Or.inl rfl))
      · exact typed_plain hc
    rw [parse_plain hpl, if_pos (by simp), splitOn_two (typed_no_sep _).1 (typed_no_sep _).1]
    unfold parseRange
    simp only [h1, pyInt_typed, ok_bind]
    simp only [Bool.false_eq_true, if_false, ok_bind, hl]
    rfl
  · have hpl : ∀ c ∈ typed start ++ ':' :: (typed stop ++ [':']), Plain c := by
      intro c hc
      simp only [List.mem_append, List.mem_cons, List.not_mem_nil, or_false] at hc
      rcases hc with hc | rfl | hc | rfl
      · exact typed_plain hc
      · exact Or.inr (Or.inr (Or.inl rfl))
      · exact typed_plain hc
      · exact Or.inr (Or.inr (Or.inl rfl))
    rw [parse_plain hpl, if_pos (by simp), splitOn_three (typed_no_sep _).1 (typed_no_sep _).1 (by simp)]
    unfold parseRange
    simp only [h1, pyInt_typed, ok_bind]
    simp only [Bool.false_eq_true, if_false, List.isEmpty_nil, if_true, ok_bind, hl]
    rfl
  · rintro rfl
    have hpl : ∀ c ∈ ':' :: typed stop, Plain c := by
      intro c hc
      simp only [List.mem_cons] at hc
      rcases hc with rfl | hc
      · exact Or.inr (Or.inr (Or.inl rfl))
      · exact typed_plain hc
    rw [parse_plain hpl, if_pos (by simp)]
    have := splitOn_two (a := []) (b := typed stop) (by simp) (typed_no_sep _).1
    rw [List.nil_append] at this
    rw [this]
    unfold parseRange
    simp only [List.isEmpty_nil, if_true, pyInt_typed, ok_bind, hl]
    rfl
  · intro x
    rw [mem_pyRange hl]
    simp
  · have := sorted_pyRange hl
    simpa using this

/-- C58, a comma list of at least two integers selects exactly these, in this order. -/
theorem C58_list (l : List ℤ) (hl : 2 ≤ l.length) :
    parseSamples (some ([','].intercalate (l.map typed))) = .ok (some l) := by
  have hne : l.map typed ≠ [] := by
    intro h; rw [List.map_eq_nil_iff] at h; subst h; simp at hl
  have hpl : ∀ c ∈ [','].intercalate (l.map typed), Plain c := by
    have key : ∀ ls : List (List Char), (∀ a ∈ ls, ∀ c ∈ a, Plain c) → ∀ c ∈ [','].intercalate ls, Plain c := by
      intro ls hls c hc
      unfold List.intercalate at hc
      obtain ⟨a, ha, hca⟩ := List.mem_flatten.mp hc
      rcases mem_intersperse_comma ha with rfl | h
      · exact Or.inr (Or.inr (Or.inr (by simpa using hca)))
      · exact hls a h c hca
    refine key _ ?_
    intro a ha c hc
    obtain ⟨n, _, rfl⟩ := List.mem_map.mp ha
    exact typed_plain hc
  have hsplit : ([','].intercalate (l.map typed)).splitOn ',' = l.map typed := by
    refine List.splitOn_intercalate ',' ?_ hne
    intro a ha
    obtain ⟨n, _, rfl⟩ := List.mem_map.mp ha
    exact (typed_no_sep n).2
  have hcol : ':' ∉ [','].intercalate (l.map typed) := by
    intro hc
    unfold List.intercalate at hc
    obtain ⟨a, ha, hca⟩ := List.mem_flatten.mp hc
    rcases mem_intersperse_comma ha with rfl | h
    · simp at hca
    · obtain ⟨n, _, rfl⟩ := List.mem_map.mp h
      exact (typed_no_sep n).1 hca
  have hcom : ',' ∈ [','].intercalate (l.map typed) := by
    by_contra hno
    rw [List.splitOn_eq_singleton hno] at hsplit
    have := congrArg List.length hsplit
    simp at this
    omega
  rw [parse_plain hpl, if_neg hcol, if_pos hcom, hsplit]
  have hf : (l.map typed).filter (fun x => !(strip x).isEmpty) = l.map typed := by
    rw [List.filter_eq_self]
    intro a ha
    obtain ⟨n, _, rfl⟩ := List.mem_map.mp ha
    rw [strip_plain (fun c hc => typed_plain hc)]
    simpa using typed_ne_nil n
  rw [hf, List.mapM_map]
  rw [mapM_ok (f := (fun x => pyInt (strip x)) ∘ typed) (g := id)]
  · rw [List.map_id]; rfl
  · intro n _
    rw [Function.comp, strip_plain (fun c hc => typed_plain hc), pyInt_typed]; rfl

/-- C58, a single integer is a selection of one; no value, `all` and `none` select everything. -/
theorem C58_single_and_all (n : ℤ) :
    parseSamples (some (typed n)) = .ok (some [n]) ∧ parseSamples none = .ok none ∧
      parseSamples (some "all".toList) = .ok none ∧ parseSamples (some " None ".toList) = .ok none := by
  refine ⟨?_, rfl, by rfl, by rfl⟩
  rw [parse_plain (fun c hc => typed_plain hc), if_neg (typed_no_sep n).1, if_neg (typed_no_sep n).2, pyInt_typed]
  rfl

/-- C58, a range with an omitted end, or with more than three parts, raises `ValueError`. -/
theorem C58_malformed (a b c d : ℤ) :
    parseSamples (some (typed a ++ [':'])) = .error .valueError ∧
    parseSamples (some (typed a ++ ':' :: (typed b ++ ':' :: (typed c ++ ':' :: typed d)))) = .error .valueError := by
  constructor
  · have hpl : ∀ x ∈ typed a ++ [':'], Plain x := by
      intro x hx
      simp only [List.mem_append, List.mem_cons, List.not_mem_nil, or_false] at hx
      rcases hx with hx | rfl
      · exact typed_plain hx
      · exact Or.inr (Or.inr (Or.inl rfl))
    rw [parse_plain hpl, if_pos (by simp), splitOn_two (typed_no_sep _).1 (by simp)]
    unfold parseRange
    have h1 : (typed a).isEmpty = false := by simpa using typed_ne_nil a
    simp only [h1, pyInt_typed, ok_bind, Bool.false_eq_true, if_false]
    rfl
  · have hpl : ∀ x ∈ typed a ++ ':' :: (typed b ++ ':' :: (typed c ++ ':' :: typed d)), Plain x := by
      intro x hx
      simp only [List.mem_append, List.mem_cons] at hx
      rcases hx with hx | rfl | hx | rfl | hx | rfl | hx
      · exact typed_plain hx
      · exact Or.inr (Or.inr (Or.inl rfl))
      · exact typed_plain hx
      · exact Or.inr (Or.inr (Or.inl rfl))
      · exact typed_plain hx
      · exact Or.inr (Or.inr (Or.inl rfl))
      · exact typed_plain hx
    rw [parse_plain hpl, if_pos (by simp), List.splitOn_append_cons_self_of_not_mem (typed_no_sep _).1,
      splitOn_three (typed_no_sep _).1 (typed_no_sep _).1 (typed_no_sep _).1]
    rfl

example : typed (-12) = "-12".toList ∧
    parseSamples (some "3:10:2".toList) = .ok (some [3, 5, 7, 9]) ∧
    parseSamples (some " 4, 1 ,".toList) = .ok (some [4, 1]) := by
  decide +kernel

end GwEcc.Post
