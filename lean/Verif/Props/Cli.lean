import Verif.Spec.Cli
import Verif.Props.Mpi
import Verif.Props.Postprocess

set_option linter.unusedSectionVars false

/-!
# Properties of the command line program (C91, C92)
-/

namespace GwEcc.Cli

open Post Mpi

variable {F J D V X : Type}

/-! ## The command line -/

theorem given_some {argv : List (String × Str)} {name : String} {v : Str} :
    given argv name = some v ↔ LastGiven argv name v := by
  unfold given LastGiven
  induction argv using List.reverseRecOn with
  | nil => simp
  | append_singleton l o ih =>
    rw [List.reverse_append, List.reverse_singleton, List.singleton_append, List.lookup_cons]
    by_cases ho : o.1 = name
    · have : (name == o.1) = true := by simp [ho]
      rw [this]
      simp only
      constructor
      · rintro h
        cases h
        exact ⟨l, [], by rw [← ho], by simp⟩
      · rintro ⟨b, a, h, ha⟩
        rcases List.eq_nil_or_concat a with rfl | ⟨a', x, rfl⟩
        · have := (List.append_inj' h rfl).2
          cases this
          rfl
        · rw [List.concat_eq_append, ← List.cons_append, ← List.append_assoc] at h
          have := (List.append_inj' h rfl).2
          cases this
          exact absurd ho (ha _ (by simp))
    · have : (name == o.1) = false := by simpa using fun h => ho h.symm
      rw [this]
      simp only
      rw [ih]
      constructor
      · rintro ⟨b, a, rfl, ha⟩
        refine ⟨b, a ++ [o], by simp, ?_⟩
        intro x hx
        rcases List.mem_append.mp hx with hx | hx
        · exact ha x hx
        · rw [List.mem_singleton.mp hx]; exact ho
      · rintro ⟨b, a, h, ha⟩
        rcases List.eq_nil_or_concat a with rfl | ⟨a', x, rfl⟩
        · have := (List.append_inj' h rfl).2
          cases this
          exact absurd rfl ho
        · rw [List.concat_eq_append, ← List.cons_append, ← List.append_assoc] at h
          refine ⟨b, a', (List.append_inj' h rfl).1, fun y hy => ha y (by simp [hy])⟩

theorem given_none {argv : List (String × Str)} {name : String} :
    given argv name = none ↔ NotGiven argv name := by
  unfold given NotGiven
  rw [List.lookup_eq_none_iff]
  constructor
  · intro h o ho hn
    have := h o (List.mem_reverse.mpr ho)
    simp [hn] at this
  · intro h o ho
    have := h o (List.mem_reverse.mp ho)
    simpa using fun hn => this hn.symm

theorem textFor_iff {argv : List (String × Str)} {name : String} {default v : Str} :
    TextFor argv name default v ↔ (given argv name).getD default = v := by
  unfold TextFor
  rw [← given_some, ← given_none]
  cases given argv name with
  | none => simp [eq_comm]
  | some w => simp

theorem textFor_getD {argv : List (String × Str)} {name : String} {default : Str} :
    TextFor argv name default ((given argv name).getD default) := textFor_iff.mpr rfl

theorem isOk_iff {ε α : Type} {x : Except ε α} : x.isOk = true ↔ ∃ a, x = .ok a := by
  cases x <;> simp [Except.isOk, Except.toBool]

theorem valid_iff {env : Env F J D V X} {o : String × Str} : validOption env o = true ↔ Valid env o := by
  unfold validOption
  rw [Bool.and_eq_true, decide_eq_true_eq]
  constructor
  · rintro ⟨h1, h2⟩
    refine ⟨h1, fun h => ?_, fun h => ?_, fun h => ?_, fun h => ?_, fun h => ?_⟩
    · simpa [h] using h2
    · simpa [h] using h2
    · simp only [h, String.reduceEq, if_false, if_true] at h2
      obtain ⟨x, hx⟩ := isOk_iff.mp h2
      unfold parseIntOrNone at hx
      split at hx
      · rename_i hn; exact Or.inl hn
      · cases hp : pyInt o.2 with
        | error e => rw [hp] at hx; cases hx
        | ok n => exact Or.inr ⟨n, rfl⟩
    · rcases h with h | h <;> (simp only [h, String.reduceEq, if_false, or_true, true_or, if_true] at h2; exact isOk_iff.mp h2)
    · simp only [h, String.reduceEq, if_false, or_self, if_true] at h2
      exact isOk_iff.mp h2
  · intro h
    refine ⟨h.known, ?_⟩
    split_ifs with h1 h2 h3 h4 h5
    · simpa using h.type h1
    · simpa using h.format h2
    · rw [isOk_iff]
      unfold parseIntOrNone
      rcases h.every h3 with hn | ⟨n, hn⟩
      · exact ⟨none, by rw [if_pos hn]⟩
      · split
        · exact ⟨_, rfl⟩
        · exact ⟨some n, by rw [hn]; rfl⟩
    · exact isOk_iff.mpr (h.reference h4)
    · exact isOk_iff.mpr (h.batch h5)
    · rfl

theorem lift_ok {α : Type} {x : Py α} {a : α} : lift x = .ok a ↔ x = .ok a := by
  cases x with
  | ok b => exact ⟨fun h => by cases h; rfl, fun h => by cases h; rfl⟩
  | error e => exact ⟨fun h => (by cases h), fun h => (by cases h)⟩

theorem rsplitColon_append (m a : Str) (ha : ':' ∉ a) : rsplitColon (m ++ ':' :: a) = (m, a) := by
  unfold rsplitColon
  have h : ∀ c ∈ a.reverse, decide (c ≠ ':') = true := by
    intro c hc
    have : c ∈ a := List.mem_reverse.mp hc
    simp only [decide_eq_true_eq]
    rintro rfl
    exact ha this
  have e : (m ++ ':' :: a).reverse = a.reverse ++ ':' :: m.reverse := by simp
  rw [e, List.dropWhile_append_of_pos h, List.takeWhile_append_of_pos h]
  simp

theorem exists_rsplit {s : Str} (h : ':' ∈ s) : ∃ m a, s = m ++ ':' :: a ∧ ':' ∉ a := by
  induction s with
  | nil => cases h
  | cons c s ih =>
    by_cases hs : ':' ∈ s
    · obtain ⟨m, a, rfl, ha⟩ := ih hs
      exact ⟨c :: m, a, rfl, ha⟩
    · have : ':' = c := by
        rcases List.mem_cons.mp h with h | h
        · exact h
        · exact absurd h hs
      subst this
      exact ⟨[], s, rfl, hs⟩

theorem loadCallable_iff {env : Env F J D V X} {path : Str} {g : Gen J D X} :
    loadCallable env path = .ok g ↔ Names env path g := by
  unfold loadCallable
  constructor
  · intro h
    split at h
    · cases h
    · rename_i hc
      rw [not_not] at hc
      obtain ⟨m, a, rfl, ha⟩ := exists_rsplit hc
      rw [rsplitColon_append m a ha] at h
      obtain ⟨names, hn, h⟩ := bind_ok h
      refine ⟨m, a, names, rfl, ha, ?_, ?_⟩
      · unfold loadModule at hn
        split at hn
        · rename_i hf
          split at hn
          · cases hn
          · rename_i he
            exact Or.inl ⟨hf, by simpa using he, hn⟩
        · rename_i hf
          exact Or.inr ⟨hf, hn⟩
      · cases hg : Dict.get? names a with
        | none => rw [hg] at h; cases h
        | some o =>
          rw [hg] at h
          cases o with
          | other => cases h
          | function g' => cases h; rfl
  · rintro ⟨m, a, names, rfl, ha, hm, hg⟩
    rw [if_neg (by simp), rsplitColon_append m a ha]
    unfold loadModule
    rcases hm with ⟨hf, he, hn⟩ | ⟨hf, hn⟩
    · rw [if_pos hf, if_neg (by simp [he]), hn, ok_bind, hg]
    · rw [if_neg hf, hn, ok_bind, hg]

theorem parseJsonDict_iff {env : Env F J D V X} {v : Str} {d : J} :
    parseJsonDict env v = .ok d ↔ IsObject env v d := by
  unfold parseJsonDict IsObject
  cases v with
  | nil => exact ⟨fun h => by cases h; simp, fun h => by simpa [eq_comm] using h⟩
  | cons c v =>
    simp only [List.isEmpty_cons, Bool.false_eq_true, if_false]
    cases h : env.loads (c :: v) with
    | error e => simp
    | ok j =>
      cases j with
      | object d' => simp
      | other => simp

theorem bind_ok' {α β : Type} {x : Except CliErr α} {f : α → Except CliErr β} {b : β} (h : (x >>= f) = .ok b) :
    ∃ a, x = .ok a ∧ f a = .ok b := by
  cases x with
  | error e => cases h
  | ok a => exact ⟨a, rfl, h⟩

theorem oneGiven_iff {T : Type} {a b : Option T} : oneGiven a b = true ↔ (a = none ∧ b ≠ none) ∨ (a ≠ none ∧ b = none) := by
  unfold oneGiven
  cases a <;> cases b <;> simp

/-- C91, acceptance: the program accepts a command line exactly if it is well formed in the sense of `Accepts`, and then
it works with the values given. -/
theorem C91_accepts_iff (env : Env F J D V X) (argv : List (String × Str)) (c : Config F J D X) :
    buildConfig env argv = .ok c ↔ Accepts env argv c := by
  have hall : argv.all (validOption env) = true ↔ ∀ o ∈ argv, Valid env o := by
    rw [List.all_eq_true]
    exact forall₂_congr fun o _ => valid_iff
  unfold buildConfig
  constructor
  · intro h
    split at h
    · cases h
    · rename_i hv
      have hv := hall.mp (by simpa using hv)
      split at h
      · rename_i path gen hpath hgen
        dsimp only at h
        split at h
        · cases h
        · rename_i hone
          have hone := oneGiven_iff.mp (by simpa using hone)
          obtain ⟨samples, hsamples, h⟩ := bind_ok' h
          obtain ⟨g, hg, h⟩ := bind_ok' h
          obtain ⟨kw1, hkw1, h⟩ := bind_ok' h
          obtain ⟨kw2, hkw2, h⟩ := bind_ok' h
          cases h
          rw [lift_ok] at hsamples hg hkw1 hkw2
          have ref : ∀ name, name = "--fref" ∨ name = "--tref" →
              (NotGiven argv name ∧ (given argv name).bind (fun x => (env.float x).toOption) = none) ∨
              ∃ v x, LastGiven argv name v ∧ env.float v = .ok x ∧
                (given argv name).bind (fun x => (env.float x).toOption) = some x := by
            intro name hname
            cases hgv : given argv name with
            | none => exact Or.inl ⟨given_none.mp hgv, rfl⟩
            | some v =>
              have hl := given_some.mp hgv
              obtain ⟨b, a, e, -⟩ := id hl
              obtain ⟨x, hx⟩ := (hv (name, v) (by rw [e]; simp)).reference hname
              exact Or.inr ⟨v, x, hl, hx, by simp [hx, Except.toOption]⟩
          refine ⟨hv, given_some.mp hpath, ⟨_, textFor_getD, ?_⟩, textFor_getD, textFor_getD, ⟨_, textFor_getD, ?_⟩,
            ⟨_, textFor_getD, hsamples⟩, ?_, textFor_getD, ?_, ⟨gen, given_some.mp hgen, loadCallable_iff.mp hg⟩,
            ⟨_, textFor_getD, parseJsonDict_iff.mp hkw1⟩, ⟨_, textFor_getD, parseJsonDict_iff.mp hkw2⟩⟩
          · cases given argv "--parameter-columns" with
            | none => exact Or.inl ⟨rfl, rfl⟩
            | some v => cases v <;> simp [parseColumns]
          · cases hgv : given argv "--save-every" with
            | none => exact Or.inl ⟨by decide, rfl⟩
            | some v =>
              obtain ⟨b, a, e, -⟩ := given_some.mp hgv
              have := (hv ("--save-every", v) (by rw [e]; simp)).every rfl
              dsimp only [Option.getD_some, Option.bind_some]
              unfold parseIntOrNone
              by_cases hn : v.map Char.toLower = "none".toList
              · exact Or.inl ⟨hn, by rw [if_pos hn]; rfl⟩
              · obtain ⟨n, hp⟩ := this.resolve_left hn
                exact Or.inr ⟨hn, n, hp, by rw [if_neg hn, hp]; rfl⟩
          · rcases hone with ⟨h1, h2⟩ | ⟨h1, h2⟩
            · left
              refine ⟨((ref "--tref" (Or.inr rfl)).resolve_right ?_).1, h1, (ref "--fref" (Or.inl rfl)).resolve_left fun h => h2 h.2⟩
              rintro ⟨v, x, -, -, h⟩
              rw [h1] at h
              cases h
            · right
              refine ⟨((ref "--fref" (Or.inl rfl)).resolve_right ?_).1, h2, (ref "--tref" (Or.inr rfl)).resolve_left fun h => h1 h.2⟩
              rintro ⟨v, x, -, -, h⟩
              rw [h2] at h
              cases h
          · cases hgv : given argv "--batch-size" with
            | none => exact Or.inl ⟨given_none.mp hgv, rfl⟩
            | some v =>
              have hl := given_some.mp hgv
              obtain ⟨b, a, e, -⟩ := id hl
              obtain ⟨n, hn⟩ := (hv ("--batch-size", v) (by rw [e]; simp)).batch rfl
              exact Or.inr ⟨v, hl, by simp [hn, Except.toOption]⟩
      · cases h
  · intro h
    obtain ⟨path, cols, dir, fmt, every, samples, fref, tref, method, bs, gen, kw1, kw2⟩ := c
    obtain ⟨hv, hpath, ⟨vc, hvc, hc⟩, hdir, hfmt, ⟨ve, hve, he⟩, ⟨vs, hvs, hs⟩, href, hm, hb, ⟨vg, hvg, hg⟩, ⟨v1, hv1, h1⟩,
      ⟨v2, hv2, h2⟩⟩ := h
    dsimp only at *
    rw [if_neg (by rw [hall.mpr hv]; simp), given_some.mpr hpath, given_some.mpr hvg]
    dsimp only
    rw [textFor_iff] at hvc hdir hfmt hve hvs hm hv1 hv2
    rw [hvs, hs, loadCallable_iff.mpr hg, hv1, parseJsonDict_iff.mpr h1, hv2, parseJsonDict_iff.mpr h2, hdir, hfmt, hm]
    have hcols : parseColumns (given argv "--parameter-columns") = cols := by
      cases hgv : given argv "--parameter-columns" with
      | none => rw [hgv] at hvc; cases hvc; simpa [parseColumns, eq_comm] using hc
      | some v =>
        rw [hgv] at hvc
        cases hvc
        rcases hc with ⟨rfl, rfl⟩ | ⟨hne, rfl⟩
        · rfl
        · cases v with
          | nil => exact absurd rfl hne
          | cons => rfl
    have hevery : ((given argv "--save-every").bind fun x => ((parseIntOrNone x).toOption).join) = every := by
      cases hgv : given argv "--save-every" with
      | none =>
        rw [hgv] at hve
        cases hve
        rcases he with ⟨-, rfl⟩ | ⟨hne, -⟩
        · rfl
        · exact absurd (by decide) hne
      | some v =>
        rw [hgv] at hve
        cases hve
        dsimp only [Option.bind_some, Option.getD_some] at he ⊢
        unfold parseIntOrNone
        rcases he with ⟨hn, rfl⟩ | ⟨hn, n, hp, rfl⟩
        · rw [if_pos hn]; rfl
        · rw [if_neg hn, hp]; rfl
    have hbatch : ((given argv "--batch-size").bind fun x => (pyInt x).toOption).getD 100 = bs := by
      rcases hb with ⟨hn, rfl⟩ | ⟨v, hl, hp⟩
      · rw [given_none.mpr hn]; rfl
      · rw [given_some.mpr hl, Option.bind_some, hp]; rfl
    rw [hcols, hevery, hbatch]
    rcases href with ⟨hn, rfl, v, x, hl, hx, rfl⟩ | ⟨hn, rfl, v, x, hl, hx, rfl⟩
    · rw [given_none.mpr hn, given_some.mpr hl, Option.bind_some, Option.bind_none, hx]
      rfl
    · rw [given_none.mpr hn, given_some.mpr hl, Option.bind_some, Option.bind_none, hx]
      rfl

/-- `--parameter-columns a,b,c` asks for the columns a, b, c: for any names without commas and without white space at
their ends. -/
theorem C91_columns (names : List Str) (hne : names ≠ []) (h : ∀ x ∈ names, x ≠ [] ∧ ',' ∉ x ∧ strip x = x) :
    parseColumns (some ([','].intercalate names)) = some names := by
  have hsplit : ([','].intercalate names).splitOn ',' = names :=
    List.splitOn_intercalate ',' (fun l hl => (h l hl).2.1) hne
  have hne' : [','].intercalate names ≠ [] := by
    intro he
    rw [he] at hsplit
    rw [List.splitOn_nil] at hsplit
    exact (h [] (by rw [← hsplit]; simp)).1 rfl
  unfold parseColumns
  dsimp only
  rw [if_neg (by simpa using hne'), hsplit]
  congr 1
  rw [List.map_congr_left (g := id) fun x hx => (h x hx).2.2, List.map_id]

/-! ## The work -/

theorem accepts_oneGiven {env : Env F J D V X} {argv : List (String × Str)} {c : Config F J D X}
    (h : Accepts env argv c) : (c.tref = none ∧ c.fref ≠ none) ∨ (c.tref ≠ none ∧ c.fref = none) := by
  rcases h.reference with ⟨-, h1, v, x, -, -, h2⟩ | ⟨-, h1, v, x, -, -, h2⟩
  · exact Or.inl ⟨h1, by rw [h2]; simp⟩
  · exact Or.inr ⟨by rw [h2]; simp, h1⟩

/-- C91, with an accepted command line no sample makes the program raise, whatever the generator and the measurement do;
the line found is the one a user expects. -/
theorem C91_never_raises {env : Env F J D V X} {argv : List (String × Str)} {c : Config F J D X}
    (h : buildConfig env argv = .ok c) (i : ℤ) (params : Dict Str X) :
    ∃ r, runPostprocess env c i params = .ok r ∧ r.index = i ∧ LineFor env c params r := by
  have hone := accepts_oneGiven ((C91_accepts_iff env argv c).mp h)
  unfold runPostprocess postprocessSample
  rw [if_neg (by rw [oneGiven_iff.mpr hone]; simp)]
  unfold getDataDict
  dsimp only
  cases hg : c.generator params c.extraKwargs with
  | error e => exact ⟨⟨i, false, none, none, some e⟩, rfl, rfl, Or.inr ⟨e, Or.inl hg, rfl, rfl, rfl, rfl⟩⟩
  | ok o =>
    cases o with
    | none =>
      exact ⟨⟨i, false, none, none, some .typeError⟩, rfl, rfl,
        Or.inr ⟨.typeError, Or.inr (Or.inl ⟨hg, rfl⟩), rfl, rfl, rfl, rfl⟩⟩
    | some d =>
      dsimp only [Except.bind]
      cases hm : env.measure c.method c.eccKwargs d c.tref c.fref with
      | error e =>
        exact ⟨⟨i, false, none, none, some e⟩, rfl, rfl, Or.inr ⟨e, Or.inr (Or.inr ⟨d, hg, hm⟩), rfl, rfl, rfl, rfl⟩⟩
      | ok v => exact ⟨⟨i, true, some v.1, some v.2, none⟩, rfl, rfl, Or.inl ⟨d, v.1, v.2, hg, hm, rfl, rfl, rfl, rfl⟩⟩

theorem mapM_ok {α β : Type} {f : α → Py β} {l : List α} (h : ∀ a ∈ l, ∃ b, f a = .ok b) :
    ∃ bs, l.mapM f = .ok bs ∧ List.Forall₂ (fun a b => f a = .ok b) l bs := by
  induction l with
  | nil => exact ⟨[], rfl, .nil⟩
  | cons a l ih =>
    obtain ⟨b, hb⟩ := h a List.mem_cons_self
    obtain ⟨bs, hbs, hf⟩ := ih fun x hx => h x (List.mem_cons_of_mem _ hx)
    exact ⟨b :: bs, by rw [List.mapM_cons, hb, ok_bind, hbs]; rfl, .cons hb hf⟩

/-- C91, a worker's batch: never raises, and gives for every item of the batch, in order, what the item gives alone. -/
theorem C91_batch {env : Env F J D V X} {argv : List (String × Str)} {c : Config F J D X}
    (h : buildConfig env argv = .ok c) (batch : List (ℕ × ℤ × Dict Str X)) :
    ∃ rs, runBatch env c batch = .ok rs ∧
      List.Forall₂ (fun it r => runPostprocess env c it.2.1 it.2.2 = .ok r) batch rs := by
  unfold runBatch
  have e : (batch.map fun it => it.2.1).zip (batch.map fun it => it.2.2) = batch.map fun it => (it.2.1, it.2.2) := by
    rw [List.zip_map', ]
  rw [e]
  obtain ⟨rs, h1, h2⟩ := mapM_ok (f := fun s : ℤ × Dict Str X => runPostprocess env c s.1 s.2)
    (l := batch.map fun it => (it.2.1, it.2.2)) fun s _ => (C91_never_raises h s.1 s.2).imp fun _ h => h.1
  exact ⟨rs, h1, (List.forall₂_map_left_iff).mp h2⟩

/-- The rows pandas selects, with the requested columns. -/
theorem bilbyPosterior_ok {env : Env F J D V X} {c : Config F J D X} {post : Frame X}
    (hpost : env.bilby c.posteriorPath = .ok post) (hcols : ∀ cols, c.parameterColumns = some cols → ∀ x ∈ cols, x ∈ post.columns) :
    bilbyPosterior env c.posteriorPath c.parameterColumns =
      .ok ⟨c.parameterColumns.getD post.columns, post.rows.map fun r =>
        (r.1, (c.parameterColumns.map fun cols => restrict cols r.2).getD r.2)⟩ := by
  unfold bilbyPosterior
  rw [hpost, ok_bind]
  cases hc : c.parameterColumns with
  | none =>
    obtain ⟨cols, rows⟩ := post
    simp
    rfl
  | some cols =>
    dsimp only
    unfold selectColumns
    rw [if_pos (by simpa using hcols cols hc)]
    rfl

/-- The parameters of a sample: the requested columns of its row, or all of them. -/
def paramsOf (c : Config F J D X) (row : Dict Str X) : Dict Str X :=
  (c.parameterColumns.map fun cols => restrict cols row).getD row

/-- The columns of the table a user expects: those of the posterior, the index of the sample and those of the results. -/
def layout (cols : List Str) : List Str :=
  (if "sample_index".toList ∈ cols then cols else cols ++ ["sample_index".toList]) ++
    ["status".toList, "egw".toList, "lgw".toList, "error_message".toList]

/-- C92, layout: when no column of the posterior has the name of a column of the results, the table has the columns of the
posterior, the index of the sample and the columns of the results, in this order. -/
theorem C92_layout_partial (cols : List Str)
    (h : ∀ x ∈ cols, x ≠ "status".toList ∧ x ≠ "egw".toList ∧ x ≠ "lgw".toList ∧ x ≠ "error_message".toList) :
    outputColumns cols = .ok (layout cols) := by
  unfold outputColumns layout
  set left := if "sample_index".toList ∈ cols then cols else cols ++ ["sample_index".toList] with hleft
  have hl : ∀ x ∈ left, x ∉ resultColumns := by
    intro x hx
    have hx' : x ∈ cols ∨ x = "sample_index".toList := by
      rw [hleft] at hx
      split at hx
      · exact Or.inl hx
      · simpa using hx
    rcases hx' with hx' | rfl
    · have := h x hx'
      unfold resultColumns
      simp only [List.mem_cons, List.not_mem_nil, or_false]
      tauto
    · decide
  dsimp only
  have h1 : left.map (fun c => if c ∈ resultColumns then c ++ "_x".toList else c) = left := by
    rw [List.map_congr_left (g := id) fun x hx => by rw [if_neg (hl x hx)]; rfl, List.map_id]
  have h2 : resultColumns.map (fun c => if c ∈ left then c ++ "_y".toList else c) = resultColumns := by
    rw [List.map_congr_left (g := id) fun x hx => by rw [if_neg fun hh => hl x hh hx]; rfl, List.map_id]
  rw [h1, h2, if_pos (List.mem_append_right _ (by decide))]
  rfl

/-- C92 is false of the code when the posterior has a column `status`: the columns are renamed in the merge, reading
`status` raises `KeyError`, and no table is written, after all samples have been computed. -/
theorem C92_status_violation {env : Env F J D V X} {argv : List (String × Str)} {c : Config F J D X} {post : Frame X}
    (hc : buildConfig env argv = .ok c) (hpost : bilbyPosterior env c.posteriorPath c.parameterColumns = .ok post)
    (hs : "status".toList ∈ post.columns) (checkpoint : FileState ℤ (Py (Result ℤ V))) :
    ∀ out, program env argv checkpoint ≠ .ok out := by
  have hcol : outputColumns post.columns = .error .keyError := by
    unfold outputColumns
    set left := if "sample_index".toList ∈ post.columns then post.columns else post.columns ++ ["sample_index".toList]
    have hl : "status".toList ∈ left := by
      unfold left
      split
      · exact hs
      · exact List.mem_append_left _ hs
    dsimp only
    rw [if_neg]
    intro hm
    rcases List.mem_append.mp hm with hm | hm
    · obtain ⟨x, -, hx⟩ := List.mem_map.mp hm
      split at hx
      · have := congrArg List.getLast? hx
        rw [List.getLast?_append] at this
        simp at this
      · rename_i hn
        rw [hx] at hn
        exact hn (by decide)
    · obtain ⟨x, -, hx⟩ := List.mem_map.mp hm
      split at hx
      · have := congrArg List.getLast? hx
        rw [List.getLast?_append] at this
        simp at this
      · rename_i hn
        rw [hx] at hn
        exact hn hl
  intro out h
  unfold program at h
  rw [hc] at h
  obtain ⟨c', e, h⟩ := bind_ok' h
  cases e
  obtain ⟨p, e, h⟩ := bind_ok' h
  rw [lift_ok, hpost] at e
  cases e
  obtain ⟨f, -, h⟩ := bind_ok' h
  obtain ⟨job, -, h⟩ := bind_ok' h
  obtain ⟨rows, -, h⟩ := bind_ok' h
  rw [lift_ok] at h
  unfold output at h
  rw [hcol] at h
  cases h

/-- C92 is false of the code when the posterior has a column `egw`: the table then has no column of that name (its own and
the measured one are called `egw_x` and `egw_y`). -/
theorem C92_egw_violation {cols out : List Str} (h : "egw".toList ∈ cols) (hout : outputColumns cols = .ok out) :
    "egw".toList ∉ out ∧ "egw_x".toList ∈ out ∧ "egw_y".toList ∈ out := by
  unfold outputColumns at hout
  set left := if "sample_index".toList ∈ cols then cols else cols ++ ["sample_index".toList]
  have hl : "egw".toList ∈ left := by
    unfold left
    split
    · exact h
    · exact List.mem_append_left _ h
  dsimp only at hout
  split at hout
  · cases hout
    refine ⟨fun hm => ?_, List.mem_append_left _ (List.mem_map.mpr ⟨"egw".toList, hl, by decide⟩),
      List.mem_append_right _ (List.mem_map.mpr ⟨"egw".toList, by decide, by rw [if_pos hl]; decide⟩)⟩
    rcases List.mem_append.mp hm with hm | hm
    · obtain ⟨x, -, hx⟩ := List.mem_map.mp hm
      split at hx
      · have := congrArg List.getLast? hx
        rw [List.getLast?_append] at this
        simp at this
      · rename_i hn
        rw [hx] at hn
        exact hn (by decide)
    · obtain ⟨x, -, hx⟩ := List.mem_map.mp hm
      split at hx
      · have := congrArg List.getLast? hx
        rw [List.getLast?_append] at this
        simp at this
      · rename_i hn
        rw [hx] at hn
        exact hn hl
  · cases hout

theorem accepts_format {env : Env F J D V X} {argv : List (String × Str)} {c : Config F J D X} (h : Accepts env argv c) :
    writeDf c.outputFormat = .ok () := by
  have : c.outputFormat = "json".toList ∨ c.outputFormat = "csv".toList ∨ c.outputFormat = "parquet".toList := by
    rcases h.outputFormat with ⟨b, a, e, -⟩ | ⟨-, e⟩
    · exact (h.valid ("--output-format", c.outputFormat) (by rw [e]; simp)).format rfl
    · exact Or.inr (Or.inl e)
  unfold writeDf
  rw [if_pos (by simpa using this)]

/-- C91, the job of a run: rows in the order of the request. -/
theorem jobOf_ok {env : Env F J D V X} {c : Config F J D X} {post : Frame X}
    (hlab : (post.rows.map Prod.fst).Nodup) (hsel : ∀ i ∈ c.samples.getD (post.rows.map Prod.fst), i ∈ post.rows.map Prod.fst) :
    ∃ rows, jobOf env c post = .ok ⟨rows, runPostprocess env c, c.saveEvery⟩ ∧
      rows.map Prod.fst = c.samples.getD (post.rows.map Prod.fst) ∧ ∀ r ∈ rows, r ∈ post.rows := by
  obtain ⟨rows, h1, h2, h3⟩ := C54_selection post.rows hlab _ hsel
  refine ⟨rows, ?_, h2, h3⟩
  unfold jobOf
  have : selectRows post.rows c.samples = .ok rows := by
    rw [← h1]
    cases c.samples <;> rfl
  rw [this]
  rfl

/-- The hypotheses of a run that has something sensible to do: an accepted command line, a posterior with distinct labels
that has the requested columns and samples, none of which is requested twice. -/
structure Ready (env : Env F J D V X) (argv : List (String × Str)) (c : Config F J D X) (post : Frame X)
    (samples : List ℤ) : Prop where
  accepted : Accepts env argv c
  posterior : env.bilby c.posteriorPath = .ok post
  labels : (post.rows.map Prod.fst).Nodup
  columns : ∀ cols, c.parameterColumns = some cols → ∀ x ∈ cols, x ∈ post.columns
  names : ∀ x ∈ c.parameterColumns.getD post.columns,
    x ≠ "status".toList ∧ x ≠ "egw".toList ∧ x ≠ "lgw".toList ∧ x ≠ "error_message".toList
  selection : samples = c.samples.getD (post.rows.map Prod.fst)
  present : ∀ i ∈ samples, i ∈ post.rows.map Prod.fst
  distinct : samples.Nodup
  nonempty : samples ≠ []

/-- What the final table should be: one line per requested sample, in the order of the request, with the parameters of the
sample and the line expected for them. -/
def TableFor (env : Env F J D V X) (c : Config F J D X) (post : Frame X) (samples : List ℤ)
    (rows : List (Row ℤ (Dict Str X) (Py (Result ℤ V)))) : Prop :=
  List.Forall₂ (fun i line => ∃ row r, (i, row) ∈ post.rows ∧ line = (i, paramsOf c row, some (.ok r)) ∧ r.index = i ∧
    LineFor env c (paramsOf c row) r) samples rows

theorem ready_job {env : Env F J D V X} {argv : List (String × Str)} {c : Config F J D X} {post : Frame X}
    {samples : List ℤ} (h : Ready env argv c post samples) :
    ∃ post' rows, bilbyPosterior env c.posteriorPath c.parameterColumns = .ok post' ∧
      post'.columns = c.parameterColumns.getD post.columns ∧
      jobOf env c post' = .ok ⟨rows, runPostprocess env c, c.saveEvery⟩ ∧ rows.map Prod.fst = samples ∧ rows ≠ [] ∧
      ∀ r ∈ rows, ∃ row, (r.1, row) ∈ post.rows ∧ r.2 = paramsOf c row := by
  have hb := bilbyPosterior_ok h.posterior h.columns
  have hm : (post.rows.map fun r => (r.1, paramsOf c r.2)).map Prod.fst = post.rows.map Prod.fst := by
    rw [List.map_map]; rfl
  obtain ⟨rows, h1, h2, h3⟩ := jobOf_ok (env := env) (c := c)
    (post := ⟨c.parameterColumns.getD post.columns, post.rows.map fun r => (r.1, paramsOf c r.2)⟩)
    (by dsimp only; rw [hm]; exact h.labels) (by dsimp only; rw [hm, ← h.selection]; exact h.present)
  dsimp only at h2 h3
  rw [hm, ← h.selection] at h2
  refine ⟨_, rows, hb, rfl, h1, h2, ?_, ?_⟩
  · rintro rfl
    exact h.nonempty h2.symm
  · intro r hr
    obtain ⟨x, hx, rfl⟩ := List.mem_map.mp (h3 r hr)
    exact ⟨x.2, hx, rfl⟩

theorem tableFor_expected {env : Env F J D V X} {argv : List (String × Str)} {c : Config F J D X} {post : Frame X}
    {samples : List ℤ} (h : Accepts env argv c) {rows : List (ℤ × Dict Str X)} (h1 : rows.map Prod.fst = samples)
    (h2 : ∀ r ∈ rows, ∃ row, (r.1, row) ∈ post.rows ∧ r.2 = paramsOf c row) :
    TableFor env c post samples (rows.map fun r => (r.1, r.2, some (runPostprocess env c r.1 r.2))) := by
  unfold TableFor
  rw [← h1, List.forall₂_map_left_iff, List.forall₂_map_right_iff, List.forall₂_same]
  rintro ⟨i, p⟩ hr
  obtain ⟨row, h3, h4⟩ := h2 _ hr
  obtain ⟨r, h5, h6, h7⟩ := C91_never_raises ((C91_accepts_iff env argv c).mpr h) i p
  dsimp only at h3 h4 ⊢
  subst h4
  exact ⟨row, r, h3, by rw [h5], h6, h7⟩

/-- C91, the result of the program with one process and no checkpoint: it writes, at the announced path, the table with one
line per requested sample, in the order of the request (`_partial`: a checkpoint left by another command line, see
`C91_checkpoint_reused` and `C91_other_configuration_violation`). -/
theorem C91_table_partial {env : Env F J D V X} {argv : List (String × Str)} {c : Config F J D X} {post : Frame X}
    {samples : List ℤ} (h : Ready env argv c post samples) :
    ∃ out, program env argv .absent = .ok out ∧ out.path = c.outputDir ++ "/eccentricity_results.".toList ++ c.outputFormat ∧
      out.columns = layout (c.parameterColumns.getD post.columns) ∧ TableFor env c post samples out.rows := by
  obtain ⟨post', rows, h1, h2, h3, h4, h5, h6⟩ := ready_job h
  have hd : ((⟨rows, runPostprocess env c, c.saveEvery⟩ : Job ℤ (Dict Str X) (Py (Result ℤ V))).rows.map Prod.fst).Nodup := by
    dsimp only; rw [h4]; exact h.distinct
  have ht := C54_table_partial (file := none) hd h5 (by intro x hx; cases hx)
  have hl := C92_layout_partial _ h.names
  refine ⟨⟨outputPath c, layout (c.parameterColumns.getD post.columns), _⟩, ?_, rfl, rfl, tableFor_expected h.accepted h4 h6⟩
  unfold program
  rw [(C91_accepts_iff env argv c).mpr h.accepted]
  show (lift (bilbyPosterior env c.posteriorPath c.parameterColumns) >>= _) = _
  rw [h1]
  show (lift (jobOf env c post') >>= _) = _
  rw [h3]
  show (lift (serialRun _ none).2 >>= _) = _
  rw [ht]
  show lift (output c post' _) = _
  unfold output
  rw [h2, hl, accepts_format h.accepted]
  rfl

/-- C91, any number of processes and interruptions: runs of the same command line, with any numbers of workers, batch sizes
and schedules, are killed any number of times at any point; the run that ends has the table of `C91_table_partial`. -/
theorem C91_parallel_partial {env : Env F J D V X} {argv : List (String × Str)} {c : Config F J D X} {post : Frame X}
    {samples : List ℤ} (h : Ready env argv c post samples) {post' : Frame X} {job : Job ℤ (Dict Str X) (Py (Result ℤ V))}
    (hpost : bilbyPosterior env c.posteriorPath c.parameterColumns = .ok post') (hjob : jobOf env c post' = .ok job)
    {f : Option (List (ℤ × Py (Result ℤ V)))} (hf : KilledRuns job none f) {W bs : ℕ} {sched : List (Label W)}
    {s : Sys ℤ (Dict Str X) (Py (Result ℤ V)) W} (hs : mpiRun job f W bs sched = some s) (hdone : s.ctl = .done) :
    ∃ t, s.table = some t ∧ TableFor env c post samples t ∧
      ∃ out, program env argv .absent = .ok out ∧ out.rows = t := by
  obtain ⟨post'', rows, h1, h2, h3, h4, h5, h6⟩ := ready_job h
  rw [hpost] at h1
  cases h1
  rw [hjob] at h3
  cases h3
  have hd : ((⟨rows, runPostprocess env c, c.saveEvery⟩ : Job ℤ (Dict Str X) (Py (Result ℤ V))).rows.map Prod.fst).Nodup := by
    dsimp only; rw [h4]; exact h.distinct
  obtain ⟨h7, h8, h9⟩ := C51_resume_partial hd hf
  refine ⟨_, h9 W bs sched s hs hdone, tableFor_expected h.accepted h4 h6, ?_⟩
  have ht := C54_table_partial (file := none) hd h5 (by intro x hx; cases hx)
  refine ⟨⟨outputPath c, layout (c.parameterColumns.getD post.columns), _⟩, ?_, rfl⟩
  unfold program
  rw [(C91_accepts_iff env argv c).mpr h.accepted]
  show (lift (bilbyPosterior env c.posteriorPath c.parameterColumns) >>= _) = _
  rw [hpost]
  show (lift (jobOf env c post') >>= _) = _
  rw [hjob]
  show (lift (serialRun _ none).2 >>= _) = _
  rw [ht]
  show lift (output c post' _) = _
  unfold output
  rw [h2, C92_layout_partial _ h.names, accepts_format h.accepted]
  rfl

/-- The serial run only asks for the values of the samples that are not in the checkpoint. -/
theorem serialRun_congr {rows : List (ℤ × Dict Str X)} {value value' : ℤ → Dict Str X → V} {k : Option ℤ}
    {t : List (ℤ × V)} (h : ∀ i p, i ∉ t.map Prod.fst → value i p = value' i p) :
    serialRun (⟨rows, value, k⟩ : Job ℤ (Dict Str X) V) (some t) =
      serialRun (⟨rows, value', k⟩ : Job ℤ (Dict Str X) V) (some t) := by
  have hitems : toProcess (⟨rows, value, k⟩ : Job ℤ (Dict Str X) V) (some t) =
      toProcess (⟨rows, value', k⟩ : Job ℤ (Dict Str X) V) (some t) := rfl
  have hmem : ∀ it ∈ toProcess (⟨rows, value', k⟩ : Job ℤ (Dict Str X) V) (some t), it.2.1 ∉ t.map Prod.fst := by
    intro it hit
    unfold toProcess at hit
    exact of_decide_eq_true (List.mem_filter.mp hit).2
  have hloop : ∀ (items : List (ℕ × ℤ × Dict Str X)) (s : Store ℤ V), (∀ it ∈ items, it.2.1 ∉ t.map Prod.fst) →
      serialLoop (⟨rows, value, k⟩ : Job ℤ (Dict Str X) V) items s =
        serialLoop (⟨rows, value', k⟩ : Job ℤ (Dict Str X) V) items s := by
    intro items
    induction items with
    | nil => exact fun _ _ => rfl
    | cons it items ih =>
      intro s hs
      unfold serialLoop at ih ⊢
      rw [List.foldl_cons, List.foldl_cons, ih _ fun x hx => hs x (List.mem_cons_of_mem _ hx)]
      dsimp only
      rw [h _ _ (hs it List.mem_cons_self)]
      rfl
  unfold serialRun
  dsimp only
  rw [hitems]
  cases hcase : toProcess (⟨rows, value', k⟩ : Job ℤ (Dict Str X) V) (some t) with
  | nil => rfl
  | cons it items =>
    dsimp only
    rw [hloop (it :: items) _ (by rw [← hcase]; exact hmem)]
    rfl

/-- C91, what a checkpoint does: whatever run has left it there, a line it holds for a requested sample is taken over
unchanged; only the other samples are measured as the command line says. -/
theorem C91_checkpoint_reused {env : Env F J D V X} {argv : List (String × Str)} {c : Config F J D X} {post : Frame X}
    {samples : List ℤ} (h : Ready env argv c post samples) {t : List (ℤ × Py (Result ℤ V))} (ht : (t.map Prod.fst).Nodup) :
    ∃ out, program env argv (.table t) = .ok out ∧
      List.Forall₂ (fun i line => ∃ row, (i, row) ∈ post.rows ∧
        ((∃ v, (i, v) ∈ t ∧ line = (i, paramsOf c row, some v)) ∨
          (i ∉ t.map Prod.fst ∧ ∃ r, line = (i, paramsOf c row, some (.ok r)) ∧ LineFor env c (paramsOf c row) r)))
        samples out.rows := by
  obtain ⟨post', rows, h1, h2, h3, h4, h5, h6⟩ := ready_job h
  set value' : ℤ → Dict Str X → Py (Result ℤ V) := fun i p => (List.lookup i t).getD (runPostprocess env c i p) with hv
  have hin : ∀ {i v}, (i, v) ∈ t → List.lookup i t = some v := by
    intro i v hm
    clear hv value'
    induction t with
    | nil => cases hm
    | cons x t ih =>
      rw [List.map_cons, List.nodup_cons] at ht
      rw [List.lookup_cons]
      rcases List.mem_cons.mp hm with rfl | hm
      · simp
      · have : i ≠ x.1 := by
          rintro rfl
          exact ht.1 (List.mem_map.mpr ⟨_, hm, rfl⟩)
        rw [show (i == x.1) = false by simpa using this]
        exact ih ht.2 hm
  have hd : ((⟨rows, value', c.saveEvery⟩ : Job ℤ (Dict Str X) (Py (Result ℤ V))).rows.map Prod.fst).Nodup := by
    dsimp only; rw [h4]; exact h.distinct
  have hnot : ∀ i, i ∉ t.map Prod.fst → List.lookup i t = none := by
    intro i hi
    rw [List.lookup_eq_none_iff]
    intro x hx
    have : i ≠ x.1 := by
      rintro rfl
      exact hi (List.mem_map.mpr ⟨x, hx, rfl⟩)
    simpa using this
  have htab := C54_table_partial (job := ⟨rows, value', c.saveEvery⟩) (file := some t) hd h5 (by
    intro x hx p _
    show x.2 = value' x.1 p
    rw [hv]
    dsimp only
    rw [hin (i := x.1) (v := x.2) hx]
    rfl)
  rw [← serialRun_congr (value := runPostprocess env c) (fun i p hi => by rw [hv]; dsimp only; rw [hnot i hi]; rfl)] at htab
  refine ⟨⟨outputPath c, layout (c.parameterColumns.getD post.columns),
      rows.map fun r => (r.1, r.2, some (value' r.1 r.2))⟩, ?_, ?_⟩
  · unfold program
    rw [(C91_accepts_iff env argv c).mpr h.accepted]
    show (lift (bilbyPosterior env c.posteriorPath c.parameterColumns) >>= _) = _
    rw [h1]
    show (lift (jobOf env c post') >>= _) = _
    rw [h3]
    show (lift (serialRun _ (some t)).2 >>= _) = _
    rw [htab]
    show lift (output c post' _) = _
    unfold output
    rw [h2, C92_layout_partial _ h.names, accepts_format h.accepted]
    rfl
  · dsimp only
    rw [← h4, List.forall₂_map_left_iff, List.forall₂_map_right_iff, List.forall₂_same]
    rintro ⟨i, p⟩ hr
    obtain ⟨row, h7, h8⟩ := h6 _ hr
    dsimp only at h7 h8 ⊢
    subst h8
    refine ⟨row, h7, ?_⟩
    by_cases hi : i ∈ t.map Prod.fst
    · obtain ⟨x, hx, rfl⟩ := List.mem_map.mp hi
      exact Or.inl ⟨x.2, hx, by rw [hv]; dsimp only; rw [hin (i := x.1) (v := x.2) hx]; rfl⟩
    · obtain ⟨r, h9, -, h10⟩ := C91_never_raises ((C91_accepts_iff env argv c).mpr h.accepted) i (paramsOf c row)
      exact Or.inr ⟨hi, r, by rw [hv]; dsimp only; rw [hnot i hi, h9]; rfl, h10⟩

end GwEcc.Cli

namespace GwEcc.Cli.Demo

open Post Mpi

/-- A small world: `gen.py` has a generator `f` that returns the column `m` of a sample (not a dictionary for `m = 0`), and
the measurement multiplies by the reference frequency (and raises for `m = 1`). -/
def env : Env ℤ Str ℤ ℤ ℤ where
  float := pyInt
  loads := fun s => if s = "{}".toList then .ok (.object s) else if s = "[]".toList then .ok .other else .error .valueError
  empty := []
  fileExists := fun p => decide (p = "/a/gen.py".toList)
  fromFile := fun _ => .ok [("f".toList, .function fun p _ => .ok
    (match Dict.get? p "m".toList with | some 0 => none | some m => some m | none => none)), ("x".toList, .other)]
  fromName := fun _ => .error .valueError
  bilby := fun _ => .ok ⟨["m".toList, "q".toList], [(0, [("m".toList, 5), ("q".toList, 8)]),
    (1, [("m".toList, 1), ("q".toList, 9)]), (2, [("m".toList, 0), ("q".toList, 7)])]⟩
  measure := fun _ _ d _ fref => match d, fref with | 1, _ => .error .valueError | d, some f => .ok (d * f, d) | d, none => .ok (d, d)

/-- A command line. -/
def argv (fref : String) : List (String × Str) :=
  [("--posterior-path", "res.json".toList), ("--fref", "3".toList), ("--data-dict-generator", "/a/gen.py:f".toList),
   ("--fref", fref.toList), ("--samples", "2,0,1".toList), ("--parameter-columns", "q, m".toList),
   ("--save-every", "2".toList)]

/-- What of a table can be compared. -/
def shown (o : Except CliErr (Output ℤ ℤ)) : Option (Str × List (ℤ × List (Str × ℤ) × Option (Option (Result ℤ ℤ)))) :=
  match o with
  | .ok o => some (o.path, o.rows.map fun r => (r.1, r.2.1, r.2.2.map Except.toOption))
  | .error _ => none

/-- The outcome of the command line. -/
def outcome (argv : List (String × Str)) : Option CliErr :=
  match buildConfig env argv with
  | .ok _ => none
  | .error e => some e

set_option synthInstance.maxSize 2000 in
set_option synthInstance.maxHeartbeats 200000 in
example : shown (program env (argv "10") .absent) = some ("./eccentricity_results.csv".toList,
    [(2, [("q".toList, 7), ("m".toList, 0)], some (some ⟨2, false, none, none, some .typeError⟩)),
     (0, [("q".toList, 8), ("m".toList, 5)], some (some ⟨0, true, some 50, some 5, none⟩)),
     (1, [("q".toList, 9), ("m".toList, 1)], some (some ⟨1, false, none, none, some .valueError⟩))]) := by decide +kernel

-- rejected: both reference points, none, an unknown option, a wrong kind, no generator, something not callable
example : outcome (argv "10" ++ [("--tref", "1".toList)]) = some .usage := by decide +kernel
example : outcome [("--posterior-path", []), ("--data-dict-generator", "/a/gen.py:f".toList)] = some .usage := by decide +kernel
example : outcome (argv "10" ++ [("--ref", "1".toList)]) = some .usage := by decide +kernel
example : outcome (argv "ten") = some .usage := by decide +kernel
example : outcome (argv "10" ++ [("--data-dict-generator", "gen".toList)]) = some (.raised .valueError) := by decide +kernel
example : outcome (argv "10" ++ [("--data-dict-generator", "/a/gen.py:x".toList)]) = some (.raised .valueError) := by
  decide +kernel
example : outcome (argv "10" ++ [("--data-dict-generator", "/a/gen.py:g".toList)]) = some (.raised .attributeError) := by
  decide +kernel
example : outcome (argv "10" ++ [("--gw-eccentricity-kwargs", "[]".toList)]) = some (.raised .valueError) := by decide +kernel
example : outcome (argv "10" ++ [("--gw-eccentricity-kwargs", [])]) = none := by decide +kernel

/-- The configuration of the command line. -/
def config (fref : ℤ) : Config ℤ Str ℤ ℤ where
  posteriorPath := "res.json".toList
  parameterColumns := some ["q".toList, "m".toList]
  outputDir := ".".toList
  outputFormat := "csv".toList
  saveEvery := some 2
  samples := some [2, 0, 1]
  fref := some fref
  tref := none
  method := "AmplitudeFits".toList
  batchSize := 100
  generator := fun p _ => .ok (match Dict.get? p "m".toList with | some 0 => none | some m => some m | none => none)
  extraKwargs := "{}".toList
  eccKwargs := "{}".toList

theorem argv_ok : buildConfig env (argv "10") = .ok (config 10) ∧ buildConfig env (argv "20") = .ok (config 20) := ⟨rfl, rfl⟩

/-- The posterior of the example. -/
def post : Frame ℤ := ⟨["m".toList, "q".toList], [(0, [("m".toList, 5), ("q".toList, 8)]),
    (1, [("m".toList, 1), ("q".toList, 9)]), (2, [("m".toList, 0), ("q".toList, 7)])]⟩

theorem ready : Ready env (argv "10") (config 10) post [2, 0, 1] ∧ Ready env (argv "20") (config 20) post [2, 0, 1] := by
  have names : ∀ x ∈ (["q".toList, "m".toList] : List Str),
      x ≠ "status".toList ∧ x ≠ "egw".toList ∧ x ≠ "lgw".toList ∧ x ≠ "error_message".toList := by decide
  refine ⟨⟨(C91_accepts_iff _ _ _).mp argv_ok.1, rfl, by decide, ?_, names, rfl, by decide, by decide, by decide⟩,
    ⟨(C91_accepts_iff _ _ _).mp argv_ok.2, rfl, by decide, ?_, names, rfl, by decide, by decide, by decide⟩⟩
  · rintro cols h
    cases h
    decide
  · rintro cols h
    cases h
    decide

/-- C91 is false of the code for a checkpoint left by another command line: a run at reference frequency 10 has ended; the
run at reference frequency 20 in the same directory writes the values of the first one. -/
theorem C91_other_configuration_violation :
    ∃ (job : Job ℤ (Dict Str ℤ) (Py (Result ℤ ℤ))) (t : List (ℤ × Py (Result ℤ ℤ))) (out : Output ℤ ℤ),
      (∃ p, bilbyPosterior env (config 10).posteriorPath (config 10).parameterColumns = .ok p ∧
        jobOf env (config 10) p = .ok job) ∧
      KilledRuns job none (some t) ∧ program env (argv "20") (.table t) = .ok out ∧
      ¬ TableFor env (config 20) post [2, 0, 1] out.rows ∧ TableFor env (config 10) post [2, 0, 1] out.rows := by
  let rows : List (Row ℤ (Dict Str ℤ) (Py (Result ℤ ℤ))) :=
    [(2, [("q".toList, 7), ("m".toList, 0)], some (.ok ⟨2, false, none, none, some .typeError⟩)),
     (0, [("q".toList, 8), ("m".toList, 5)], some (.ok ⟨0, true, some 50, some 5, none⟩)),
     (1, [("q".toList, 9), ("m".toList, 1)], some (.ok ⟨1, false, none, none, some .valueError⟩))]
  let t : List (ℤ × Py (Result ℤ ℤ)) := [(2, .ok ⟨2, false, none, none, some .typeError⟩),
    (0, .ok ⟨0, true, some 50, some 5, none⟩), (1, .ok ⟨1, false, none, none, some .valueError⟩)]
  let out : Output ℤ ℤ := ⟨"./eccentricity_results.csv".toList, layout ["q".toList, "m".toList], rows⟩
  let job : Job ℤ (Dict Str ℤ) (Py (Result ℤ ℤ)) := ⟨[(2, [("q".toList, 7), ("m".toList, 0)]),
    (0, [("q".toList, 8), ("m".toList, 5)]), (1, [("q".toList, 9), ("m".toList, 1)])], runPostprocess env (config 10), some 2⟩
  have h1 : program env (argv "10") .absent = .ok out := rfl
  have h2 : program env (argv "20") (.table t) = .ok out := rfl
  have h3 : (serialRun job none).1.file = some t := rfl
  refine ⟨job, t, out, ⟨_, rfl, rfl⟩, ?_, h2, ?_, ?_⟩
  · have := KilledRun.serialEnd (job := job) none
    rw [h3] at this
    exact (KilledRuns.none none).more this
  · intro h
    have h := (List.forall₂_cons.mp (List.forall₂_cons.mp h).2).1
    obtain ⟨row, r, -, hline, -, hl⟩ := h
    rw [Prod.mk.injEq, Prod.mk.injEq, Option.some.injEq, Except.ok.injEq] at hline
    obtain ⟨-, hp, hr⟩ := hline
    rw [← hp, ← hr] at hl
    rcases hl with ⟨d, e, l, hg, hm, -, he, -⟩ | ⟨err, -, hf, -⟩
    · have hd : d = 5 := Option.some.inj (Except.ok.inj hg.symm)
      subst hd
      have : e = 100 := congrArg Prod.fst (Except.ok.inj hm.symm)
      subst this
      cases he
    · cases hf
  · obtain ⟨out', h4, -, -, h5⟩ := C91_table_partial ready.1
    rw [h1] at h4
    cases h4
    exact h5

-- a run with one worker does end
example : ∃ (sched : List (Label 1)) (s : Sys ℤ (Dict Str ℤ) (Py (Result ℤ ℤ)) 1),
    mpiRun ⟨[(2, [("q".toList, 7), ("m".toList, 0)]), (0, [("q".toList, 8), ("m".toList, 5)])],
      runPostprocess env (config 10), some 2⟩ none 1 100 sched = some s ∧ s.ctl = .done :=
  ⟨[.master 0, .master 0, .worker 0, .worker 0, .master 0, .master 0, .master 0, .master 0, .master 0, .master 0], _, rfl, rfl⟩

-- C92: posteriors with a column `status` or `egw`
example : ∃ post, bilbyPosterior { env with bilby := fun _ => .ok ⟨["status".toList, "q".toList, "m".toList], []⟩ }
    (config 10).posteriorPath none = .ok post ∧ "status".toList ∈ post.columns := ⟨_, rfl, by decide⟩
example : ∃ out, outputColumns ["m".toList, "egw".toList] = .ok out ∧ "egw".toList ∉ out := ⟨_, rfl, by decide⟩

end GwEcc.Cli.Demo
