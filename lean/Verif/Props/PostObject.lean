import Verif.Model.PostObject
import Verif.Props.Cli
import Mathlib.Algebra.Field.Rat

/-!
# C98 The post-processing classes
-/

set_option linter.unusedSectionVars false

namespace GwEcc.PostObject

open Post Mpi Cli

variable {F J D V X K : Type} [Field K]

/-! ### Specification -/

/-- The request is about results kept on the object. -/
def Request.aboutKept : Request F J → Bool
  | .summary => true
  | .gwPosterior => true
  | _ => false

/-- The answer holds results of a post-processing. -/
def HoldsResults (a : Py (Answer D V K)) : Prop := ∃ rs, a = .ok (.results rs)

/-- The parameters of the injection: the first row of the file, with the minimum frequency of the first sample if it has
none itself. -/
def InjectionParams (env : ClassEnv F J D V X K) (o : PostObj D V X) (p : Dict Str X) : Prop :=
  ∃ file inj rest, o.injectionFile = some file ∧ env.readCsv file = .ok (inj :: rest) ∧
    ((inj.has minFreq = true ∧ p = inj) ∨
     (inj.has minFreq = false ∧ ∃ row x, o.posterior.rows.head? = some row ∧ Dict.get? row.2 minFreq = some x ∧
        p = inj.set minFreq x))

/-! ### Lemmas -/

theorem answer_same (env : ClassEnv F J D V X K) (cls : Overrides X) (o : PostObj D V X) (q : Request F J) :
    (answer env cls o q).2.posterior = o.posterior ∧ (answer env cls o q).2.generator = o.generator ∧
      (answer env cls o q).2.injectionFile = o.injectionFile := by
  cases q with
  | postprocess m kw t f s =>
    unfold answer
    dsimp only
    split <;> exact ⟨rfl, rfl, rfl⟩
  | _ => exact ⟨rfl, rfl, rfl⟩

theorem session_same (env : ClassEnv F J D V X K) (cls : Overrides X) : ∀ (qs : List (Request F J)) (o : PostObj D V X),
    (session env cls o qs).2.posterior = o.posterior ∧ (session env cls o qs).2.generator = o.generator ∧
      (session env cls o qs).2.injectionFile = o.injectionFile
  | [], _ => ⟨rfl, rfl, rfl⟩
  | q :: qs, o => by
    obtain ⟨h1, h2, h3⟩ := session_same env cls qs (answer env cls o q).2
    obtain ⟨g1, g2, g3⟩ := answer_same env cls o q
    exact ⟨h1.trans g1, h2.trans g2, h3.trans g3⟩

theorem answer_result (env : ClassEnv F J D V X K) (cls : Overrides X) (o : PostObj D V X) (q : Request F J) :
    (∀ rs, (answer env cls o q).1 = .ok (.results rs) → (answer env cls o q).2.result = some rs) ∧
    (¬ HoldsResults (answer env cls o q).1 → (answer env cls o q).2.result = o.result) := by
  cases q with
  | postprocess m kw t f s =>
    unfold answer
    dsimp only
    split
    · rename_i rs _
      refine ⟨?_, ?_⟩
      · intro rs' h
        injection h with h
        injection h with h
        subst h
        rfl
      · intro h
        exact absurd ⟨rs, rfl⟩ h
    · refine ⟨?_, fun _ => rfl⟩
      intro rs' h
      exact absurd h (by simp)
  | summary =>
    refine ⟨?_, fun _ => rfl⟩
    intro rs h
    simp only [answer] at h
    cases hk : keptSummary (K := K) o with
    | error e => rw [hk] at h; exact absurd h (by simp [Except.map])
    | ok s => rw [hk] at h; exact absurd h (by simp [Except.map])
  | gwPosterior =>
    refine ⟨?_, fun _ => rfl⟩
    intro rs h
    simp only [answer] at h
    cases hk : keptSummary (K := K) o with
    | error e => rw [hk] at h; exact absurd h (by simp [Except.map])
    | ok s => rw [hk] at h; exact absurd h (by simp [Except.map])
  | frefBounds m kw s =>
    refine ⟨?_, fun _ => rfl⟩
    intro rs h
    simp only [answer] at h
    cases hk : frefBounds env o m kw s with
    | error e => rw [hk] at h; exact absurd h (by simp [Except.map])
    | ok s => rw [hk] at h; exact absurd h (by simp [Except.map])
  | injectionData =>
    refine ⟨?_, fun _ => rfl⟩
    intro rs h
    simp only [answer] at h
    cases hk : injectionData cls o with
    | error e => rw [hk] at h; exact absurd h (by simp [Except.map])
    | ok s => rw [hk] at h; exact absurd h (by simp [Except.map])
  | injectionValues m kw t f =>
    refine ⟨?_, fun _ => rfl⟩
    intro rs h
    simp only [answer] at h
    split at h
    · exact absurd h (by simp)
    · obtain ⟨d, _, h⟩ := bind_ok h
      obtain ⟨r, _, h⟩ := bind_ok h
      exact absurd (Except.ok.inj h) (by simp)

theorem session_none (env : ClassEnv F J D V X K) (cls : Overrides X) : ∀ (qs : List (Request F J)) (o : PostObj D V X),
    (∀ a ∈ (session env cls o qs).1, ¬ HoldsResults a) → (session env cls o qs).2.result = o.result
  | [], _, _ => rfl
  | q :: qs, o, h => by
    have h1 := session_none env cls qs (answer env cls o q).2 (fun a ha => h a (List.mem_cons_of_mem _ ha))
    exact h1.trans ((answer_result env cls o q).2 (h _ (by simp [session])))

theorem session_last (env : ClassEnv F J D V X K) (cls : Overrides X) : ∀ (qs : List (Request F J)) (o : PostObj D V X)
    (before after : List (Py (Answer D V K))) (rs : List (Result ℤ V)),
    (session env cls o qs).1 = before ++ .ok (.results rs) :: after → (∀ a ∈ after, ¬ HoldsResults a) →
    (session env cls o qs).2.result = some rs
  | [], _, before, after, rs, h, _ => by
    exact absurd h (by simp [session])
  | q :: qs, o, [], after, rs, h, hn => by
    simp only [session, List.nil_append, List.cons.injEq] at h
    obtain ⟨h1, h2⟩ := h
    have := session_none env cls qs (answer env cls o q).2 (by rw [h2]; exact hn)
    exact this.trans ((answer_result env cls o q).1 rs h1)
  | q :: qs, o, b :: before, after, rs, h, hn => by
    simp only [session, List.cons_append, List.cons.injEq] at h
    exact session_last env cls qs (answer env cls o q).2 before after rs h.2 hn

/-! ### Theorems -/

/-- **C98, what is kept.**  After any session, summary and posterior of the measured values are those of the last
post-processing that returned, whatever was asked before and since (a later one that raised changes nothing); if there was
none, both raise `ValueError`. -/
theorem C98_kept (env : ClassEnv F J D V X K) (cls : Overrides X) (o : PostObj D V X) (hfresh : o.result = none)
    (qs : List (Request F J)) :
    ((∀ a ∈ (session env cls o qs).1, ¬ HoldsResults a) →
      (answer env cls (session env cls o qs).2 .summary).1 = .error .valueError ∧
      (answer env cls (session env cls o qs).2 .gwPosterior).1 = .error .valueError) ∧
    ∀ before after rs, (session env cls o qs).1 = before ++ .ok (.results rs) :: after →
      (∀ a ∈ after, ¬ HoldsResults a) →
      (answer env cls (session env cls o qs).2 .summary).1 = (getSummary rs).map .summary ∧
      (answer env cls (session env cls o qs).2 .gwPosterior).1 =
        if rs = [] then .error .zeroDivisionError
        else .ok (.values ((rs.filter fun r => r.success).map Result.egw) ((rs.filter fun r => r.success).map Result.lgw)) := by
  refine ⟨?_, ?_⟩
  · intro h
    have hr := (session_none env cls qs o h).trans hfresh
    simp only [answer, keptSummary, hr]
    exact ⟨rfl, rfl⟩
  · intro before after rs h hn
    have hr := session_last env cls qs o before after rs h hn
    simp only [answer, keptSummary, hr, true_and]
    unfold getSummary
    dsimp only
    by_cases h0 : rs = []
    · subst h0; rfl
    · rw [if_neg (by simpa using h0), if_neg h0]
      rfl

/-- **C98, no memory.**  Post-processing, frequency ranges and the values of the injection do not depend on what the object
was asked before. -/
theorem C98_no_memory (env : ClassEnv F J D V X K) (cls : Overrides X) (o : PostObj D V X) (qs : List (Request F J))
    (q : Request F J) (hq : q.aboutKept = false) :
    (answer env cls (session env cls o qs).2 q).1 = (answer env cls o q).1 := by
  obtain ⟨h1, h2, h3⟩ := session_same env cls qs o
  cases q with
  | summary => cases hq
  | gwPosterior => cases hq
  | postprocess m kw t f s =>
    simp only [answer, h1, h2]
    cases postprocess o.generator (env.measure m (kw.getD env.empty)) o.posterior.rows s t f <;> rfl
  | frefBounds m kw s => simp only [answer, frefBounds, h1, h2]
  | injectionData => simp only [answer, injectionData, h1, h2, h3]
  | injectionValues m kw t f => simp only [answer, injectionData, h1, h2, h3]

/-- **C98, making an object** for a Bilby posterior: this succeeds exactly if the file can be read, all requested columns are
there and the generator is callable; the object holds all samples, restricted to the requested columns in the order of the
request, and no results. -/
theorem C98_constructed (env : ClassEnv F J D V X K) (file : Str) (gen : Option (Gen J D X)) (cols : Option (List Str))
    (kw : Option J) (inj : Option Str) (o : PostObj D V X) :
    construct env (bilbyClass env file) gen cols kw inj = .ok o ↔
      ∃ f g, env.bilby file = .ok f ∧ gen = some g ∧ (∀ cs, cols = some cs → ∀ c ∈ cs, c ∈ f.columns) ∧
        o = ⟨⟨cols.getD f.columns, f.rows.map fun r => (r.1, (cols.map fun cs => restrict cs r.2).getD r.2)⟩,
          fun p => g p (kw.getD env.empty), inj, none⟩ := by
  unfold construct bilbyClass bilbyGetPosterior
  dsimp only
  cases hb : env.bilby file with
  | error e =>
    constructor
    · intro h; exact absurd h (by simp [bind, Except.bind])
    · rintro ⟨f, g, h, _⟩; exact absurd h (by simp)
  | ok f =>
    rw [ok_bind]
    cases cols with
    | none =>
      cases gen with
      | none =>
        constructor
        · intro h; exact absurd h (by simp [bind, Except.bind, pure, Except.pure])
        · rintro ⟨f, g, _, h, _⟩; cases h
      | some g =>
        constructor
        · intro h
          refine ⟨f, g, rfl, rfl, by simp, ?_⟩
          have := Except.ok.inj h
          rw [← this]
          simp
        · rintro ⟨f', g', h1, h2, _, rfl⟩
          cases h1; cases h2
          simp [bind, Except.bind, pure, Except.pure]
    | some cs =>
      by_cases hall : ∀ c ∈ cs, c ∈ f.columns
      · have hfilt : filterPosteriorColumns f cs = .ok ⟨cs, f.rows.map fun r => (r.1, restrict cs r.2)⟩ := by
          have h1 : ¬ ((cs.filter fun c => decide (c ∉ f.columns)) ≠ []) := by
            rw [not_not, List.filter_eq_nil_iff]
            intro c hc
            simpa using hall c hc
          have h2 : cs.all (fun c => decide (c ∈ f.columns)) = true := by
            rw [List.all_eq_true]
            intro c hc
            simpa using hall c hc
          unfold filterPosteriorColumns selectColumns
          rw [if_neg h1, if_pos h2]
        dsimp only
        rw [hfilt, ok_bind]
        cases gen with
        | none =>
          constructor
          · intro h; exact absurd h (by simp [bind, Except.bind, pure, Except.pure])
          · rintro ⟨f, g, _, h, _⟩; cases h
        | some g =>
          constructor
          · intro h
            refine ⟨f, g, rfl, rfl, ?_, ?_⟩
            · intro cs' h'; cases h'; exact hall
            · have := Except.ok.inj h
              rw [← this]
              rfl
          · rintro ⟨f', g', h1, h2, _, rfl⟩
            cases h1; cases h2
            rfl
      · have hfilt : filterPosteriorColumns f cs = .error .valueError := by
          unfold filterPosteriorColumns
          rw [if_pos]
          intro hnil
          apply hall
          intro c hc
          rw [List.filter_eq_nil_iff] at hnil
          simpa using hnil c hc
        dsimp only
        rw [hfilt]
        constructor
        · intro h; exact absurd h (by simp [bind, Except.bind])
        · rintro ⟨f', g', h1, _, h3, _⟩
          cases h1
          exact absurd (h3 cs rfl) hall

theorem bilbyInjection_iff (env : ClassEnv F J D V X K) (o : PostObj D V X) (p : Dict Str X) :
    bilbyInjection env o.posterior o.injectionFile = .ok p ↔ InjectionParams env o p := by
  unfold bilbyInjection InjectionParams
  cases hf : o.injectionFile with
  | none => simp
  | some file =>
    dsimp only
    cases hr : env.readCsv file with
    | error e => simp [bind, Except.bind, hr]
    | ok rows =>
      rw [ok_bind]
      cases rows with
      | nil =>
        constructor
        · intro h; exact absurd h (by simp [bind, Except.bind, pyGet])
        · rintro ⟨file', inj, rest, h1, h2, _⟩
          cases h1
          rw [hr] at h2
          exact absurd (Except.ok.inj h2) (by simp)
      | cons inj rest =>
        have hget : pyGet (inj :: rest) 0 = .ok inj := rfl
        rw [hget, ok_bind]
        by_cases hm : inj.has minFreq = true
        · rw [if_pos hm]
          constructor
          · intro h
            exact ⟨file, inj, rest, rfl, hr, Or.inl ⟨hm, (Except.ok.inj h).symm⟩⟩
          · rintro ⟨file', inj', rest', h1, h2, h3⟩
            cases h1
            rw [hr] at h2
            have h2 := Except.ok.inj h2
            cases h2
            rcases h3 with ⟨_, rfl⟩ | ⟨h3, _⟩
            · rfl
            · rw [hm] at h3; cases h3
        · rw [if_neg hm]
          have hm' : inj.has minFreq = false := by simpa using hm
          constructor
          · intro h
            obtain ⟨row, h1, h⟩ := bind_ok h
            obtain ⟨x, h2, h⟩ := bind_ok h
            refine ⟨file, inj, rest, rfl, hr, Or.inr ⟨hm', row, x, ?_, ?_, (Except.ok.inj h).symm⟩⟩
            · obtain ⟨hl, rfl⟩ := pyGet_ok h1
              rw [List.head?_eq_getElem?, List.getElem?_eq_getElem hl]
            · unfold Dict.getItem at h2
              cases hg : Dict.get? row.2 minFreq with
              | none => rw [hg] at h2; exact absurd h2 (by simp)
              | some y => rw [hg] at h2; rw [← Except.ok.inj h2]
          · rintro ⟨file', inj', rest', h1, h2, h3⟩
            cases h1
            rw [hr] at h2
            have h2 := Except.ok.inj h2
            cases h2
            rcases h3 with ⟨h3, _⟩ | ⟨_, row, x, h4, h5, rfl⟩
            · exact absurd h3 hm
            · have h6 : pyGet o.posterior.rows 0 = .ok row := by
                cases hrows : o.posterior.rows with
                | nil => rw [hrows] at h4; cases h4
                | cons a l => rw [hrows] at h4; cases h4; rfl
              rw [h6, ok_bind]
              unfold Dict.getItem
              rw [h5]
              rfl

/-- **C98, the injection** of a Bilby run.  Values are returned exactly if one of reference time and frequency is given, the
injection has parameters in the sense of `InjectionParams`, the generator returns a waveform for them and this can be
measured; they are what is measured.  All else raises. -/
theorem C98_injection (env : ClassEnv F J D V X K) (file : Str) (o : PostObj D V X) (m : Str) (kw : Option J)
    (tref fref : Option F) (e l : V) :
    (answer env (bilbyClass env file) o (.injectionValues m kw tref fref)).1 = .ok (.pair e l) ↔
      ((tref.isSome = true ∧ fref = none) ∨ (tref = none ∧ fref.isSome = true)) ∧
      ∃ p d, InjectionParams env o p ∧ o.generator p = .ok (some d) ∧
        env.measure m (kw.getD env.empty) d tref fref = .ok (e, l) := by
  have hone : oneGiven tref fref = false ↔
      ¬ ((tref.isSome = true ∧ fref = none) ∨ (tref = none ∧ fref.isSome = true)) := by
    cases tref <;> cases fref <;> simp [oneGiven]
  simp only [answer]
  by_cases h1 : oneGiven tref fref = false
  · rw [if_pos h1]
    constructor
    · intro h; exact absurd h (by simp)
    · rintro ⟨h, _⟩; exact absurd h (hone.mp h1)
  · rw [if_neg h1]
    have h1' := not_not.mp (fun h => h1 (hone.mpr h))
    constructor
    · intro h
      obtain ⟨d, hd, h⟩ := bind_ok h
      obtain ⟨r, hr, h⟩ := bind_ok h
      unfold injectionData at hd
      split at hd
      · exact absurd hd (by simp)
      · obtain ⟨p, hp, hd⟩ := bind_ok hd
        refine ⟨h1', p, d, (bilbyInjection_iff env o p).mp hp, ?_, ?_⟩
        · unfold getDataDict at hd
          cases hg : o.generator p with
          | error x => rw [hg] at hd; exact absurd hd (by simp)
          | ok x =>
            rw [hg] at hd
            cases x with
            | none => exact absurd hd (by simp)
            | some y => rw [← Except.ok.inj hd]
        · have h := Except.ok.inj h
          injection h with h2 h3
          rw [hr, ← h2, ← h3]
    · rintro ⟨_, p, d, hp, hg, hm⟩
      have hf : ¬ o.injectionFile.isNone = true := by
        obtain ⟨file', _, _, h, _⟩ := hp
        rw [h]; simp
      have hi : injectionData (bilbyClass env file) o = .ok d := by
        unfold injectionData
        rw [if_neg hf]
        show (bilbyInjection env o.posterior o.injectionFile >>= _) = _
        rw [(bilbyInjection_iff env o p).mpr hp, ok_bind]
        unfold getDataDict
        rw [hg]
      rw [hi, ok_bind, hm]
      rfl

/-- **C98.**  Without an injection file everything about the injection raises `ValueError`, whatever was asked before. -/
theorem C98_no_injection (env : ClassEnv F J D V X K) (cls : Overrides X) (o : PostObj D V X) (qs : List (Request F J))
    (hf : o.injectionFile = none) :
    (answer env cls (session env cls o qs).2 .injectionData).1 = .error .valueError ∧
      ∀ m kw t f, (answer env cls (session env cls o qs).2 (.injectionValues m kw t f)).1 = .error .valueError := by
  have hs : ∀ (qs : List (Request F J)) (o : PostObj D V X), o.injectionFile = none →
      (session env cls o qs).2.injectionFile = none := by
    intro qs
    induction qs with
    | nil => exact fun o h => h
    | cons q qs ih => exact fun o h => ih _ ((answer_same env cls o q).2.2.trans h)
  have hi : injectionData cls (session env cls o qs).2 = .error .valueError := by
    unfold injectionData
    rw [hs qs o hf]
    rfl
  refine ⟨?_, fun m kw t f => ?_⟩
  · simp only [answer, hi]
    rfl
  · simp only [answer, hi]
    split
    · rfl
    · rfl

/-- **C98, the missing minimum frequency.**  When neither the injection file nor the (restricted) posterior has a minimum
frequency, everything about the injection raises `KeyError`. -/
theorem C98_minimum_frequency (env : ClassEnv F J D V X K) (file : Str) (o : PostObj D V X) {f : Str} {inj : Dict Str X}
    {rest : List (Dict Str X)} (hf : o.injectionFile = some f) (hr : env.readCsv f = .ok (inj :: rest))
    (hi : inj.has minFreq = false) {row : ℤ × Dict Str X} (hrow : o.posterior.rows.head? = some row)
    (hm : Dict.get? row.2 minFreq = none) :
    (answer env (bilbyClass env file) o .injectionData).1 = .error .keyError := by
  have h0 : pyGet o.posterior.rows 0 = .ok row := by
    cases hrows : o.posterior.rows with
    | nil => rw [hrows] at hrow; cases hrow
    | cons a l => rw [hrows] at hrow; cases hrow; rfl
  have hb : bilbyInjection env o.posterior (some f) = .error .keyError := by
    unfold bilbyInjection
    dsimp only
    rw [hr, ok_bind]
    have hget : pyGet (inj :: rest) 0 = .ok inj := rfl
    have hne : ¬ inj.has minFreq = true := by simp [hi]
    rw [hget, ok_bind, if_neg hne, h0, ok_bind]
    unfold Dict.getItem
    rw [hm]
    rfl
  have hs : ¬ (some f).isNone = true := by simp
  simp only [answer, injectionData, hf]
  rw [if_neg hs]
  show Except.map _ (bilbyInjection env o.posterior (some f) >>= _) = _
  rw [hb]
  rfl

/-- **C98, injection and samples are measured alike.**  If the injection has the parameters of a sample of the posterior, its
values are those which post-processing that sample gives; it raises exactly when that sample fails. -/
theorem C98_injection_sample (env : ClassEnv F J D V X K) (cls : Overrides X) (o : PostObj D V X)
    (hp : (o.posterior.rows.map Prod.fst).Nodup) {i : ℤ} {p : Dict Str X} (hi : (i, p) ∈ o.posterior.rows)
    (hfile : o.injectionFile ≠ none) (hinj : cls.getInjection o.posterior o.injectionFile = .ok p) (m : Str)
    (kw : Option J) (tref fref : Option F)
    (href : (tref = none ∧ fref ≠ none) ∨ (tref ≠ none ∧ fref = none)) :
    ∃ r, (answer env cls o (.postprocess m kw tref fref (some [i]))).1 = .ok (.results [r]) ∧ r.index = i ∧
      (∀ e l, (answer env cls o (.injectionValues m kw tref fref)).1 = .ok (.pair e l) ↔
        r.success = true ∧ r.egw = some e ∧ r.lgw = some l) ∧
      ∀ err, (answer env cls o (.injectionValues m kw tref fref)).1 = .error err ↔
        r.success = false ∧ r.error = some err := by
  obtain ⟨rs, h1, h2, h3⟩ := C55_isolation o.generator (env.measure m (kw.getD env.empty)) o.posterior.rows hp [i]
    (by intro j hj; rw [List.mem_singleton.mp hj]; exact List.mem_map.mpr ⟨_, hi, rfl⟩) tref fref href
  obtain ⟨p', r, hm, hr, hps⟩ := h3 0 i rfl
  have hpp : p' = p := by
    have := List.inj_on_of_nodup_map hp hm hi rfl
    exact congrArg Prod.snd this
  subst hpp
  have hrs : rs = [r] := by
    match rs, h2, hr with
    | [x], _, hr => rw [← Option.some.inj hr]
  subst hrs
  have hone : ¬ oneGiven tref fref = false := by
    unfold oneGiven
    rcases href with ⟨a, b⟩ | ⟨a, b⟩ <;> cases tref <;> cases fref <;> simp_all
  have hfile' : ¬ o.injectionFile.isNone = true := by
    cases h : o.injectionFile with
    | none => exact absurd h hfile
    | some f => simp
  have hval : (answer env cls o (.injectionValues m kw tref fref)).1 =
      ((getDataDict o.generator p').bind fun d => env.measure m (kw.getD env.empty) d tref fref).map
        fun x => .pair x.1 x.2 := by
    simp only [answer]
    rw [if_neg hone]
    unfold injectionData
    rw [if_neg hfile', hinj, ok_bind]
    cases getDataDict o.generator p' with
    | error e => rfl
    | ok d =>
      show (env.measure m (kw.getD env.empty) d tref fref >>= _) = Except.map _ (env.measure m (kw.getD env.empty) d tref fref)
      cases env.measure m (kw.getD env.empty) d tref fref <;> rfl
  refine ⟨r, ?_, ?_, ?_, ?_⟩
  · simp only [answer, h1]
  · obtain ⟨r', hr', hidx⟩ := (C55_never_raises o.generator (env.measure m (kw.getD env.empty)) i p' tref fref).2 href
    rw [hps] at hr'
    rw [Except.ok.inj hr']; exact hidx
  · intro e l
    rw [hval]
    unfold postprocessSample at hps
    rw [if_neg hone] at hps
    cases hb : (getDataDict o.generator p').bind fun d => env.measure m (kw.getD env.empty) d tref fref with
    | error err =>
      rw [hb] at hps
      rw [← Except.ok.inj hps]
      simp [Except.map]
    | ok x =>
      obtain ⟨x1, x2⟩ := x
      rw [hb] at hps
      rw [← Except.ok.inj hps]
      simp [Except.map]
  · intro err
    rw [hval]
    unfold postprocessSample at hps
    rw [if_neg hone] at hps
    cases hb : (getDataDict o.generator p').bind fun d => env.measure m (kw.getD env.empty) d tref fref with
    | error err =>
      rw [hb] at hps
      rw [← Except.ok.inj hps]
      simp [Except.map]
    | ok x =>
      obtain ⟨x1, x2⟩ := x
      rw [hb] at hps
      rw [← Except.ok.inj hps]
      simp [Except.map]

/-- A line expected determines its values. -/
theorem lineFor_unique {env : Env F J D V X} {c : Config F J D X} {p : Dict Str X} {r r' : Result ℤ V}
    (h : LineFor env c p r) (h' : LineFor env c p r') (hi : r.index = r'.index) : r = r' := by
  obtain ⟨i, s, e, l, x⟩ := r
  obtain ⟨i', s', e', l', x'⟩ := r'
  dsimp only at hi
  subst hi
  rcases h with ⟨d, a, b, g, m, h1, h2, h3, h4⟩ | ⟨a, g, h1, h2, h3, h4⟩ <;>
    rcases h' with ⟨d', a', b', g', m', h1', h2', h3', h4'⟩ | ⟨a', g', h1', h2', h3', h4'⟩ <;>
    dsimp only at h1 h2 h3 h4 h1' h2' h3' h4' <;> subst h1 h2 h3 h4 h1' h2' h3' h4'
  · rw [g] at g'
    cases g'
    rw [m] at m'
    cases m'
    rfl
  · exfalso
    rcases g' with g' | ⟨g', _⟩ | ⟨d', g', m'⟩
    · rw [g] at g'; cases g'
    · rw [g] at g'; cases g'
    · rw [g] at g'; cases g'; rw [m] at m'; cases m'
  · exfalso
    rcases g with g | ⟨g, _⟩ | ⟨d, g, m⟩
    · rw [g] at g'; cases g'
    · rw [g] at g'; cases g'
    · rw [g] at g'; cases g'; rw [m] at m'; cases m'
  · have : a = a' := by
      rcases g with g | ⟨g, rfl⟩ | ⟨d, g, m⟩ <;> rcases g' with g' | ⟨g', rfl⟩ | ⟨d', g', m'⟩ <;> rw [g] at g' <;>
        cases g'
      · rfl
      · rw [m] at m'; cases m'; rfl
    rw [this]

/-- C98, frequency ranges: in the order asked (all samples if none are named), each sample gets the range measured for
its own parameters, absent exactly when its generator or its measurement did not return; a label the posterior does not
have is a `KeyError`. -/
theorem C98_bounds (env : ClassEnv F J D V X K) (cls : Overrides X) (o : PostObj D V X)
    (hp : (o.posterior.rows.map Prod.fst).Nodup) (m : Str) (kw : Option J) (samples : Option (List ℤ)) :
    ((∀ i ∈ samples.getD [], i ∈ o.posterior.rows.map Prod.fst) →
      ∃ bs, (answer env cls o (.frefBounds m kw samples)).1 = .ok (.ranges bs) ∧
        bs.map (·.index) = samples.getD (o.posterior.rows.map Prod.fst) ∧
        ∀ b ∈ bs, ∃ p, (b.index, p) ∈ o.posterior.rows ∧ ∀ range, b.bounds = some range ↔
          ∃ d, o.generator p = .ok (some d) ∧ env.bounds m (kw.getD env.empty) d = .ok range) ∧
    ((∃ i ∈ samples.getD [], i ∉ o.posterior.rows.map Prod.fst) →
      (answer env cls o (.frefBounds m kw samples)).1 = .error .keyError) := by
  constructor
  · intro hs
    have hs' : ∀ i ∈ samples.getD (o.posterior.rows.map Prod.fst), i ∈ o.posterior.rows.map Prod.fst := by
      cases samples with
      | none => exact fun i hi => hi
      | some l => exact hs
    obtain ⟨rows, hrows, hidx, hmem⟩ := C54_selection o.posterior.rows hp _ hs'
    refine ⟨rows.map fun r => frefBoundsForSample o.generator (env.bounds m (kw.getD env.empty)) r.1 r.2, ?_, ?_, ?_⟩
    · simp only [answer, frefBounds, hrows]
      rw [← hidx]
      have : ((rows.map Prod.fst).zip (rows.map Prod.snd)) = rows := by
        rw [List.zip_map', List.map_id'']
        intro x; rfl
      show (Except.map Answer.ranges (.ok _) : Py (Answer D V K)) = _
      rw [this]; rfl
    · rw [← hidx, List.map_map]
      refine List.map_congr_left fun r _ => ?_
      exact (C55_fref_bounds o.generator (env.bounds m (kw.getD env.empty)) r.1 r.2 (0, 0)).1
    · intro b hb
      obtain ⟨r, hr, rfl⟩ := List.mem_map.mp hb
      have h := C55_fref_bounds o.generator (env.bounds m (kw.getD env.empty)) r.1 r.2
      refine ⟨r.2, ?_, fun range => (h range).2⟩
      rw [(h (0, 0)).1]
      exact hmem r hr
  · rintro ⟨i, hi, hn⟩
    cases samples with
    | none => simp at hi
    | some l =>
      have : ¬ (l.all fun i => decide (i ∈ o.posterior.rows.map Prod.fst)) = true := by
        rw [List.all_eq_true]
        intro hall
        exact hn (of_decide_eq_true (hall i hi))
      simp only [answer, frefBounds, selectRows, Option.getD_some, if_neg this]
      rfl

/-- **C98, class and program agree.**  With the posterior, columns, generator, method, options, reference point and samples
of an accepted command line, an object of the Bilby class reports for every sample what the command line program writes in
its table, in the same order. -/
theorem C98_program {env : ClassEnv F J D V X K} {argv : List (String × Str)} {c : Config F J D X} {post : Frame X}
    {samples : List ℤ} (h : Ready env.toEnv argv c post samples) (inj : Option Str) :
    ∃ out o rs, program env.toEnv argv .absent = .ok out ∧
      construct env (bilbyClass env c.posteriorPath) (some c.generator) c.parameterColumns (some c.extraKwargs) inj = .ok o ∧
      (answer env (bilbyClass env c.posteriorPath) o (.postprocess c.method (some c.eccKwargs) c.tref c.fref c.samples)).1 =
        .ok (.results rs) ∧
      out.rows.map (fun line => (line.1, line.2.2)) = rs.map fun r => (r.index, some (.ok r)) := by
  obtain ⟨out, hout, _, _, htab⟩ := C91_table_partial h
  let o : PostObj D V X := ⟨⟨c.parameterColumns.getD post.columns, post.rows.map fun r =>
      (r.1, (c.parameterColumns.map fun cs => restrict cs r.2).getD r.2)⟩,
      fun p => c.generator p c.extraKwargs, inj, none⟩
  have ho : construct env (bilbyClass env c.posteriorPath) (some c.generator) c.parameterColumns (some c.extraKwargs) inj =
      .ok o := by
    rw [C98_constructed]
    exact ⟨post, c.generator, h.posterior, rfl, h.columns, rfl⟩
  have hm : o.posterior.rows.map Prod.fst = post.rows.map Prod.fst := by
    show (post.rows.map _).map Prod.fst = _
    rw [List.map_map]; rfl
  have hone := accepts_oneGiven h.accepted
  obtain ⟨rs, h1, h2, h3⟩ := C55_isolation o.generator (env.measure c.method c.eccKwargs) o.posterior.rows
    (by rw [hm]; exact h.labels) samples (by rw [hm]; exact h.present) c.tref c.fref hone
  have hpp : postprocess o.generator (env.measure c.method c.eccKwargs) o.posterior.rows c.samples c.tref c.fref = .ok rs := by
    rw [← h1]
    unfold postprocess
    rw [hm, ← h.selection]
    rfl
  refine ⟨out, o, rs, hout, ho, ?_, ?_⟩
  · simp only [answer, Option.getD_some, hpp]
  · unfold TableFor at htab
    rw [List.forall₂_iff_get] at htab
    obtain ⟨hl, hget⟩ := htab
    apply List.ext_getElem
    · rw [List.length_map, List.length_map, ← hl, h2]
    · intro n hn hn'
      rw [List.length_map] at hn hn'
      rw [List.getElem_map, List.getElem_map]
      have hs : n < samples.length := by rw [hl]; exact hn
      obtain ⟨row, r, hrow, hline, hidx, hfor⟩ := hget n hs hn
      obtain ⟨p, r', hp, hr', hps⟩ := h3 n samples[n] (List.getElem?_eq_getElem hs)
      rw [List.getElem?_eq_getElem hn'] at hr'
      have hr' := Option.some.inj hr'
      have hpeq : p = paramsOf c row := by
        obtain ⟨x, hx, hx'⟩ := List.mem_map.mp hp
        have hx1 : x.1 = samples[n] := congrArg Prod.fst hx'
        have : x = (samples[n], row) := List.inj_on_of_nodup_map h.labels hx hrow hx1
        rw [this] at hx'
        exact (congrArg Prod.snd hx').symm
      subst hpeq
      obtain ⟨r'', hr'', hidx'', hfor''⟩ :=
        C91_never_raises ((C91_accepts_iff env.toEnv argv c).mpr h.accepted) samples[n] (paramsOf c row)
      have hrr : r' = r'' := by
        have : (Except.ok r' : Py (Result ℤ V)) = .ok r'' := hps.symm.trans hr''
        exact Except.ok.inj this
      have heq : r = r' := by
        rw [hrr]
        exact lineFor_unique hfor hfor'' (hidx.trans hidx''.symm)
      simp only [List.get_eq_getElem] at hline
      rw [hline, hr', ← heq, hidx]
      rfl

end GwEcc.PostObject

namespace GwEcc.PostObject.Demo

open Post Mpi Cli

/-- The world of the command line example with an injection file; frequencies up to the mass are available. -/
def env : ClassEnv ℤ Str ℤ ℤ ℤ ℚ where
  toEnv := Cli.Demo.env
  readCsv := fun f => if f = "inj.txt".toList then .ok [[("m".toList, 5)], [("m".toList, 7)]] else .error .exception
  bounds := fun _ _ d => .ok (0, d)

/-- A generator that returns the column `m`. -/
def gen : Gen Str ℤ ℤ := fun p _ => .ok (match Dict.get? p "m".toList with | some 0 => none | some m => some m | none => none)

/-- An object with the columns of the example and an injection. -/
def obj : PostObj ℤ ℤ ℤ :=
  ⟨⟨["m".toList, "minimum_frequency".toList], [(0, [("m".toList, 5), ("minimum_frequency".toList, 20)]),
    (1, [("m".toList, 1), ("minimum_frequency".toList, 20)])]⟩, fun p => gen p [], some "inj.txt".toList, none⟩

/-- Two runs, of which the second raises, and other requests. -/
def requests : List (Request ℤ Str) :=
  [.injectionValues "Amplitude".toList none none (some 3), .postprocess "Amplitude".toList none none (some 3) (some [0, 1]),
   .postprocess "Amplitude".toList none none none none, .frefBounds "Amplitude".toList none none]

example : (session env (bilbyClass env []) obj requests).2.result =
    some [⟨0, true, some 15, some 5, none⟩, ⟨1, false, none, none, some .valueError⟩] := by decide +kernel

-- the summary after these requests is that of the first run, by C98_kept
example : ∃ b a rs, (session env (bilbyClass env []) obj requests).1 = b ++ .ok (.results rs) :: a ∧
    ∀ x ∈ a, ¬ HoldsResults x := by
  refine ⟨[_], [.error .valueError, .ok (.ranges [⟨0, some (0, ((5 : ℤ) : ℚ))⟩, ⟨1, some (0, ((1 : ℤ) : ℚ))⟩])], [⟨0, true, some 15, some 5, none⟩, ⟨1, false, none, none, some .valueError⟩], rfl, ?_⟩
  intro x hx ⟨rs, h⟩
  subst h
  simp at hx

-- the injection takes its minimum frequency from the first sample
example : InjectionParams env obj [("m".toList, 5), ("minimum_frequency".toList, 20)] :=
  ⟨"inj.txt".toList, [("m".toList, 5)], [[("m".toList, 7)]], rfl, rfl, Or.inr ⟨rfl, _, 20, rfl, rfl, rfl⟩⟩

-- it has the parameters of sample 0
example : (bilbyClass env []).getInjection obj.posterior obj.injectionFile =
    .ok [("m".toList, 5), ("minimum_frequency".toList, 20)] ∧
    ((0 : ℤ), [("m".toList, (5 : ℤ)), ("minimum_frequency".toList, 20)]) ∈ obj.posterior.rows := ⟨rfl, by decide⟩

-- the ranges of samples 1 and 0, in that order
example : ((answer env (bilbyClass env []) obj (.frefBounds "Amplitude".toList none (some [1, 0]))).1 :
    Py (Answer ℤ ℤ ℚ)) = .ok (.ranges [⟨1, some (0, 1)⟩, ⟨0, some (0, 5)⟩]) := by
  simp [answer, frefBounds, selectRows, obj, frefBoundsForSample, getDataDict, gen, env]
  rfl

example : (obj.posterior.rows.map Prod.fst).Nodup := by decide

-- the object of the command line example has only the columns q and m: no minimum frequency
example : ∃ o, construct env (bilbyClass env []) (some gen) (some ["q".toList, "m".toList]) none (some "inj.txt".toList) = .ok o ∧
    (answer env (bilbyClass env []) o .injectionData).1 = .error .keyError :=
  ⟨_, rfl, C98_minimum_frequency env [] _ rfl rfl rfl rfl rfl⟩

example : Ready env.toEnv (Cli.Demo.argv "10") (Cli.Demo.config 10) Cli.Demo.post [2, 0, 1] := Cli.Demo.ready.1

/-- C98: without an injection file, after a post-processing. -/
example : (answer env (bilbyClass env "p".toList) (session env (bilbyClass env "p".toList) { obj with injectionFile := none }
    [.postprocess "Amplitude".toList none none none none]).2 .injectionData).1 = .error .valueError :=
  (C98_no_injection env _ _ _ rfl).1

end GwEcc.PostObject.Demo
