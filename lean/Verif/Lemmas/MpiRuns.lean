import Verif.Lemmas.Mpi
import Mathlib.Logic.Relation
import Mathlib.Data.List.Perm.Basic

/-!
# Runs that have nothing left to do, complete runs, killed runs
-/

set_option linter.unusedSectionVars false

namespace GwEcc.Mpi

open Finset

variable {Idx P V : Type} [DecidableEq Idx] {W : ℕ}
variable {job : Job Idx P V} {file : Option (List (Idx × V))} {bs : ℕ}

/-! ## Nothing to do -/

/-- Invariant of the run in which every sample was in the checkpoint. -/
structure StopInv (job : Job Idx P V) (file : Option (List (Idx × V))) (s : Sys Idx P V W) : Prop where
  ctl : (s.ctl = .done ∧ ∀ w, Ended (s.workers w)) ∨
    ∃ k, s.ctl = .stopping k ∧ ∀ w : Fin W, (w.val < k → Ended (s.workers w)) ∧ (k ≤ w.val → s.workers w = freshWorker)
  store : s.store = initialStore job file
  table : ∃ t, s.table = some t ∧ saveFinal job s.store.results = .ok t
  log : s.log = []

theorem stop_init {t : List (Row Idx P V)} (h : toProcess job file = [])
    (ht : saveFinal job (initialStore job file).results = .ok t) : StopInv job file (sysInit job file W) := by
  unfold sysInit
  simp only [h, ht]
  exact ⟨Or.inr ⟨0, rfl, fun w => ⟨fun hh => absurd hh (Nat.not_lt_zero _), fun _ => rfl⟩⟩, rfl, ⟨t, rfl, ht⟩, rfl⟩

theorem stop_step {items : List (ℕ × Idx × P)} {s s' : Sys Idx P V W} {l : Label W} (h : StopInv job file s)
    (hs : sysStep job items bs l s = some s') : StopInv job file s' ∧ meas items s' < meas items s := by
  cases l with
  | master src =>
    unfold sysStep masterStep at hs
    rcases h.ctl with ⟨hc, _⟩ | ⟨k, hc, hw⟩
    · simp [hc] at hs
    · simp only [hc] at hs
      split at hs
      · next hk =>
        injection hs with hs; subst hs
        have hfr := (hw ⟨k, hk⟩).2 le_rfl
        have hsum := sum_update wt s.workers ⟨k, hk⟩ ⟨[.stop], [], .waiting⟩
        have hsend : send s.workers ⟨k, hk⟩ Msg.stop = Function.update s.workers ⟨k, hk⟩ ⟨[.stop], [], .waiting⟩ := by
          simp [send, hfr, freshWorker]
        refine ⟨⟨Or.inr ⟨k + 1, rfl, fun w => ?_⟩, h.store, h.table, h.log⟩, ?_⟩
        · simp only [hsend]
          by_cases hwk : w = ⟨k, hk⟩
          · subst hwk
            rw [Function.update_self]
            exact ⟨fun _ => Ended.told, fun hh => absurd hh (by simp)⟩
          · rw [Function.update_of_ne hwk]
            have : w.val ≠ k := fun hh => hwk (Fin.ext hh)
            exact ⟨fun hh => (hw w).1 (by omega), fun hh => (hw w).2 (by omega)⟩
        · rw [hfr, wt_fresh] at hsum
          simp only [meas, hsend, hc, ctlWt]
          simp only [wt, List.map_cons, List.map_nil, List.sum_cons, List.sum_nil, msgWt, modeWt] at hsum ⊢
          omega
      · next hk =>
        injection hs with hs; subst hs
        refine ⟨⟨Or.inl ⟨rfl, fun w => (hw w).1 (by omega)⟩, h.store, h.table, h.log⟩, ?_⟩
        simp only [meas, hc, ctlWt]
        omega
  | worker w =>
    have hsh : Ended (s.workers w) ∨ s.workers w = freshWorker := by
      rcases h.ctl with ⟨_, g⟩ | ⟨k, _, g⟩
      · exact Or.inl (g w)
      · by_cases hk : w.val < k
        · exact Or.inl ((g w).1 hk)
        · exact Or.inr ((g w).2 (by omega))
    unfold sysStep workerStep at hs
    simp only at hs
    rcases hsh with hsh | hsh
    · have key : s.workers w = ⟨[.stop], [], .waiting⟩ ∧
          s' = { s with workers := Function.update s.workers w ⟨[], [], .stopped⟩ } := by
        generalize hwk : s.workers w = wk at hs hsh
        cases hsh with
        | told => simp only [Option.some.injEq] at hs; exact ⟨rfl, hs.symm⟩
        | stopped => simp at hs
      obtain ⟨hold', rfl⟩ := key
      have hsum := sum_update wt s.workers w ⟨[], [], .stopped⟩
      rw [hold'] at hsum
      refine ⟨⟨?_, h.store, h.table, h.log⟩, ?_⟩
      · have hu : ∀ v, Ended (s.workers v) → Ended (Function.update s.workers w ⟨[], [], .stopped⟩ v) := by
          intro v hv
          by_cases hvw : v = w
          · subst hvw; rw [Function.update_self]; exact Ended.stopped
          · rw [Function.update_of_ne hvw]; exact hv
        rcases h.ctl with ⟨hc, g⟩ | ⟨k, hc, g⟩
        · exact Or.inl ⟨hc, fun v => hu v (g v)⟩
        · refine Or.inr ⟨k, hc, fun v => ⟨fun hh => hu v ((g v).1 hh), fun hh => ?_⟩⟩
          have hne : v ≠ w := by
            rintro rfl
            have := (g v).2 hh
            rw [hold'] at this
            simp [freshWorker] at this
          simp only [Function.update_of_ne hne]
          exact (g v).2 hh
      · simp only [meas]
        simp only [wt, List.map_cons, List.map_nil, List.sum_cons, List.sum_nil, msgWt, modeWt] at hsum ⊢
        omega
    · rw [hsh] at hs; simp [freshWorker] at hs

theorem stop_exec {items : List (ℕ × Idx × P)} :
    ∀ (sched : List (Label W)) (s s' : Sys Idx P V W), StopInv job file s → exec job items bs sched s = some s' →
      StopInv job file s' ∧ meas items s' + sched.length ≤ meas items s
  | [], s, s', h, he => by
    simp only [exec, Option.some.injEq] at he
    subst he
    exact ⟨h, by simp⟩
  | l :: ls, s, s', h, he => by
    simp only [exec] at he
    cases hst : sysStep job items bs l s with
    | none => rw [hst] at he; simp at he
    | some s1 =>
      rw [hst] at he
      simp only [Option.bind_some] at he
      obtain ⟨h1, h2⟩ := stop_step h hst
      obtain ⟨h3, h4⟩ := stop_exec ls s1 s' h1 he
      refine ⟨h3, ?_⟩
      simp only [List.length_cons]
      omega

theorem stop_progress {items : List (ℕ × Idx × P)} {s : Sys Idx P V W} (hW : 0 < W) (h : StopInv job file s)
    (hstuck : ∀ l, sysStep job items bs l s = none) : s.ctl = .done ∧ ∀ w, s.workers w = ⟨[], [], .stopped⟩ := by
  rcases h.ctl with ⟨hc, g⟩ | ⟨k, hc, g⟩
  · refine ⟨hc, fun w => ?_⟩
    have hs := hstuck (.worker w)
    unfold sysStep workerStep at hs
    simp only at hs
    have he := g w
    generalize hwk : s.workers w = wk at hs he
    cases he with
    | told => simp at hs
    | stopped => rfl
  · exfalso
    have hs := hstuck (.master ⟨0, hW⟩)
    unfold sysStep masterStep at hs
    simp only [hc] at hs
    split at hs <;> cases hs

/-! ## Recorded results and complete runs -/

theorem toProcess_of_mem {r : Idx × P} (hr : r ∈ job.rows) (hf : r.1 ∉ processed file) :
    ∃ it ∈ toProcess job file, it.2 = r := by
  obtain ⟨n, hn, hget⟩ := List.getElem_of_mem hr
  exact ⟨(n, r), mem_toProcess.mpr ⟨by rw [List.getElem?_eq_getElem hn, hget], hf⟩, rfl⟩

/-- With something selected and nothing to do, the final table can be written. -/
theorem saveFinal_ok (hd : Distinct job) (hr : job.rows ≠ []) (h : toProcess job file = []) :
    ∃ t, saveFinal job (initialStore job file).results = .ok t := by
  obtain ⟨r, hrm⟩ := List.exists_mem_of_ne_nil _ hr
  have hp : r.1 ∈ processed file := by
    by_contra hp
    obtain ⟨it, hi, _⟩ := toProcess_of_mem hrm hp
    rw [h] at hi; cases hi
  rw [processed_eq] at hp
  obtain ⟨x, hx, hxe⟩ := List.mem_map.mp hp
  have := valid_held_ne hd hx (by rw [hxe]; exact List.mem_map_of_mem hrm)
  unfold saveFinal initialStore
  simp only [initialResults_eq]
  exact ⟨_, rfl⟩

/-- Entering the same results in a different order. -/
theorem held_perm (hd : Distinct job) (t : List (Idx × V)) {l l' : List (Idx × V)} (hp : l.Perm l')
    (hn : (l.map Prod.fst).Nodup) : held job (t ++ l) = held job (t ++ l') := by
  rw [held_eq hd, held_eq hd]
  refine List.map_congr_left fun r _ => ?_
  congr 1
  rw [List.reverse_append, List.reverse_append, Dict.get?_append, Dict.get?_append]
  congr 1
  have hn' : (l'.map Prod.fst).Nodup := (hp.map Prod.fst).nodup_iff.mp hn
  have h1 : (l.reverse.map Prod.fst).Nodup := by rw [List.map_reverse]; exact List.nodup_reverse.mpr hn
  have h2 : (l'.reverse.map Prod.fst).Nodup := by rw [List.map_reverse]; exact List.nodup_reverse.mpr hn'
  have hmem : ∀ x, x ∈ l.reverse ↔ x ∈ l'.reverse := by
    intro x; rw [List.mem_reverse, List.mem_reverse]; exact hp.mem_iff
  cases h : Dict.get? l.reverse r.1 with
  | some v =>
    symm
    rw [Dict.get?_eq_some_of_nodup h2, ← hmem]
    exact (Dict.get?_eq_some_of_nodup h1).mp h
  | none =>
    symm
    rw [Dict.get?_none_iff] at h ⊢
    intro hc
    apply h
    unfold Dict.keys at hc ⊢
    obtain ⟨x, hx, hxe⟩ := List.mem_map.mp hc
    exact List.mem_map.mpr ⟨x, (hmem x).mpr hx, hxe⟩

/-- The checkpoint file at the end of a run that entered the results `l`. -/
theorem final_file (hd : Distinct job) (l : List (Idx × V)) (hl : ∀ x ∈ l, x.1 ∈ job.rows.map Prod.fst) (hne : l ≠ []) :
    (lastCheckpoint job (recordAll job l (initialStore job file))).file =
      match job.saveEvery with
      | none => file
      | some k => if k = 0 then file else some (valid (held job (file.getD [] ++ l))) := by
  obtain ⟨h1, h2, h3⟩ := recordAll_file hd file l hl
  have hres := recordAll_results job file l
  have hlen : 0 < l.length := List.length_pos_iff.mpr hne
  have hnever : (∀ n, due job n = false) →
      (recordAll job l (initialStore job file)).file = file := by
    intro hdue
    clear h1 h2 h3 hres hlen hne
    induction l using List.reverseRecOn with
    | nil => rfl
    | append_singleton l r ih =>
      have ih := ih (fun x hx => hl x (by simp [hx]))
      rw [recordAll_append]
      split
      · exact ih
      · unfold record; simp only [hdue]; exact ih
  unfold lastCheckpoint saveCheckpoint
  cases hk : job.saveEvery with
  | none =>
    simp only
    exact hnever (fun n => by simp [due, hk])
  | some k =>
    simp only
    by_cases hk0 : k = 0
    · subst hk0
      simp only [ne_eq, not_true_eq_false, false_and, if_false, if_true]
      exact hnever (fun n => by simp [due, hk])
    · simp only [hk0, ne_eq, not_false_eq_true, true_and, if_false]
      by_cases hs : 0 < (recordAll job l (initialStore job file)).since
      · simp only [hs, if_true]
        rw [hres]
      · simp only [hs, if_false]
        have h0 : (recordAll job l (initialStore job file)).since = 0 := by omega
        rcases h2 with h2 | ⟨h2, _⟩
        · rw [h2, h0, Nat.sub_zero, List.take_length]
        · omega

theorem items_nodup (hd : Distinct job) (file : Option (List (Idx × V))) :
    (((toProcess job file).map fun it => resOf job it.2).map Prod.fst).Nodup := by
  rw [List.map_map]
  exact toProcess_nodup hd file

/-- What is known of any reachable state. -/
theorem reach_cases {s : Sys Idx P V W} {sched : List (Label W)} (hd : Distinct job)
    (h : mpiRun job file W bs sched = some s) :
    (toProcess job file ≠ [] ∧ Inv job file (toProcess job file) bs s ∧
        (0 < bs → meas (toProcess job file) s + sched.length ≤ meas (toProcess job file) (sysInit job file W))) ∨
    (toProcess job file = [] ∧ job.rows ≠ [] ∧ StopInv job file s ∧
        meas (toProcess job file) s + sched.length ≤ meas (toProcess job file) (sysInit job file W)) ∨
    (job.rows = [] ∧ sched = [] ∧ s = ⟨.failed, 0, 0, initialStore job file, none, fun _ => freshWorker, []⟩) := by
  unfold mpiRun at h
  by_cases ht : toProcess job file = []
  · by_cases hr : job.rows = []
    · right; right
      have hinit : sysInit job file W = ⟨.failed, 0, 0, initialStore job file, none, fun _ => freshWorker, []⟩ := by
        have hres : (initialStore job file).results = [] := by
          unfold initialStore
          simp only [initialResults_eq]
          rw [← List.length_eq_zero_iff, length_held, hr]
          rfl
        unfold sysInit
        simp only [ht, hres, saveFinal, valid, List.filterMap_nil]
      rw [hinit] at h
      cases sched with
      | nil => simp only [exec, Option.some.injEq] at h; exact ⟨hr, rfl, h.symm⟩
      | cons l ls =>
        exfalso
        simp only [exec] at h
        cases l with
        | master src => simp [sysStep, masterStep] at h
        | worker w => simp [sysStep, workerStep, freshWorker] at h
    · right; left
      obtain ⟨t, hft⟩ := saveFinal_ok hd hr ht
      obtain ⟨h1, h2⟩ := stop_exec sched _ _ (stop_init ht hft) h
      exact ⟨ht, hr, h1, h2⟩
  · left
    obtain ⟨h1, h2⟩ := exec_inv hd (toProcess_idx job file) ht sched _ _ (init_inv ht) h
    exact ⟨ht, h1, h2⟩

/-- The results recorded so far are results of pending samples, none of them twice. -/
theorem log_subperm {s : Sys Idx P V W} {sched : List (Label W)} (hd : Distinct job)
    (h : mpiRun job file W bs sched = some s) :
    s.log.Subperm ((toProcess job file).map fun it => resOf job it.2) := by
  rcases reach_cases hd h with ⟨_, hi, _⟩ | ⟨_, _, hs, _⟩ | ⟨_, _, rfl⟩
  · rw [← Multiset.coe_le, ← pend_cast, ← hi.all, add_assoc, add_assoc]
    exact Multiset.le_add_right _ _
  · rw [hs.log]; exact List.nil_subperm
  · exact List.nil_subperm

/-- Every reachable store is that of the recorded results; at the end with the last checkpoint. -/
theorem reach_store {s : Sys Idx P V W} {sched : List (Label W)} (hd : Distinct job)
    (h : mpiRun job file W bs sched = some s) :
    s.store = recordAll job s.log (initialStore job file) ∨
    (s.ctl = .done ∧ s.store = lastCheckpoint job (recordAll job s.log (initialStore job file))) := by
  rcases reach_cases hd h with ⟨_, hi, _⟩ | ⟨_, _, hs, _⟩ | ⟨_, _, rfl⟩
  · have := hi.store
    cases hc : s.ctl with
    | prime k => rw [hc] at this; exact Or.inl this
    | loop => rw [hc] at this; exact Or.inl this
    | handle w r => rw [hc] at this; exact Or.inl this
    | finishing => rw [hc] at this; exact Or.inl this.1
    | done => rw [hc] at this; exact Or.inr ⟨rfl, this.1⟩
    | stopping k => rw [hc] at this; exact this.elim
    | failed => rw [hc] at this; exact this.elim
  · left; rw [hs.store, hs.log]; rfl
  · left; rfl

/-- The serial run in terms of `recordAll`. -/
theorem serialRun_eq (hd : Distinct job) :
    serialRun job file = (let l := (toProcess job file).map fun it => resOf job it.2
      let s := lastCheckpoint job (recordAll job l (initialStore job file))
      (s, saveFinal job s.results)) := by
  have hl : ∀ it ∈ toProcess job file, job.rows[it.1]? = some it.2 := fun it hi => (mem_toProcess.mp hi).1
  have he := serialLoop_eq hd (toProcess job file) hl (initialStore job file)
  have hlast : lastCheckpoint job (initialStore job file) = initialStore job file := by
    unfold lastCheckpoint; split
    · rfl
    · simp [initialStore]
  unfold serialRun
  simp only
  split
  · next h0 =>
    simp only [h0, List.map_nil, recordAll, List.foldl_nil, hlast]
  · unfold resOf
    rw [he]

/-! ## Entries of the checkpoint -/

/-- Entries of a table that was written from the results held in memory. -/
theorem mem_valid_held' (hd : Distinct job) {t : List (Idx × V)} {x : Idx × V} :
    x ∈ valid (held job t) ↔ Dict.get? t.reverse x.1 = some x.2 ∧ x.1 ∈ job.rows.map Prod.fst := by
  rw [mem_valid, held_eq hd, List.mem_map]
  constructor
  · rintro ⟨r, hr, h⟩
    cases hg : Dict.get? t.reverse r.1 with
    | none => rw [hg] at h; cases h
    | some v =>
      rw [hg] at h
      simp only [Option.map_some, Option.some.injEq] at h
      subst h
      exact ⟨hg, List.mem_map_of_mem hr⟩
  · rintro ⟨h, hm⟩
    obtain ⟨r, hr, hre⟩ := List.mem_map.mp hm
    refine ⟨r, hr, ?_⟩
    rw [hre, h]
    rfl

/-- A kept entry: held in `t`, its sample not overwritten by `l`. -/
theorem mem_valid_held_append (hd : Distinct job) {t l : List (Idx × V)} {x : Idx × V}
    (hx : x ∈ valid (held job t)) (hl : x.1 ∉ l.map Prod.fst) : x ∈ valid (held job (t ++ l)) := by
  rw [mem_valid_held' hd] at hx ⊢
  refine ⟨?_, hx.2⟩
  rw [List.reverse_append, Dict.get?_append, hx.1]
  have : Dict.get? l.reverse x.1 = none := by
    rw [Dict.get?_none_iff]
    unfold Dict.keys
    rw [List.map_reverse, List.mem_reverse]
    exact hl
  rw [this]; rfl

end GwEcc.Mpi
