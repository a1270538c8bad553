import Verif.Lemmas.MpiKilled
import Verif.Lemmas.MpiZero

/-!
# Posterior post-processing: parallel run, crash and resume, final table (C49–C54)

`mpiRun job file W bs sched = some s` says that `s` is reached from the start of the run by the moves named in `sched`;
universally quantified `sched` therefore means every interleaving, and every crash point.
-/

set_option linter.unusedSectionVars false

namespace GwEcc.Mpi

variable {Idx P V : Type} [DecidableEq Idx] {W : ℕ}
variable {job : Job Idx P V} {file : Option (List (Idx × V))} {bs : ℕ}

/-! ## A concrete job used in the examples -/

/-- Three samples, value = index + parameter, a checkpoint every two samples. -/
def demo : Job ℕ ℕ ℕ := ⟨[(4, 10), (7, 20), (9, 30)], fun i p => i + p, some 2⟩

/-- A complete schedule for two workers and batches of one sample; worker 1 answers first. -/
def demoSchedule : List (Label 2) :=
  [.master 0, .master 0, .master 0, .worker 1, .worker 0, .worker 1, .master 1, .master 1, .master 1, .worker 1,
   .worker 0, .worker 1, .master 1, .master 1, .master 1, .master 0, .master 0, .master 0, .master 0, .master 0,
   .worker 0, .worker 1]

/-! ## C49 -/

/-- C49. Whatever the number of workers, the batch size and the schedule: a run that ends holds the same results, has
written the same checkpoint and the same table as the serial run. -/
theorem C49_parallel_eq_serial (hd : (job.rows.map Prod.fst).Nodup) {sched : List (Label W)} {s : Sys Idx P V W}
    (h : mpiRun job file W bs sched = some s) (hdone : s.ctl = .done) :
    s.store.results = (serialRun job file).1.results ∧ s.store.file = (serialRun job file).1.file ∧
      ∃ t, s.table = some t ∧ (serialRun job file).2 = .ok t := by
  have hd' : Distinct job := hd
  rw [serialRun_eq hd']
  simp only
  rcases reach_cases hd' h with ⟨hne, hi, _⟩ | ⟨h0, _, hs, _⟩ | ⟨_, _, rfl⟩
  · have hst := hi.store
    rw [hdone] at hst
    simp only at hst
    obtain ⟨hst, hlen, t, ht, hsf⟩ := hst
    have hdr := hi.drained (le_of_eq hlen.symm)
    have hperm : s.log.Perm ((toProcess job file).map fun it => resOf job it.2) := by
      have := hi.all
      rw [Finset.sum_eq_zero (fun w _ => hdr.2.1 w), hdr.2.2.1, hdr.2.2.2, pend_cast] at this
      have hz : pend job (toProcess job file) (toProcess job file).length = 0 := by simp [pend]
      rw [hz, Multiset.coe_nil, add_zero, add_zero, add_zero, Multiset.coe_eq_coe] at this
      exact this
    have hnod : (s.log.map Prod.fst).Nodup := (hperm.map Prod.fst).nodup_iff.mpr (items_nodup hd' file)
    have hheld := held_perm hd' (file.getD []) hperm hnod
    have hlogne : s.log ≠ [] := by
      intro hnil; rw [hnil] at hlen; exact hne (List.length_eq_zero_iff.mp hlen.symm)
    have hitne : ((toProcess job file).map fun it => resOf job it.2) ≠ [] := by simpa using hne
    have hres : s.store.results = (lastCheckpoint job (recordAll job ((toProcess job file).map fun it => resOf job it.2)
        (initialStore job file))).results := by
      rw [hst, lastCheckpoint_results, lastCheckpoint_results, recordAll_results, recordAll_results, hheld]
    refine ⟨hres, ?_, t, ht, by rw [← hres]; exact hsf⟩
    rw [hst, final_file hd' _ (res_idx job file hperm.subperm) hlogne,
      final_file hd' _ (res_idx job file (List.Subperm.refl _)) hitne, hheld]
  · have hlast : lastCheckpoint job (initialStore job file) = initialStore job file := by
      unfold lastCheckpoint; split
      · rfl
      · simp [initialStore]
    obtain ⟨t, ht, hsf⟩ := hs.table
    rw [hs.store] at hsf ⊢
    simp only [h0, List.map_nil, recordAll, List.foldl_nil, hlast]
    exact ⟨trivial, trivial, t, ht, hsf⟩
  · cases hdone

-- the demo schedule is complete, and the table is the expected one
example : (mpiRun demo none 2 1 demoSchedule).map (fun s => (s.ctl, s.table, s.store.file)) =
    some (.done, some [(4, 10, some 14), (7, 20, some 27), (9, 30, some 39)], some [(4, 14), (7, 27), (9, 39)]) := by
  rfl
example : (demo.rows.map Prod.fst).Nodup := by decide

/-- C49, remark: with a sample requested twice the two kinds of run do differ: the serial table has four rows, the
parallel one two. -/
theorem C49_duplicates_differ :
    ∃ (job : Job ℕ ℕ ℕ) (sched : List (Label 1)) (s : Sys ℕ ℕ ℕ 1),
      mpiRun job none 1 1 sched = some s ∧ s.ctl = .done ∧
      s.table = some [(4, 10, some 14), (4, 10, some 14)] ∧
      (serialRun job none).2 =
        .ok [(4, 10, some 14), (4, 10, some 14), (4, 10, some 14), (4, 10, some 14)] := by
  let job : Job ℕ ℕ ℕ := ⟨[(4, 10), (4, 10)], fun i p => i + p, none⟩
  let sched : List (Label 1) := [.master 0, .master 0, .worker 0, .worker 0, .master 0, .master 0, .master 0, .worker 0,
    .worker 0, .master 0, .master 0, .master 0, .master 0, .master 0]
  have hs : (mpiRun job none 1 1 sched).isSome := by decide +kernel
  exact ⟨job, sched, (mpiRun job none 1 1 sched).get hs, (Option.some_get hs).symm, rfl, rfl, rfl⟩

/-! ## C50 -/

/-- C50, exactly once: the results recorded when a run ends are those of the pending samples, each exactly once. -/
theorem C50_exactly_once (hd : (job.rows.map Prod.fst).Nodup) {sched : List (Label W)} {s : Sys Idx P V W}
    (h : mpiRun job file W bs sched = some s) (hdone : s.ctl = .done) :
    s.log.Perm ((toProcess job file).map fun it => (it.2.1, job.value it.2.1 it.2.2)) := by
  rcases reach_cases hd h with ⟨hne, hi, _⟩ | ⟨h0, _, hs, _⟩ | ⟨_, _, rfl⟩
  · have hst := hi.store
    rw [hdone] at hst
    have hdr := hi.drained (le_of_eq hst.2.1.symm)
    have := hi.all
    rw [Finset.sum_eq_zero (fun w _ => hdr.2.1 w), hdr.2.2.1, hdr.2.2.2, pend_cast] at this
    have hz : pend job (toProcess job file) (toProcess job file).length = 0 := by simp [pend]
    rw [hz, Multiset.coe_nil, add_zero, add_zero, add_zero, Multiset.coe_eq_coe] at this
    exact this
  · rw [hs.log, h0]; exact List.Perm.nil
  · cases hdone

/-- C50, at any time: no sample is recorded twice, and only pending samples are. -/
theorem C50_at_most_once (hd : (job.rows.map Prod.fst).Nodup) {sched : List (Label W)} {s : Sys Idx P V W}
    (h : mpiRun job file W bs sched = some s) :
    (s.log.map Prod.fst).Nodup ∧ ∀ x ∈ s.log, ∃ p, (x.1, p) ∈ job.rows ∧ x.1 ∉ processed file ∧ x.2 = job.value x.1 p := by
  have hsub := log_subperm hd h
  constructor
  · obtain ⟨l, hp, hs⟩ := subperm_map (f := Prod.fst) hsub
    exact hp.nodup_iff.mp (hs.nodup (items_nodup hd file))
  · intro x hx
    obtain ⟨it, hi, rfl⟩ := List.mem_map.mp (hsub.subset hx)
    obtain ⟨h1, h2⟩ := mem_toProcess.mp hi
    exact ⟨it.2.2, List.mem_of_getElem? h1, h2, rfl⟩

/-- C50, no deadlock and clean shutdown: at least one worker, batches of at least one sample, a non-empty selection.  When
no process can move, the master has returned, and every worker has left its loop with nothing left in its channels. -/
theorem C50_clean_shutdown (hd : (job.rows.map Prod.fst).Nodup) (hr : job.rows ≠ []) (hW : 0 < W) (hb : 0 < bs)
    {sched : List (Label W)} {s : Sys Idx P V W} (h : mpiRun job file W bs sched = some s)
    (hstuck : ∀ l, sysStep job (toProcess job file) bs l s = none) :
    s.ctl = .done ∧ ∀ w, s.workers w = ⟨[], [], .stopped⟩ := by
  rcases reach_cases hd h with ⟨_, hi, _⟩ | ⟨_, _, hs, _⟩ | ⟨h0, _⟩
  · exact progress hW hb hi hstuck
  · exact stop_progress hW hs hstuck
  · exact absurd h0 hr

example : (mpiRun demo none 2 1 demoSchedule).map (fun s => (s.workers 0, s.workers 1)) =
    some (⟨[], [], .stopped⟩, ⟨[], [], .stopped⟩) := by decide +kernel

/-- C50, every schedule is finite: the number of moves is bounded by a linear function of the number of pending samples
and of workers, so no run goes on for ever. -/
theorem C50_terminates (hd : (job.rows.map Prod.fst).Nodup) (hb : 0 < bs)
    {sched : List (Label W)} {s : Sys Idx P V W} (h : mpiRun job file W bs sched = some s) :
    sched.length ≤ 10 * (toProcess job file).length + 2 * W + 3 := by
  have hinit : meas (toProcess job file) (sysInit job file W) ≤ 10 * (toProcess job file).length + 2 * W + 3 := by
    unfold sysInit
    simp only
    split
    · split
      · simp only [meas, wt_fresh, ctlWt, Finset.sum_const_zero]; omega
      · simp only [meas, wt_fresh, ctlWt, Finset.sum_const_zero]; omega
    · simp only [meas, wt_fresh, ctlWt, Finset.sum_const_zero]
      omega
  rcases reach_cases hd h with ⟨_, _, hm⟩ | ⟨_, _, _, hm⟩ | ⟨_, rfl, _⟩
  · have := hm hb; omega
  · omega
  · simp

/-- C50 fails for a batch size of zero, which the command line accepts: as soon as one sample is pending, no schedule ends.
Every state reached has recorded nothing, written nothing, and has a successor, so runs of every length exist. -/
theorem C50_batch_size_zero_violation (hW : 0 < W) (hne : toProcess job file ≠ []) :
    (∀ (sched : List (Label W)) (s : Sys Idx P V W), mpiRun job file W 0 sched = some s →
      s.ctl ≠ .done ∧ s.table = none ∧ s.log = [] ∧ s.store = initialStore job file ∧
        ∃ l, (sysStep job (toProcess job file) 0 l s).isSome) ∧
    ∀ n : ℕ, ∃ (sched : List (Label W)) (s : Sys Idx P V W), sched.length = n ∧ mpiRun job file W 0 sched = some s := by
  have hinv : ∀ (sched : List (Label W)) (s : Sys Idx P V W), mpiRun job file W 0 sched = some s →
      ZInv (initialStore job file) s := fun sched s h => zinv_exec hne (zinv_init hne) h
  refine ⟨fun sched s h => ?_, fun n => ?_⟩
  · have hi := hinv sched s h
    refine ⟨fun hd => ?_, hi.table, hi.log, hi.store, zinv_progress hne hW hi⟩
    have hs := hi.shape
    unfold ZShape at hs
    rw [hd] at hs
    exact hs
  · induction n with
    | zero => exact ⟨[], _, rfl, rfl⟩
    | succ n ih =>
      obtain ⟨sched, s, hl, hs⟩ := ih
      obtain ⟨l, h1⟩ := zinv_progress (job := job) hne hW (hinv sched s hs)
      obtain ⟨s', h2⟩ := Option.isSome_iff_exists.mp h1
      refine ⟨sched ++ [l], s', by simp [hl], ?_⟩
      have key : ∀ (a : List (Label W)) (x y : Sys Idx P V W), exec job (toProcess job file) 0 a x = some y →
          exec job (toProcess job file) 0 (a ++ [l]) x = sysStep job (toProcess job file) 0 l y := by
        intro a
        induction a with
        | nil => intro x y h; cases h; simp [exec]
        | cons b a iha =>
          intro x y h
          unfold exec at h
          obtain ⟨z, hz1, hz2⟩ := Option.bind_eq_some_iff.mp h
          rw [List.cons_append, exec, hz1, Option.bind_some]
          exact iha z y hz2
      unfold mpiRun at hs ⊢
      rw [key sched _ s hs, h2]

example : (0 : ℕ) < 2 ∧ toProcess demo none ≠ [] := by decide +kernel

/-- C50, no buffering is needed: at no time does a channel hold more than one message, and a worker that computes or has
stopped has no message waiting. -/
theorem C50_no_buffering (hd : (job.rows.map Prod.fst).Nodup) {sched : List (Label W)} {s : Sys Idx P V W}
    (h : mpiRun job file W bs sched = some s) (w : Fin W) :
    (s.workers w).inbox.length + (s.workers w).outbox.length ≤ 1 ∧
      ((s.workers w).mode ≠ .waiting → (s.workers w).inbox = [] ∧ (s.workers w).outbox = []) := by
  have key : s.workers w = freshWorker ∨ Busy bs (s.workers w) ∨ Ended (s.workers w) := by
    rcases reach_cases hd h with ⟨_, hi, _⟩ | ⟨_, _, hs, _⟩ | ⟨_, _, rfl⟩
    · rcases hi.shape w with ⟨_, g⟩ | ⟨_, g | ⟨g, _⟩⟩
      · exact Or.inl g
      · exact Or.inr (Or.inl g)
      · exact Or.inr (Or.inr g)
    · rcases hs.ctl with ⟨_, g⟩ | ⟨k, _, g⟩
      · exact Or.inr (Or.inr (g w))
      · by_cases hk : w.val < k
        · exact Or.inr (Or.inr ((g w).1 hk))
        · exact Or.inl ((g w).2 (by omega))
    · exact Or.inl rfl
  generalize s.workers w = wk at key
  rcases key with rfl | g | g
  · simp [freshWorker]
  · cases g <;> simp
  · cases g <;> simp

/-- C50, what a failing master leaves behind: when the selection names a sample that is not in the posterior, or selects
nothing, the master raises before any message is sent; no process can move, yet every worker is still waiting. -/
theorem C50_failed_master_violation (posterior : List (Idx × P)) (samples : Option (List Idx)) (value : Idx → P → V)
    (saveEvery : Option ℤ) (file : Option (List (Idx × V))) (items : List (ℕ × Idx × P))
    (hsel : (∃ l, samples = some l ∧ ∃ i ∈ l, i ∉ posterior.map Prod.fst) ∨ samples = some [] ∨ posterior = []) :
    ∀ l : Label W, ∀ w : Fin W,
      (sysStep (⟨posterior, value, saveEvery⟩ : Job Idx P V) items bs l
        (sysStart posterior samples value saveEvery file W)).isNone ∧
      ((sysStart posterior samples value saveEvery file W).workers w).mode = .waiting := by
  have hstart : ∃ st, sysStart posterior samples value saveEvery file W =
      ⟨.failed, 0, 0, st, none, fun _ => freshWorker, []⟩ := by
    have hempty : ∀ st : Option ℤ, sysInit (⟨[], value, st⟩ : Job Idx P V) file W =
        ⟨.failed, 0, 0, initialStore ⟨[], value, st⟩ file, none, fun _ => freshWorker, []⟩ := by
      intro st
      have hres : (initialStore (⟨[], value, st⟩ : Job Idx P V) file).results = [] := by
        unfold initialStore
        simp only [initialResults_eq]
        rw [← List.length_eq_zero_iff, length_held]
        rfl
      have ht : toProcess (⟨[], value, st⟩ : Job Idx P V) file = [] := rfl
      unfold sysInit
      simp only [ht, hres, saveFinal, valid, List.filterMap_nil]
    by_cases hall : (samples.getD (posterior.map Prod.fst)).all (fun i => decide (i ∈ posterior.map Prod.fst)) = true
    · have hnil : samples.getD (posterior.map Prod.fst) = [] := by
        rcases hsel with ⟨l, rfl, i, hi, hn⟩ | rfl | rfl
        · simp only [Option.getD_some, List.all_eq_true, decide_eq_true_eq] at hall
          exact absurd (hall i hi) hn
        · rfl
        · cases samples with
          | none => rfl
          | some l =>
            cases l with
            | nil => rfl
            | cons a l => simp at hall
      refine ⟨initialStore ⟨[], value, saveEvery⟩ file, ?_⟩
      · unfold sysStart selectRows
        simp only [hnil, List.all_nil, if_true, List.flatMap_nil]
        exact hempty saveEvery
    · refine ⟨⟨[], file, 0⟩, ?_⟩
      · unfold sysStart selectRows
        simp only [hall]
        rfl
  obtain ⟨st, hst⟩ := hstart
  rw [hst]
  intro l w
  refine ⟨?_, rfl⟩
  cases l with
  | master src => rfl
  | worker v => rfl

example : ∃ l, some [1, 2] = some l ∧ ∃ i ∈ l, i ∉ ([(1, 0)] : List (ℕ × ℕ)).map Prod.fst :=
  ⟨_, rfl, 2, by simp, by simp⟩

/-! ## C51 -/

/-- C51. A run is killed any number of times, at any point, each time serial or with any number of workers under any
schedule, and finally run to its end: the table is the one an uninterrupted serial run produces, which is the expected
one.  What is missing (`_partial`): crashes inside the write of the checkpoint file itself, see `C51_write_violation`. -/
theorem C51_resume_partial (hd : (job.rows.map Prod.fst).Nodup) {f : Option (List (Idx × V))}
    (h : KilledRuns job none f) :
    (serialRun job f).2 = (serialRun job none).2 ∧
    (job.rows ≠ [] → (serialRun job f).2 = .ok (expectedTable job)) ∧
    ∀ (W bs : ℕ) (sched : List (Label W)) (s : Sys Idx P V W), mpiRun job f W bs sched = some s → s.ctl = .done →
      s.table = some (expectedTable job) := by
  have hnone : Correct job (none : Option (List (Idx × V))) := by intro x hx; cases hx
  have hf := correct_killeds hd hnone h
  have h1 := serialRun_table hd hf
  have h2 := serialRun_table hd hnone
  refine ⟨by rw [h1, h2], fun hr => by rw [h1, if_neg hr], ?_⟩
  intro W bs sched s hs hdone
  obtain ⟨_, _, t, ht, hsr⟩ := C49_parallel_eq_serial hd hs hdone
  rw [h1] at hsr
  split at hsr
  · cases hsr
  · injection hsr with hsr; rw [ht, hsr]

/-- C51, no sample whose result is in the checkpoint is computed again: not in the serial run, and with workers neither
recorded, nor in any message. -/
theorem C51_not_recomputed (hd : (job.rows.map Prod.fst).Nodup) {t : List (Idx × V)} {x : Idx × V} (hx : x ∈ t) :
    (∀ it ∈ toProcess job (some t), it.2.1 ≠ x.1) ∧
    ∀ (sched : List (Label W)) (s : Sys Idx P V W), mpiRun job (some t) W bs sched = some s →
      x.1 ∉ s.log.map Prod.fst ∧ ∀ w, ∀ b, (Msg.batch b ∈ (s.workers w).inbox ∨ (s.workers w).mode = .computing b) →
        x.1 ∉ b.map Prod.fst := by
  have hp : x.1 ∈ processed (some t) := List.mem_map_of_mem hx
  have h1 : ∀ it ∈ toProcess job (some t), it.2.1 ≠ x.1 := by
    intro it hi he
    exact (mem_toProcess.mp hi).2 (he ▸ hp)
  have h2 : x.1 ∉ ((toProcess job (some t)).map fun it => resOf job it.2).map Prod.fst := by
    rw [List.map_map]
    intro hc
    obtain ⟨it, hi, he⟩ := List.mem_map.mp hc
    exact h1 it hi he
  refine ⟨h1, fun sched s hs => ?_⟩
  constructor
  · intro hc
    exact h2 ((subperm_map (log_subperm hd hs)).subset hc)
  · intro w b hb
    have key : (↑(b.map (resOf job)) : Multiset (Idx × V)) ≤ hold job (s.workers w) := by
      unfold hold
      rcases hb with hb | hb
      · refine le_trans (le_trans ?_ (Multiset.le_add_right _ _)) (Multiset.le_add_right _ _)
        exact List.single_le_sum (l := (s.workers w).inbox.map (msgHold job)) (fun _ _ => Multiset.zero_le _) _
          (List.mem_map.mpr ⟨Msg.batch b, hb, rfl⟩)
      · rw [hb]
        exact le_trans (Multiset.le_add_left _ _) (Multiset.le_add_right _ _)
    rcases reach_cases hd hs with ⟨_, hi, _⟩ | ⟨_, _, hst, _⟩ | ⟨_, _, rfl⟩
    · intro hc
      apply h2
      have hle : (↑(b.map (resOf job)) : Multiset (Idx × V)) ≤ pend job (toProcess job (some t)) 0 := by
        rw [← hi.all]
        refine le_trans (le_trans key ?_) (le_trans (Multiset.le_add_right _ _) (Multiset.le_add_right _ _))
        refine le_trans ?_ (Multiset.le_add_left _ _)
        exact Finset.single_le_sum (f := fun w => hold job (s.workers w)) (fun _ _ => Multiset.zero_le _)
          (Finset.mem_univ w)
      rw [pend_cast, Multiset.coe_le] at hle
      obtain ⟨y, hy, hye⟩ := List.mem_map.mp hc
      exact List.mem_map.mpr ⟨resOf job y, hle.subset (List.mem_map_of_mem hy), hye⟩
    · have hsh : Ended (s.workers w) ∨ s.workers w = freshWorker := by
        rcases hst.ctl with ⟨_, g⟩ | ⟨k, _, g⟩
        · exact Or.inl (g w)
        · by_cases hk : w.val < k
          · exact Or.inl ((g w).1 hk)
          · exact Or.inr ((g w).2 (by omega))
      exfalso
      generalize s.workers w = wk at hb hsh
      rcases hsh with hsh | rfl
      · cases hsh <;> simp at hb
      · simp [freshWorker] at hb
    · simp [freshWorker] at hb

/-- C51, the missing part is false of the code: the checkpoint file is written in place, so there is a crash point inside
the write after which every restart, of whatever job, raises. -/
theorem C51_write_violation (t : List (Idx × V)) :
    ∃ fs ∈ writeStates t, ∀ job : Job Idx P V, (startRun job fs).isOk = false :=
  ⟨.truncated, by simp [writeStates], fun _ => rfl⟩

-- a run killed after the first checkpoint and resumed
example : KilledRuns demo none (some [(4, 14), (7, 27)]) :=
  .more (.none _) (.serial none 2)
example : (toProcess demo (some [(4, 14), (7, 27)])).map (fun it => it.2.1) = [9] := by decide

/-! ## C52 -/

/-- C52, with workers: at every point of every run the recorded results that are not in the checkpoint are the last ones,
fewer than `k`; and what is in the checkpoint is right. -/
theorem C52_bounded_loss (hd : (job.rows.map Prod.fst).Nodup) (hf : Correct job file) {k : ℤ}
    (hk : job.saveEvery = some k) (hk1 : 1 ≤ k) {sched : List (Label W)} {s : Sys Idx P V W}
    (h : mpiRun job file W bs sched = some s) :
    (∃ saved lost, s.log = saved ++ lost ∧ (lost.length : ℤ) < k ∧ ∀ x ∈ saved, x ∈ s.store.file.getD []) ∧
    Correct job s.store.file := by
  have hd' : Distinct job := hd
  refine ⟨?_, correct_killed hd hf (.mpi file W bs sched s h)⟩
  have hsub := log_subperm hd' h
  have hidx := res_idx job file hsub
  have hgood : Good job (file.getD [] ++ s.log) := Good.append hf (good_results hd' hsub)
  obtain ⟨h1, h2, h3⟩ := recordAll_file hd' file s.log hidx
  have hdue0 : due job 0 = false := by simp [due, hk]; omega
  simp only [hdue0, Bool.and_false] at h3
  have hlt : ((recordAll job s.log (initialStore job file)).since : ℤ) < k := by
    simp only [due, hk, Bool.and_eq_false_iff, decide_eq_false_iff_not, not_not, not_le] at h3
    rcases h3 with h3 | h3
    · omega
    · exact h3
  rcases reach_store hd' h with hst | ⟨hdone, hst⟩
  · rw [hst]
    revert h1 h2 hlt
    generalize recordAll job s.log (initialStore job file) = st
    intro h1 h2 hlt
    refine ⟨s.log.take (s.log.length - st.since), s.log.drop (s.log.length - st.since),
      (List.take_append_drop _ _).symm, ?_, ?_⟩
    · rw [List.length_drop]; omega
    · intro x hx
      rcases h2 with h2 | ⟨h2, _⟩
      · rw [h2]
        have hg : Good job (file.getD [] ++ s.log.take (s.log.length - st.since)) := by
          intro y hy
          refine hgood y ?_
          rcases List.mem_append.mp hy with hy | hy
          · exact List.mem_append_left _ hy
          · exact List.mem_append_right _ (List.mem_of_mem_take hy)
        exact (mem_valid_held hd' hg).mpr ⟨List.mem_append_right _ hx, hidx x (List.mem_of_mem_take hx)⟩
      · rw [h2, Nat.sub_self, List.take_zero] at hx; cases hx
  · refine ⟨s.log, [], by simp, by simpa using by omega, ?_⟩
    intro x hx
    have hne : s.log ≠ [] := List.ne_nil_of_mem hx
    have hff := final_file (file := file) hd' s.log hidx hne
    rw [hst, hff, hk]
    simp only [show k ≠ 0 by omega, if_false]
    exact (mem_valid_held hd' hgood).mpr ⟨List.mem_append_right _ hx, hidx x hx⟩

/-- C52, in flight: a worker holds at most one batch of results the master has not seen, so with `W` workers a crash loses
at most `W · bs` results beyond those of `C52_bounded_loss`. -/
theorem C52_in_flight (hd : (job.rows.map Prod.fst).Nodup) {sched : List (Label W)} {s : Sys Idx P V W}
    (h : mpiRun job file W bs sched = some s) (w : Fin W) :
    ((s.workers w).outbox.map List.length).sum ≤ bs := by
  have key : s.workers w = freshWorker ∨ Busy bs (s.workers w) ∨ Ended (s.workers w) := by
    rcases reach_cases hd h with ⟨_, hi, _⟩ | ⟨_, _, hs, _⟩ | ⟨_, _, rfl⟩
    · rcases hi.shape w with ⟨_, g⟩ | ⟨_, g | ⟨g, _⟩⟩
      · exact Or.inl g
      · exact Or.inr (Or.inl g)
      · exact Or.inr (Or.inr g)
    · rcases hs.ctl with ⟨_, g⟩ | ⟨k, _, g⟩
      · exact Or.inr (Or.inr (g w))
      · by_cases hk : w.val < k
        · exact Or.inr (Or.inr ((g w).1 hk))
        · exact Or.inl ((g w).2 (by omega))
    · exact Or.inl rfl
  generalize s.workers w = wk at key
  rcases key with rfl | g | g
  · simp [freshWorker]
  · cases g with
    | told => simp
    | computing => simp
    | replied b _ hl => simpa using hl
  · cases g <;> simp

/-- C52, serial run: killed after any number `j` of samples, all but the last fewer than `k` results are in the
checkpoint, and what is in it is right. -/
theorem C52_bounded_loss_serial (hd : (job.rows.map Prod.fst).Nodup) (hf : Correct job file) {k : ℤ}
    (hk : job.saveEvery = some k) (hk1 : 1 ≤ k) (j : ℕ) (hj : j ≤ (toProcess job file).length) :
    let s := serialLoop job ((toProcess job file).take j) (initialStore job file)
    (∃ m ≤ j, (j : ℤ) - m < k ∧ ∀ it ∈ (toProcess job file).take m,
        (it.2.1, job.value it.2.1 it.2.2) ∈ s.file.getD []) ∧
    Correct job s.file := by
  have hd' : Distinct job := hd
  refine ⟨?_, correct_killed hd hf (.serial file j)⟩
  have hl : ∀ it ∈ (toProcess job file).take j, job.rows[it.1]? = some it.2 :=
    fun it hi => (mem_toProcess.mp (List.mem_of_mem_take hi)).1
  have hsub : (((toProcess job file).take j).map fun it => resOf job it.2).Subperm
      ((toProcess job file).map fun it => resOf job it.2) := ((List.take_sublist _ _).map _).subperm
  have he := serialLoop_eq hd' _ hl (initialStore job file)
  have hidx := res_idx job file hsub
  obtain ⟨h1, h2, h3⟩ := recordAll_file hd' file _ hidx
  have hgood : Good job (file.getD [] ++ ((toProcess job file).take j).map fun it => resOf job it.2) :=
    Good.append hf (good_results hd' hsub)
  have hdue0 : due job 0 = false := by simp [due, hk]; omega
  simp only [hdue0, Bool.and_false] at h3
  rw [he]
  change ∃ m ≤ j, (j : ℤ) - m < k ∧ ∀ it ∈ (toProcess job file).take m, resOf job it.2 ∈
    (recordAll job (((toProcess job file).take j).map fun it => resOf job it.2) (initialStore job file)).file.getD []
  revert h1 h2 h3
  generalize recordAll job (((toProcess job file).take j).map fun it => resOf job it.2) (initialStore job file) = st
  intro h1 h2 h3
  simp only [List.length_map, List.length_take] at h1 h2
  rw [Nat.min_eq_left hj] at h1 h2
  have hlt : (st.since : ℤ) < k := by
    simp only [due, hk, Bool.and_eq_false_iff, decide_eq_false_iff_not, not_not, not_le] at h3
    rcases h3 with h3 | h3
    · omega
    · exact h3
  refine ⟨j - st.since, by omega, by omega, fun it hi => ?_⟩
  rcases h2 with h2 | ⟨h2, _⟩
  · rw [h2, ← List.map_take, List.take_take, Nat.min_eq_left (by omega)]
    have hg : Good job (file.getD [] ++ ((toProcess job file).take (j - st.since)).map fun it => resOf job it.2) := by
      intro y hy
      refine hgood y ?_
      rcases List.mem_append.mp hy with hy | hy
      · exact List.mem_append_left _ hy
      · refine List.mem_append_right _ ?_
        obtain ⟨z, hz, rfl⟩ := List.mem_map.mp hy
        refine List.mem_map.mpr ⟨z, ?_, rfl⟩
        have : (toProcess job file).take (j - st.since) = ((toProcess job file).take j).take (j - st.since) := by
          rw [List.take_take, Nat.min_eq_left (by omega)]
        rw [this] at hz
        exact List.mem_of_mem_take hz
    exact (mem_valid_held hd' hg).mpr ⟨List.mem_append_right _ (List.mem_map.mpr ⟨it, hi, rfl⟩),
      toProcess_idx job file it (List.mem_of_mem_take hi)⟩
  · rw [h2, Nat.sub_self, List.take_zero] at hi; cases hi

example : demo.saveEvery = some 2 ∧ (serialLoop demo ((toProcess demo none).take 3) (initialStore demo none)).file =
    some [(4, 14), (7, 27)] := by decide +kernel

/-! ## C53 -/

/-- C53, what holds (`_partial`: the same selection): in a sequence of runs of the same job, killed anywhere, an entry of
the checkpoint is never lost. -/
theorem C53_same_selection_partial (hd : (job.rows.map Prod.fst).Nodup) {f f' : Option (List (Idx × V))}
    (h : KilledRuns job none f) (h' : KilledRuns job f f') : ∀ x ∈ f.getD [], x ∈ f'.getD [] := by
  have hd' : Distinct job := hd
  have hnone : Correct job (none : Option (List (Idx × V))) := by intro x hx; cases hx
  -- every entry is of a selected sample
  have step : ∀ {g g' : Option (List (Idx × V))}, Correct job g → (∀ x ∈ g.getD [], x.1 ∈ job.rows.map Prod.fst) →
      KilledRun job g g' → (∀ x ∈ g'.getD [], x.1 ∈ job.rows.map Prod.fst) ∧ ∀ x ∈ g.getD [], x ∈ g'.getD [] := by
    intro g g' hg hsel hk
    rcases killed_file hd' hk with rfl | ⟨l, hl, rfl⟩
    · exact ⟨hsel, fun x hx => hx⟩
    · have hgood : Good job (g.getD [] ++ l) := Good.append hg (good_results hd' hl)
      refine ⟨fun x hx => ((mem_valid_held hd' hgood).mp hx).2, fun x hx => ?_⟩
      exact (mem_valid_held hd' hgood).mpr ⟨List.mem_append_left _ hx, hsel x hx⟩
  have hsel : ∀ x ∈ f.getD [], x.1 ∈ job.rows.map Prod.fst := by
    have hgen : ∀ {a b : Option (List (Idx × V))}, KilledRuns job a b → Correct job a →
        (∀ x ∈ a.getD [], x.1 ∈ job.rows.map Prod.fst) → ∀ x ∈ b.getD [], x.1 ∈ job.rows.map Prod.fst := by
      intro a b hab ha hs
      induction hab with
      | none => exact hs
      | more h1 h2 ih => exact (step (correct_killeds hd' ha h1) ih h2).1
    exact hgen h hnone (by intro x hx; cases hx)
  have hf := correct_killeds hd' hnone h
  suffices hh : (∀ x ∈ f'.getD [], x.1 ∈ job.rows.map Prod.fst) ∧ ∀ x ∈ f.getD [], x ∈ f'.getD [] from hh.2
  induction h' with
  | none => exact ⟨hsel, fun x hx => hx⟩
  | more h1 h2 ih =>
    obtain ⟨i1, i2⟩ := ih
    obtain ⟨j1, j2⟩ := step (correct_killeds hd' hf h1) i1 h2
    exact ⟨j1, fun x hx => j2 x (i2 x hx)⟩

/-- C53 is false of the code when the selection changes: a run that checkpoints and has something to do drops every
earlier entry whose sample it was not asked for. -/
theorem C53_other_selection_violation (hd : (job.rows.map Prod.fst).Nodup) {t : List (Idx × V)} {x : Idx × V}
    (hx : x ∈ t) (hsel : x.1 ∉ job.rows.map Prod.fst) {k : ℤ} (hk : job.saveEvery = some k) (hk0 : k ≠ 0)
    (hwork : toProcess job (some t) ≠ []) : ∃ t', (serialRun job (some t)).1.file = some t' ∧ x ∈ t ∧ x ∉ t' := by
  have hd' : Distinct job := hd
  have hne : ((toProcess job (some t)).map fun it => resOf job it.2) ≠ [] := by simpa using hwork
  have := final_file (file := some t) hd' _ (res_idx job (some t) (List.Subperm.refl _)) hne
  rw [serialRun_eq hd']
  simp only [this, hk, hk0, if_false]
  refine ⟨_, rfl, hx, fun hc => ?_⟩
  exact hsel ((mem_valid_held' hd').mp hc).2

example : (serialRun demo (some [(1, 5)])).1.file = some [(4, 14), (7, 27), (9, 39)] := by decide +kernel

/-! ## C54 -/

/-- C54, selecting rows: the requested samples, in the requested order, each once per occurrence in the posterior; with
distinct labels in the posterior one row per requested sample. -/
theorem C54_selection (posterior : List (Idx × P)) (hp : (posterior.map Prod.fst).Nodup) (samples : List Idx)
    (hs : ∀ i ∈ samples, i ∈ posterior.map Prod.fst) :
    ∃ rows, selectRows posterior (some samples) = .ok rows ∧ rows.map Prod.fst = samples ∧
      ∀ r ∈ rows, r ∈ posterior := by
  have hall : samples.all (fun i => decide (i ∈ posterior.map Prod.fst)) = true := by
    rw [List.all_eq_true]; intro i hi; exact decide_eq_true (hs i hi)
  refine ⟨samples.flatMap fun i => posterior.filter fun r => r.1 = i, ?_, ?_, ?_⟩
  · unfold selectRows
    simp only [Option.getD_some, hall, if_true]
  · rw [List.map_flatMap]
    have : ∀ i ∈ samples, (posterior.filter fun r => r.1 = i).map Prod.fst = [i] := by
      intro i hi
      obtain ⟨r, hr, he⟩ := List.mem_map.mp (hs i hi)
      have hm := mergeRow_of_mem (P := Unit) hp (r := (i, ())) (v := r.2) (by rw [← he]; exact hr)
      unfold mergeRow at hm
      simp only at hm
      split at hm
      · cases hm
      · rename_i hfl
        have hall : ∀ y ∈ posterior.filter fun r => r.1 = i, y.1 = i := by
          intro y hy; simpa using (List.mem_filter.mp hy).2
        have hlen := congrArg List.length hm
        simp only [List.length_map, List.length_singleton] at hlen
        obtain ⟨a, ha⟩ := List.length_eq_one_iff.mp hlen
        rw [ha] at hall ⊢
        simp [hall a (by simp)]
    rw [List.flatMap_congr this]
    simp
  · intro r hr
    obtain ⟨i, _, hi⟩ := List.mem_flatMap.mp hr
    exact (List.mem_filter.mp hi).1

/-- C54, the final table: distinct samples, started on any correct checkpoint (in particular on none): exactly one row per
requested sample, in the requested order, with that sample's value (`_partial`: samples requested twice, see
`C54_duplicates_violation`). -/
theorem C54_table_partial (hd : (job.rows.map Prod.fst).Nodup) (hr : job.rows ≠ []) (hf : Correct job file) :
    (serialRun job file).2 = .ok (job.rows.map fun r => (r.1, r.2, some (job.value r.1 r.2))) := by
  rw [serialRun_table hd hf, if_neg hr]
  rfl

/-- C54, nothing selected: no table is written, the run raises `KeyError`. -/
theorem C54_empty (hr : job.rows = []) : (serialRun job file).2 = .error .keyError := by
  have hd : Distinct job := by unfold Distinct; rw [hr]; exact List.nodup_nil
  rw [serialRun_eq hd]
  simp only [lastCheckpoint_results, recordAll_results]
  exact saveFinal_empty hr _

example : Correct demo (some [(4, 14), (1, 5)]) ∧ demo.rows ≠ [] := by
  refine ⟨?_, by decide⟩
  intro x hx p hp
  simp only [Option.getD_some, List.mem_cons, List.not_mem_nil, or_false] at hx
  rcases hx with rfl | rfl <;> simp_all [demo]
example : (serialRun demo (some [(4, 14), (1, 5)])).2 =
    .ok [(4, 10, some 14), (7, 20, some 27), (9, 30, some 39)] := by rfl

theorem serialLoop_fresh (rows : List (Idx × P)) : ∀ (done : List (Option (Idx × V))) (s : Store Idx V),
    s.results = done ++ List.replicate rows.length none →
    (serialLoop job ((rows.zipIdx done.length).map fun r => (r.2, r.1.1, r.1.2)) s).results
      = done ++ rows.map fun r => some (r.1, job.value r.1 r.2) := by
  induction rows with
  | nil => intro done s h; exact h
  | cons r rows ih =>
    intro done s h
    have := ih (done ++ [some (r.1, job.value r.1 r.2)]) (record job done.length (r.1, job.value r.1 r.2) s) (by
      rw [record_results, h, List.length_cons, List.replicate_succ, List.set_append_right _ _ le_rfl, Nat.sub_self, List.set_cons_zero,
        List.append_assoc]
      rfl)
    rw [List.length_append, List.length_singleton] at this
    rw [List.append_assoc] at this
    exact this

/-- A serial run without checkpoint, whatever the samples are: each row of the posterior meets all results with its label. -/
theorem serialRun_fresh (hr : job.rows ≠ []) :
    (serialRun job none).2 = .ok (job.rows.flatMap (mergeRow (job.rows.map fun r => (r.1, job.value r.1 r.2)))) := by
  have hit : toProcess job none = job.rows.zipIdx.map fun r => (r.2, r.1.1, r.1.2) := by
    unfold toProcess processed
    rw [List.filter_eq_self]
    intro a _
    simp
  have hres := serialLoop_fresh (job := job) job.rows [] (initialStore job none) rfl
  rw [List.length_nil, List.nil_append] at hres
  unfold serialRun
  rw [hit]
  have hne : (job.rows.zipIdx.map fun r => (r.2, r.1.1, r.1.2)) ≠ [] := by
    intro h
    have := congrArg List.length h
    simp at this
    exact hr this
  have hv : valid (job.rows.map fun r => some (r.1, job.value r.1 r.2)) = job.rows.map fun r => (r.1, job.value r.1 r.2) := by
    unfold valid
    rw [List.filterMap_map]
    show job.rows.filterMap (fun r => some (r.1, job.value r.1 r.2)) = _
    rw [List.filterMap_eq_map']
  have fin : ∀ results, results = (job.rows.map fun r => some (r.1, job.value r.1 r.2)) →
      saveFinal job results = .ok (job.rows.flatMap (mergeRow (job.rows.map fun r => (r.1, job.value r.1 r.2)))) := by
    intro results h
    unfold saveFinal
    rw [h, hv]
    have : (job.rows.map fun r => (r.1, job.value r.1 r.2)) ≠ [] := by simpa using hr
    split
    · next h => exact absurd h this
    · rfl
  dsimp only
  split
  · next h => exact absurd h hne
  · refine fin _ ?_
    rw [lastCheckpoint_results]
    exact hres

/-- C54 is false of the code for a sample requested more than once: a sample requested `n` times fills `n²` rows of the
serial table. -/
theorem C54_duplicates_violation (hr : job.rows ≠ []) (i : Idx) :
    ∃ t, (serialRun job none).2 = .ok t ∧
      (t.filter fun r => r.1 = i).length = (job.rows.filter fun r => r.1 = i).length ^ 2 := by
  refine ⟨_, serialRun_fresh hr, ?_⟩
  generalize hc : job.rows.map (fun r => (r.1, job.value r.1 r.2)) = T
  have hlen : (T.filter fun x => x.1 = i).length = (job.rows.filter fun r => r.1 = i).length := by
    rw [← hc, List.filter_map, List.length_map]
    rfl
  have key : ∀ rows : List (Idx × P), (∀ r ∈ rows, r ∈ job.rows) →
      ((rows.flatMap (mergeRow T)).filter fun r => r.1 = i).length
        = (rows.filter fun r => r.1 = i).length * (job.rows.filter fun r => r.1 = i).length := by
    intro rows
    induction rows with
    | nil => intro _; simp
    | cons r rows ih =>
      intro hsub
      rw [List.flatMap_cons, List.filter_append, List.length_append, ih fun x hx => hsub x (List.mem_cons_of_mem _ hx)]
      have hlab : ∀ x ∈ mergeRow T r, x.1 = r.1 := by
        intro x hx
        unfold mergeRow at hx
        split at hx
        · simp at hx; rw [hx]
        · obtain ⟨y, _, rfl⟩ := List.mem_map.mp hx
          rfl
      by_cases hri : r.1 = i
      · have e1 : ((mergeRow T r).filter fun x => x.1 = i) = mergeRow T r := by
          rw [List.filter_eq_self]
          intro x hx
          rw [hlab x hx, hri]
          simp
        have e2 : (mergeRow T r).length = (T.filter fun x => x.1 = i).length := by
          have hmem : (r.1, job.value r.1 r.2) ∈ T.filter fun x => x.1 = r.1 := by
            rw [List.mem_filter, ← hc]
            exact ⟨List.mem_map.mpr ⟨r, hsub r List.mem_cons_self, rfl⟩, by simp⟩
          unfold mergeRow
          split
          · next h => rw [h] at hmem; cases hmem
          · rw [List.length_map, hri]
        rw [e1, e2, hlen, List.filter_cons_of_pos (by simpa using hri), List.length_cons]
        rw [Nat.add_mul, Nat.one_mul, Nat.add_comm]
      · have e1 : ((mergeRow T r).filter fun x => x.1 = i) = [] := by
          rw [List.filter_eq_nil_iff]
          intro x hx
          rw [hlab x hx]
          simpa using hri
        rw [e1, List.filter_cons_of_neg (by simpa using hri)]
        simp
  rw [key job.rows (fun r h => h), Nat.pow_two]

example : (serialRun (⟨[(4, 10), (4, 10), (4, 10), (7, 20)], fun i p => i + p, none⟩ : Job ℕ ℕ ℕ) none).2
    = .ok (List.replicate 9 (4, 10, some 14) ++ [(7, 20, some 27)]) := by rfl

end GwEcc.Mpi
