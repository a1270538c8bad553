import Verif.Lemmas.MpiRuns
import Verif.Spec.Mpi

/-!
# The checkpoint after killed runs, and the final table
-/

set_option linter.unusedSectionVars false

namespace GwEcc.Mpi

variable {Idx P V : Type} [DecidableEq Idx] {W : ℕ}
variable {job : Job Idx P V} {file : Option (List (Idx × V))} {bs : ℕ}

theorem subperm_map {α β : Type} {f : α → β} {l l' : List α} (h : l.Subperm l') : (l.map f).Subperm (l'.map f) := by
  obtain ⟨k, hp, hs⟩ := h
  exact ⟨k.map f, hp.map f, hs.map f⟩

theorem recordAll_file_cases (hd : Distinct job) (l : List (Idx × V)) (hl : ∀ x ∈ l, x.1 ∈ job.rows.map Prod.fst) :
    (recordAll job l (initialStore job file)).file = file ∨
    ∃ l', l'.Subperm l ∧
      (recordAll job l (initialStore job file)).file = some (valid (held job (file.getD [] ++ l'))) := by
  obtain ⟨_, h2, _⟩ := recordAll_file hd file l hl
  rcases h2 with h2 | ⟨_, h2⟩
  · exact Or.inr ⟨_, (List.take_sublist _ _).subperm, h2⟩
  · exact Or.inl h2

theorem lastCheckpoint_file_cases (s : Store Idx V) :
    (lastCheckpoint job s).file = s.file ∨ (lastCheckpoint job s).file = some (valid s.results) := by
  unfold lastCheckpoint saveCheckpoint
  split
  · exact Or.inl rfl
  · split
    · exact Or.inr rfl
    · exact Or.inl rfl

theorem end_file_cases (hd : Distinct job) (l : List (Idx × V)) (hl : ∀ x ∈ l, x.1 ∈ job.rows.map Prod.fst) :
    (lastCheckpoint job (recordAll job l (initialStore job file))).file = file ∨
    ∃ l', l'.Subperm l ∧ (lastCheckpoint job (recordAll job l (initialStore job file))).file =
      some (valid (held job (file.getD [] ++ l'))) := by
  rcases lastCheckpoint_file_cases (job := job) (recordAll job l (initialStore job file)) with h | h
  · rw [h]; exact recordAll_file_cases hd l hl
  · right
    refine ⟨l, List.Subperm.refl _, ?_⟩
    rw [h, recordAll_results]

theorem res_idx (job : Job Idx P V) (file : Option (List (Idx × V))) {l : List (Idx × V)}
    (hl : l.Subperm ((toProcess job file).map fun it => resOf job it.2)) :
    ∀ x ∈ l, x.1 ∈ job.rows.map Prod.fst := by
  intro x hx
  obtain ⟨it, hi, rfl⟩ := List.mem_map.mp (hl.subset hx)
  exact toProcess_idx job file it hi

/-- The checkpoint a killed run leaves: the old one, or one written from the old entries and some new results. -/
theorem killed_file (hd : Distinct job) {f f' : Option (List (Idx × V))} (h : KilledRun job f f') :
    f' = f ∨ ∃ l, l.Subperm ((toProcess job f).map fun it => resOf job it.2) ∧
      f' = some (valid (held job (f.getD [] ++ l))) := by
  have trans : ∀ {g : Option (List (Idx × V))} {l : List (Idx × V)},
      l.Subperm ((toProcess job f).map fun it => resOf job it.2) →
      (g = f ∨ ∃ l', l'.Subperm l ∧ g = some (valid (held job (f.getD [] ++ l')))) →
      (g = f ∨ ∃ l, l.Subperm ((toProcess job f).map fun it => resOf job it.2) ∧
        g = some (valid (held job (f.getD [] ++ l)))) := by
    rintro g l hl (h | ⟨l', h1, h2⟩)
    · exact Or.inl h
    · exact Or.inr ⟨l', h1.trans hl, h2⟩
  cases h with
  | serial j =>
    have hl : ∀ it ∈ (toProcess job f).take j, job.rows[it.1]? = some it.2 :=
      fun it hi => (mem_toProcess.mp (List.mem_of_mem_take hi)).1
    have hsub : (((toProcess job f).take j).map fun it => resOf job it.2).Subperm
        ((toProcess job f).map fun it => resOf job it.2) := ((List.take_sublist _ _).map _).subperm
    rw [serialLoop_eq hd _ hl]
    exact trans hsub (recordAll_file_cases hd _ (res_idx job f hsub))
  | serialEnd =>
    rw [serialRun_eq hd]
    exact trans (List.Subperm.refl _) (end_file_cases hd _ (res_idx job f (List.Subperm.refl _)))
  | mpi W bs sched s hs =>
    have hsub := log_subperm hd hs
    rcases reach_store hd hs with h | ⟨_, h⟩
    · rw [h]; exact trans hsub (recordAll_file_cases hd _ (res_idx job f hsub))
    · rw [h]; exact trans hsub (end_file_cases hd _ (res_idx job f hsub))

theorem good_results (hd : Distinct job) {l : List (Idx × V)}
    (hl : l.Subperm ((toProcess job file).map fun it => resOf job it.2)) : Good job l := by
  intro x hx p hp
  obtain ⟨it, hi, rfl⟩ := List.mem_map.mp (hl.subset hx)
  have h1 := (mem_toProcess.mp hi).1
  have h2 : it.2 ∈ job.rows := List.mem_of_getElem? h1
  have : it.2 = (it.2.1, p) := List.inj_on_of_nodup_map hd h2 hp rfl
  unfold resOf
  simp only
  rw [show p = it.2.2 from (congrArg Prod.snd this).symm]

theorem Good.append {t l : List (Idx × V)} (ht : Good job t) (hl : Good job l) : Good job (t ++ l) := by
  intro x hx
  rcases List.mem_append.mp hx with h | h
  · exact ht x h
  · exact hl x h

theorem correct_killed (hd : Distinct job) {f f' : Option (List (Idx × V))} (hf : Correct job f)
    (h : KilledRun job f f') : Correct job f' := by
  rcases killed_file hd h with rfl | ⟨l, hl, rfl⟩
  · exact hf
  · have hg : Good job (f.getD [] ++ l) := Good.append hf (good_results hd hl)
    intro x hx
    exact hg x ((mem_valid_held hd hg).mp hx).1

theorem correct_killeds (hd : Distinct job) {f f' : Option (List (Idx × V))} (hf : Correct job f)
    (h : KilledRuns job f f') : Correct job f' := by
  induction h with
  | none => exact hf
  | more _ h' ih => exact correct_killed hd ih h'

/-- Everything is covered by the checkpoint and the pending samples. -/
theorem held_complete (hd : Distinct job) (hf : Correct job file) :
    held job (file.getD [] ++ (toProcess job file).map fun it => resOf job it.2) =
      job.rows.map fun r => some (r.1, job.value r.1 r.2) := by
  refine held_full hd (Good.append hf (good_results hd (List.Subperm.refl _))) fun r hr => ?_
  rw [List.map_append, List.mem_append]
  by_cases hp : r.1 ∈ processed file
  · rw [processed_eq] at hp; exact Or.inl hp
  · obtain ⟨it, hi, he⟩ := toProcess_of_mem hr hp
    right
    rw [List.map_map]
    exact List.mem_map.mpr ⟨it, hi, by simp [resOf, he]⟩

/-- One matching entry. -/
theorem mergeRow_of_mem {t : List (Idx × V)} (hn : (t.map Prod.fst).Nodup) {r : Idx × P} {v : V} (h : (r.1, v) ∈ t) :
    mergeRow t r = [(r.1, r.2, some v)] := by
  have : t.filter (fun x => x.1 = r.1) = [(r.1, v)] := by
    induction t with
    | nil => cases h
    | cons y t ih =>
      rw [List.map_cons, List.nodup_cons] at hn
      rcases List.mem_cons.mp h with h | h
      · subst h
        rw [List.filter_cons_of_pos (by simp)]
        congr 1
        rw [List.filter_eq_nil_iff]
        intro z hz
        simp only [decide_eq_true_eq]
        intro hz'
        exact hn.1 (hz' ▸ List.mem_map_of_mem hz)
      · rw [List.filter_cons_of_neg, ih hn.2 h]
        simp only [decide_eq_true_eq]
        intro he
        exact hn.1 (he ▸ List.mem_map_of_mem (f := Prod.fst) h)
  unfold mergeRow
  rw [this]
  rfl

theorem saveFinal_full (hd : Distinct job) (hr : job.rows ≠ []) :
    saveFinal job (job.rows.map fun r => some (r.1, job.value r.1 r.2)) = .ok (expectedTable job) := by
  have hv : valid (job.rows.map fun r => some (r.1, job.value r.1 r.2)) =
      job.rows.map fun r => (r.1, job.value r.1 r.2) := by
    unfold valid
    rw [List.filterMap_map]
    simp [Function.comp_def]
  have hne : (job.rows.map fun r => (r.1, job.value r.1 r.2)) ≠ [] := by simpa using hr
  unfold saveFinal
  rw [hv]
  have hn : ((job.rows.map fun r => (r.1, job.value r.1 r.2)).map Prod.fst).Nodup := by
    rw [List.map_map]; exact hd
  have hflat : job.rows.flatMap (mergeRow (job.rows.map fun r => (r.1, job.value r.1 r.2))) = expectedTable job := by
    unfold expectedTable
    rw [List.flatMap_congr (f := mergeRow (job.rows.map fun r => (r.1, job.value r.1 r.2)))
      (g := fun r => [(r.1, r.2, some (job.value r.1 r.2))])
      (fun r hr => mergeRow_of_mem hn (List.mem_map.mpr ⟨r, hr, rfl⟩))]
    rw [List.flatMap_eq_foldl, ← List.flatMap_eq_foldl]
    exact List.flatMap_pure_eq_map _ _
  split
  · next h => exact absurd h hne
  · rw [hflat]

theorem saveFinal_empty (hr : job.rows = []) (l : List (Idx × V)) : saveFinal job (held job l) = .error .keyError := by
  have hres : held job l = [] := by rw [← List.length_eq_zero_iff, length_held, hr]; rfl
  unfold saveFinal valid
  rw [hres]
  rfl

/-- The serial run started on a correct checkpoint. -/
theorem serialRun_table (hd : Distinct job) (hf : Correct job file) :
    (serialRun job file).2 = if job.rows = [] then .error .keyError else .ok (expectedTable job) := by
  rw [serialRun_eq hd]
  simp only [lastCheckpoint_results, recordAll_results]
  split
  · next h => exact saveFinal_empty h _
  · next h => rw [held_complete hd hf]; exact saveFinal_full hd h

end GwEcc.Mpi
