import Verif.Model.Mpi
import Verif.Lemmas.Dict
import Mathlib.Data.List.Nodup
import Mathlib.Data.List.Induction

/-!
# Lemmas on the master's store
-/

set_option linter.unusedSectionVars false

namespace GwEcc.Dict

variable {κ V : Type} [DecidableEq κ]

theorem get?_eq_some_of_nodup {d : Dict κ V} (h : (d.map Prod.fst).Nodup) {k : κ} {v : V} :
    Dict.get? d k = some v ↔ (k, v) ∈ d := by
  induction d with
  | nil => simp
  | cons p d ih =>
    obtain ⟨k', v'⟩ := p
    simp only [List.map_cons, List.nodup_cons] at h
    rw [get?_cons]
    by_cases hk : k = k'
    · subst hk
      simp only [if_true, List.mem_cons, Prod.mk.injEq, true_and, Option.some.injEq]
      constructor
      · rintro rfl; exact Or.inl rfl
      · rintro (rfl | hmem)
        · rfl
        · exact absurd (List.mem_map_of_mem (f := Prod.fst) hmem) h.1
    · simp only [hk, if_false, List.mem_cons, Prod.mk.injEq]
      rw [ih h.2]
      constructor
      · exact Or.inr
      · rintro (⟨h', -⟩ | hmem)
        · exact h'.elim
        · exact hmem

theorem get?_mem {d : Dict κ V} {k : κ} {v : V} (h : Dict.get? d k = some v) : (k, v) ∈ d := by
  induction d with
  | nil => simp at h
  | cons p d ih =>
    rw [get?_cons] at h
    split at h
    · next hk =>
      injection h with h
      subst h; subst hk
      simp
    · exact List.mem_cons_of_mem _ (ih h)

theorem get?_foldl_set (l d : Dict κ V) (k : κ) :
    Dict.get? (l.foldl (fun d p => Dict.set d p.1 p.2) d) k = (Dict.get? l.reverse k).or (Dict.get? d k) := by
  induction l generalizing d with
  | nil => simp
  | cons p l ih =>
    simp only [List.foldl_cons, List.reverse_cons]
    rw [ih, get?_set, get?_append]
    rw [get?_cons]
    by_cases hk : k = p.1
    · subst hk; cases Dict.get? l.reverse p.1 <;> simp
    · simp only [hk, if_false]
      cases Dict.get? l.reverse k <;> simp

end GwEcc.Dict

namespace GwEcc.Mpi

variable {Idx P V : Type} [DecidableEq Idx]

theorem posMap_get? {l : List Idx} (h : l.Nodup) {i : Idx} {pos : ℕ} :
    Dict.get? (posMap l) i = some pos ↔ l[pos]? = some i := by
  unfold posMap
  rw [Dict.get?_foldl_set]
  simp only [Dict.get?_nil, Option.or_none]
  rw [Dict.get?_eq_some_of_nodup]
  · rw [List.mem_reverse, List.mem_zipIdx_iff_getElem?]
  · rw [List.map_reverse, List.nodup_reverse, List.zipIdx_map_fst]
    exact h

/-- The results in memory after the rows `t` have been entered. -/
def held (job : Job Idx P V) (t : List (Idx × V)) : List (Option (Idx × V)) :=
  t.foldl (loadRow (posMap (job.rows.map Prod.fst))) (List.replicate job.rows.length none)

/-- The selected samples are distinct. -/
def Distinct (job : Job Idx P V) : Prop := (job.rows.map Prod.fst).Nodup

theorem length_loadRow (pm : Dict Idx ℕ) (res : List (Option (Idx × V))) (row : Idx × V) :
    (loadRow pm res row).length = res.length := by
  unfold loadRow; split <;> simp

theorem length_held (job : Job Idx P V) (t : List (Idx × V)) : (held job t).length = job.rows.length := by
  unfold held
  induction t using List.reverseRecOn with
  | nil => simp
  | append_singleton t r ih => rw [List.foldl_append]; simp [length_loadRow, ih]

theorem held_append (job : Job Idx P V) (t : List (Idx × V)) (r : Idx × V) :
    held job (t ++ [r]) = loadRow (posMap (job.rows.map Prod.fst)) (held job t) r := by
  unfold held; rw [List.foldl_append]; rfl

theorem initialResults_eq (job : Job Idx P V) (file : Option (List (Idx × V))) :
    initialResults job file = held job (file.getD []) := by
  unfold initialResults held
  cases file <;> rfl

/-- What is in memory: for each selected sample the last row entered for it. -/
theorem held_eq {job : Job Idx P V} (hd : Distinct job) (t : List (Idx × V)) :
    held job t = job.rows.map fun r => (Dict.get? t.reverse r.1).map (Prod.mk r.1) := by
  induction t using List.reverseRecOn with
  | nil =>
    unfold held
    simp only [List.foldl_nil, List.reverse_nil, Dict.get?_nil, Option.map_none]
    rw [List.map_const']
  | append_singleton t x ih =>
    rw [held_append, ih]
    unfold loadRow
    simp only [List.reverse_append, List.reverse_cons, List.reverse_nil, List.nil_append, List.singleton_append]
    cases hp : Dict.get? (posMap (job.rows.map Prod.fst)) x.1 with
    | none =>
      simp only
      refine List.map_congr_left fun r hr => ?_
      rw [Dict.get?_cons]
      have : ¬ r.1 = x.1 := by
        intro he
        obtain ⟨n, hn, hget⟩ := List.getElem_of_mem (List.mem_map_of_mem (f := Prod.fst) hr)
        have h2 : (job.rows.map Prod.fst)[n]? = some x.1 := by
          rw [List.getElem?_eq_getElem hn, hget, he]
        rw [← posMap_get? hd, hp] at h2
        cases h2
      rw [if_neg this]
    | some pos =>
      simp only
      have hpos := (posMap_get? hd).mp hp
      apply List.ext_getElem?
      intro i
      rw [List.getElem?_set]
      simp only [List.length_map, List.getElem?_map]
      rw [List.getElem?_map] at hpos
      obtain ⟨r0, hr0, hx⟩ := Option.map_eq_some_iff.mp hpos
      by_cases hi : pos = i
      · subst hi
        have hlt : pos < job.rows.length := by
          rw [List.getElem?_eq_some_iff] at hr0; exact hr0.1
        simp only [hlt, if_true, hr0, Option.map_some, Dict.get?_cons]
        rw [if_pos hx]
        simp [hx]
      · simp only [hi, if_false]
        cases hri : job.rows[i]? with
        | none => simp
        | some r =>
          simp only [Option.map_some, Dict.get?_cons]
          have hne : ¬ r.1 = x.1 := by
            intro he
            apply hi
            have hlt : i < (job.rows.map Prod.fst).length := by
              rw [List.getElem?_eq_some_iff] at hri
              simpa using hri.1
            refine (List.getElem?_inj (l := job.rows.map Prod.fst) ?_ hd).mp ?_
            · simp only [List.length_map]
              rw [List.getElem?_eq_some_iff] at hr0; exact hr0.1
            · rw [List.getElem?_map, List.getElem?_map, hr0, hri]
              simp [hx, he]
          rw [if_neg hne]

/-- Every row entered for a selected sample carries the value of that sample. -/
def Good (job : Job Idx P V) (t : List (Idx × V)) : Prop :=
  ∀ x ∈ t, ∀ p, (x.1, p) ∈ job.rows → x.2 = job.value x.1 p

theorem mem_valid {res : List (Option (Idx × V))} {x : Idx × V} : x ∈ valid res ↔ some x ∈ res := by
  unfold valid; simp

theorem Good.get? {job : Job Idx P V} {t : List (Idx × V)} (hg : Good job t) {r : Idx × P} (hr : r ∈ job.rows) {v : V}
    (h : Dict.get? t.reverse r.1 = some v) : v = job.value r.1 r.2 := by
  have := Dict.get?_mem h
  rw [List.mem_reverse] at this
  exact hg _ this r.2 hr

theorem mem_valid_held {job : Job Idx P V} (hd : Distinct job) {t : List (Idx × V)} (hg : Good job t) {x : Idx × V} :
    x ∈ valid (held job t) ↔ x ∈ t ∧ x.1 ∈ job.rows.map Prod.fst := by
  rw [mem_valid, held_eq hd, List.mem_map]
  constructor
  · rintro ⟨r, hr, h⟩
    obtain ⟨v, hv, rfl⟩ := Option.map_eq_some_iff.mp h
    exact ⟨List.mem_reverse.mp (Dict.get?_mem hv), List.mem_map_of_mem hr⟩
  · rintro ⟨hx, hm⟩
    obtain ⟨r, hr, he⟩ := List.mem_map.mp hm
    refine ⟨r, hr, ?_⟩
    cases hv : Dict.get? t.reverse r.1 with
    | none =>
      rw [Dict.get?_none_iff] at hv
      exfalso; apply hv
      unfold Dict.keys
      rw [List.map_reverse, List.mem_reverse, he]
      exact List.mem_map_of_mem hx
    | some v =>
      have h1 := hg.get? hr hv
      have h2 := hg x hx r.2 (by rw [← he]; exact hr)
      simp only [Option.map_some, Option.some.injEq]
      rw [h1, he, ← h2]

/-- With a row for every selected sample, all the results are in memory. -/
theorem held_full {job : Job Idx P V} (hd : Distinct job) {t : List (Idx × V)} (hg : Good job t)
    (hall : ∀ r ∈ job.rows, r.1 ∈ t.map Prod.fst) :
    held job t = job.rows.map fun r => some (r.1, job.value r.1 r.2) := by
  rw [held_eq hd]
  refine List.map_congr_left fun r hr => ?_
  cases hv : Dict.get? t.reverse r.1 with
  | none =>
    rw [Dict.get?_none_iff] at hv
    exfalso; apply hv
    unfold Dict.keys
    rw [List.map_reverse, List.mem_reverse]
    exact hall r hr
  | some v => rw [hg.get? hr hv]; rfl

/-! ## Recording results -/

/-- The master's loops: each result is entered at the position of its sample. -/
def recordAll (job : Job Idx P V) (l : List (Idx × V)) (s : Store Idx V) : Store Idx V :=
  l.foldl (fun s r => match Dict.get? (posMap (job.rows.map Prod.fst)) r.1 with
    | none => s
    | some pos => record job pos r s) s

theorem recordAll_append (job : Job Idx P V) (l : List (Idx × V)) (r : Idx × V) (s : Store Idx V) :
    recordAll job (l ++ [r]) s = match Dict.get? (posMap (job.rows.map Prod.fst)) r.1 with
    | none => recordAll job l s
    | some pos => record job pos r (recordAll job l s) := by
  unfold recordAll; rw [List.foldl_append]; rfl

theorem record_results (job : Job Idx P V) (pos : ℕ) (r : Idx × V) (s : Store Idx V) :
    (record job pos r s).results = s.results.set pos (some r) := by
  unfold record saveCheckpoint; simp only; split <;> rfl

theorem posMap_isSome {job : Job Idx P V} (hd : Distinct job) {i : Idx} (h : i ∈ job.rows.map Prod.fst) :
    ∃ pos, Dict.get? (posMap (job.rows.map Prod.fst)) i = some pos := by
  obtain ⟨n, hn, hget⟩ := List.getElem_of_mem h
  exact ⟨n, (posMap_get? hd).mpr (by rw [List.getElem?_eq_getElem hn, hget])⟩

theorem recordAll_results (job : Job Idx P V) (file : Option (List (Idx × V))) (l : List (Idx × V)) :
    (recordAll job l (initialStore job file)).results = held job (file.getD [] ++ l) := by
  induction l using List.reverseRecOn with
  | nil => simp [recordAll, initialStore, initialResults_eq]
  | append_singleton l r ih =>
    rw [recordAll_append, ← List.append_assoc, held_append, ← ih]
    unfold loadRow
    cases Dict.get? (posMap (job.rows.map Prod.fst)) r.1 with
    | none => rfl
    | some pos => exact record_results job pos r _

/-- The checkpoint file at every moment: it is the one found at the start, or it holds what had been entered `since`
results ago; and a checkpoint is not overdue. -/
theorem recordAll_file {job : Job Idx P V} (hd : Distinct job) (file : Option (List (Idx × V))) (l : List (Idx × V))
    (hl : ∀ x ∈ l, x.1 ∈ job.rows.map Prod.fst) :
    let s := recordAll job l (initialStore job file)
    s.since ≤ l.length ∧
    (s.file = some (valid (held job (file.getD [] ++ l.take (l.length - s.since)))) ∨
      s.since = l.length ∧ s.file = file) ∧
    due job s.since = (decide (s.since = 0) && due job 0) := by
  induction l using List.reverseRecOn with
  | nil =>
    refine ⟨le_rfl, Or.inr ⟨rfl, rfl⟩, ?_⟩
    simp [recordAll, initialStore]
  | append_singleton l r ih =>
    obtain ⟨h1, h2, h3⟩ := ih (fun x hx => hl x (by simp [hx]))
    obtain ⟨pos, hpos⟩ := posMap_isSome hd (hl r (by simp))
    simp only at h1 h2 h3 ⊢
    have hres := recordAll_results job file l
    have hres' : ((recordAll job l (initialStore job file)).results.set pos (some r)) =
        held job (file.getD [] ++ (l ++ [r])) := by
      rw [hres, ← List.append_assoc, held_append]
      unfold loadRow; rw [hpos]
    rw [recordAll_append, hpos]
    simp only
    revert h1 h2 h3 hres'
    generalize recordAll job l (initialStore job file) = s
    intro h1 h2 h3 hres'
    unfold record saveCheckpoint
    simp only
    split
    · next hdue =>
      simp only
      refine ⟨Nat.zero_le _, Or.inl ?_, by simp⟩
      rw [hres', Nat.sub_zero, List.take_length]
    · next hdue =>
      simp only [List.length_append, List.length_singleton]
      refine ⟨by omega, ?_, ?_⟩
      · rcases h2 with h2 | ⟨h2, h2'⟩
        · left
          rw [h2]
          have e : l.length + 1 - (s.since + 1) = l.length - s.since := by omega
          rw [e, List.take_append_of_le_length (by omega)]
        · right; exact ⟨by omega, h2'⟩
      · simp only [Nat.succ_ne_zero, decide_false, Bool.false_and]
        simpa using hdue

/-- The serial loop enters the results of the pending items, in order. -/
theorem serialLoop_eq {job : Job Idx P V} (hd : Distinct job) (items : List (ℕ × Idx × P))
    (hi : ∀ it ∈ items, job.rows[it.1]? = some it.2) (s : Store Idx V) :
    serialLoop job items s = recordAll job (items.map fun it => (it.2.1, job.value it.2.1 it.2.2)) s := by
  unfold serialLoop recordAll
  induction items generalizing s with
  | nil => rfl
  | cons it items ih =>
    simp only [List.foldl_cons, List.map_cons]
    have h1 : Dict.get? (posMap (job.rows.map Prod.fst)) it.2.1 = some it.1 := by
      rw [posMap_get? hd, List.getElem?_map, hi it (by simp)]
      rfl
    rw [h1]
    exact ih (fun it' h => hi it' (List.mem_cons_of_mem _ h)) _

theorem mem_toProcess {job : Job Idx P V} {file : Option (List (Idx × V))} {it : ℕ × Idx × P} :
    it ∈ toProcess job file ↔ job.rows[it.1]? = some it.2 ∧ it.2.1 ∉ processed file := by
  unfold toProcess
  rw [List.mem_filter, List.mem_map]
  simp only [decide_eq_true_eq]
  constructor
  · rintro ⟨⟨r, hr, rfl⟩, h⟩
    have := List.mem_zipIdx_iff_getElem?.mp hr
    exact ⟨by simpa using this, h⟩
  · rintro ⟨h1, h2⟩
    refine ⟨⟨(it.2, it.1), List.mem_zipIdx_iff_getElem?.mpr h1, rfl⟩, h2⟩

theorem toProcess_nodup {job : Job Idx P V} (hd : Distinct job) (file : Option (List (Idx × V))) :
    ((toProcess job file).map fun it => it.2.1).Nodup := by
  have h1 : (toProcess job file).Sublist (job.rows.zipIdx.map fun r => (r.2, r.1.1, r.1.2)) := List.filter_sublist
  have h2 := h1.map (fun it => it.2.1)
  refine h2.nodup ?_
  rw [List.map_map]
  have : ((fun it : ℕ × Idx × P => it.2.1) ∘ fun r : (Idx × P) × ℕ => (r.2, r.1.1, r.1.2)) =
      Prod.fst ∘ Prod.fst := rfl
  rw [this, ← List.map_map, List.zipIdx_map_fst]
  exact hd

theorem processed_eq (file : Option (List (Idx × V))) : processed file = (file.getD []).map Prod.fst := by
  cases file <;> rfl

end GwEcc.Mpi
