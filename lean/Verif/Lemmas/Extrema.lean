import Verif.Model.Extrema
import Verif.Spec.Extrema
import Verif.Lemmas.Utils

set_option linter.unusedSectionVars false

namespace GwEcc

open Spec

theorem ok_bind {α β : Type} (a : α) (f : α → Py β) : (Except.ok a >>= f) = f a := rfl
theorem err_bind {α β : Type} (e : Err) (f : α → Py β) : ((Except.error e : Py α) >>= f) = .error e := rfl
theorem pure_eq_ok {α : Type} (a : α) : (pure a : Py α) = .ok a := rfl

/-- inversion of a successful sequential composition -/
theorem bind_ok {α β : Type} {x : Py α} {f : α → Py β} {b : β} (h : (x >>= f) = .ok b) :
    ∃ a, x = .ok a ∧ f a = .ok b := by
  cases x with
  | error e => simp [bind, Except.bind] at h
  | ok a => exact ⟨a, rfl, h⟩

theorem pyGet_ok {α : Type} {l : List α} {i : ℕ} {a : α} (h : pyGet l i = .ok a) :
    ∃ hi : i < l.length, l[i] = a := by
  unfold pyGet at h
  split at h
  · rename_i b hb
    simp only [Except.ok.injEq] at h; subst h
    exact List.getElem?_eq_some_iff.mp hb
  · simp at h

theorem pyGet_of_lt {α : Type} {l : List α} {i : ℕ} (h : i < l.length) : pyGet l i = .ok l[i] := by
  unfold pyGet; rw [List.getElem?_eq_getElem h]

theorem pyLast_ok {α : Type} {l : List α} {a : α} (h : pyLast l = .ok a) :
    ∃ hne : l ≠ [], l.getLast hne = a := by
  unfold pyLast at h
  split at h
  · rename_i b hb
    simp only [Except.ok.injEq] at h; subst h
    have hne : l ≠ [] := by intro h; simp [h] at hb
    refine ⟨hne, ?_⟩
    rw [List.getLast?_eq_some_getLast hne] at hb
    simpa using hb
  · simp at h

theorem pyLast_of_ne {α : Type} {l : List α} (h : l ≠ []) : pyLast l = .ok (l.getLast h) := by
  unfold pyLast; rw [List.getLast?_eq_some_getLast h]

/-! ### filters of increasing lists -/

theorem filter_le_take {l : List ℕ} (hs : l.Pairwise (· < ·)) (i : ℕ) (hi : i < l.length) :
    l.filter (fun x => decide (x ≤ l[i])) = l.take (i + 1) := by
  have hp := List.pairwise_iff_getElem.mp hs
  have hl : l.filter (fun x => decide (x ≤ l[i])) =
      (l.take (i + 1) ++ l.drop (i + 1)).filter (fun x => decide (x ≤ l[i])) := by rw [List.take_append_drop]
  rw [hl, List.filter_append]
  have h1 : (l.take (i + 1)).filter (fun x => decide (x ≤ l[i])) = l.take (i + 1) := by
    rw [List.filter_eq_self]
    intro x hx
    obtain ⟨j, hj, rfl⟩ := List.getElem_of_mem hx
    simp only [List.getElem_take, decide_eq_true_eq]
    have hj' : j < i + 1 := by simp at hj; omega
    rcases Nat.lt_or_ge j i with h | h
    · exact (hp j i (by omega) hi h).le
    · have : j = i := by omega
      subst this; exact le_refl _
  have h2 : (l.drop (i + 1)).filter (fun x => decide (x ≤ l[i])) = [] := by
    rw [List.filter_eq_nil_iff]
    intro x hx
    obtain ⟨j, hj, rfl⟩ := List.getElem_of_mem hx
    simp only [List.getElem_drop, decide_eq_true_eq, not_le]
    simp at hj
    exact hp i (i + 1 + j) hi (by omega) (by omega)
  rw [h1, h2, List.append_nil]

theorem filter_ge_drop {l : List ℕ} (hs : l.Pairwise (· < ·)) (i : ℕ) (hi : i < l.length) :
    l.filter (fun x => decide (x ≥ l[i])) = l.drop i := by
  have hp := List.pairwise_iff_getElem.mp hs
  have hl : l.filter (fun x => decide (x ≥ l[i])) =
      (l.take i ++ l.drop i).filter (fun x => decide (x ≥ l[i])) := by rw [List.take_append_drop]
  rw [hl, List.filter_append]
  have h1 : (l.drop i).filter (fun x => decide (x ≥ l[i])) = l.drop i := by
    rw [List.filter_eq_self]
    intro x hx
    obtain ⟨j, hj, rfl⟩ := List.getElem_of_mem hx
    simp only [List.getElem_drop, decide_eq_true_eq, ge_iff_le]
    simp at hj
    rcases Nat.eq_zero_or_pos j with h | h
    · subst h; simp
    · exact (hp i (i + j) hi (by omega) (by omega)).le
  have h2 : (l.take i).filter (fun x => decide (x ≥ l[i])) = [] := by
    rw [List.filter_eq_nil_iff]
    intro x hx
    obtain ⟨j, hj, rfl⟩ := List.getElem_of_mem hx
    simp only [List.getElem_take, decide_eq_true_eq, not_le, ge_iff_le]
    simp at hj
    exact hp j i (by omega) hi (by omega)
  rw [h1, h2, List.nil_append]

/-! ### jump ratios -/

section

variable {K : Type} [Field K] [LinearOrder K] [IsStrictOrderedRing K]

theorem length_jumpRatios (ph : ℕ → K) (ext : List ℕ) : (jumpRatios ph ext).length = ext.length - 2 := by
  unfold jumpRatios
  simp only [List.length_zipWith, List.length_drop, List.length_dropLast, length_diff, List.length_map]
  omega

theorem getElem_jumpRatios (ph : ℕ → K) (ext : List ℕ) (i : ℕ) (h : i < (jumpRatios ph ext).length)
    (h2 : i + 2 < ext.length) :
    (jumpRatios ph ext)[i] = (ph ext[i + 2] - ph ext[i + 1]) / (ph ext[i + 1] - ph ext[i]) := by
  simp only [jumpRatios, List.getElem_zipWith, List.getElem_drop, List.getElem_dropLast]
  rw [getElem_diff _ _ _ (by simp; omega), getElem_diff _ _ _ (by simp; omega)]
  simp [Nat.add_comm 1 i, Nat.add_assoc]

/-- phase increases along the extrema -/
def PhaseIncreasing (ph : ℕ → K) (ext : List ℕ) : Prop := (ext.map ph).Pairwise (· < ·)

theorem PhaseIncreasing.lt {ph : ℕ → K} {ext : List ℕ} (h : PhaseIncreasing ph ext) (i : ℕ)
    (hi : i + 1 < ext.length) : ph ext[i] < ph ext[i + 1] := by
  have := List.pairwise_iff_getElem.mp h i (i + 1) (by simp; omega) (by simp; omega) (by omega)
  simpa using this

theorem mem_tooLarge {ph : ℕ → K} {ext : List ℕ} (hinc : PhaseIncreasing ph ext) (R : K) (i : ℕ) :
    i ∈ npWhere (fun x => decide (x > R)) (jumpRatios ph ext) ↔ Grows ph R ext i := by
  rw [mem_npWhere]
  unfold Grows
  constructor
  · rintro ⟨h, h1⟩
    have h2 : i + 2 < ext.length := by rw [length_jumpRatios] at h; omega
    refine ⟨h2, ?_⟩
    rw [getElem_jumpRatios ph ext i h h2, decide_eq_true_eq, gt_iff_lt,
      lt_div_iff₀ (sub_pos.mpr (hinc.lt i (by omega)))] at h1
    exact h1
  · rintro ⟨h2, h1⟩
    have h : i < (jumpRatios ph ext).length := by rw [length_jumpRatios]; omega
    refine ⟨h, ?_⟩
    rw [getElem_jumpRatios ph ext i h h2, decide_eq_true_eq, gt_iff_lt,
      lt_div_iff₀ (sub_pos.mpr (hinc.lt i (by omega)))]
    exact h1

theorem mem_tooSmall {ph : ℕ → K} {ext : List ℕ} (hinc : PhaseIncreasing ph ext) (R : K) (hR : 0 < R) (i : ℕ) :
    i ∈ npWhere (fun x => decide (x < 1 / R)) (jumpRatios ph ext) ↔ Shrinks ph R ext i := by
  rw [mem_npWhere]
  unfold Shrinks
  have key : ∀ h2 : i + 2 < ext.length,
      (ph ext[i + 2] - ph ext[i + 1]) / (ph ext[i + 1] - ph ext[i]) < 1 / R ↔
      R * (ph ext[i + 2] - ph ext[i + 1]) < ph ext[i + 1] - ph ext[i] := by
    intro h2
    rw [div_lt_div_iff₀ (sub_pos.mpr (hinc.lt i (by omega))) hR, one_mul, mul_comm]
  constructor
  · rintro ⟨h, h1⟩
    have h2 : i + 2 < ext.length := by rw [length_jumpRatios] at h; omega
    refine ⟨h2, ?_⟩
    rw [getElem_jumpRatios ph ext i h h2, decide_eq_true_eq, key h2] at h1
    exact h1
  · rintro ⟨h2, h1⟩
    have h : i < (jumpRatios ph ext).length := by rw [length_jumpRatios]; omega
    refine ⟨h, ?_⟩
    rw [getElem_jumpRatios ph ext i h h2, decide_eq_true_eq, key h2]
    exact h1

/-- end of the retained range in `dropJumps` -/
def jumpEnd (ph : ℕ → K) (R : K) (ext : List ℕ) : ℕ :=
  match npWhere (fun x => decide (x > R)) (jumpRatios ph ext) with
  | [] => ext.length
  | first :: _ => if first > (jumpRatios ph ext).length / 2 then first + 2 else ext.length

/-- start of the retained range in `dropJumps` -/
def jumpStart (ph : ℕ → K) (R : K) (ext : List ℕ) : ℕ :=
  match (npWhere (fun x => decide (x < 1 / R)) (jumpRatios ph ext)).getLast? with
  | none => 0
  | some last => if last < (jumpRatios ph ext).length / 2 then last else 0

theorem jumpEnd_bounds (ph : ℕ → K) (R : K) (ext : List ℕ) (hs : 0 < ext.length) :
    jumpEnd ph R ext ≤ ext.length ∧ jumpStart ph R ext < jumpEnd ph R ext ∧
      (0 < jumpStart ph R ext → jumpStart ph R ext + 2 < jumpEnd ph R ext) := by
  have hlr := length_jumpRatios ph ext
  have h1 : jumpEnd ph R ext = ext.length ∨
      ((jumpRatios ph ext).length / 2 + 2 < jumpEnd ph R ext ∧ jumpEnd ph R ext ≤ ext.length) := by
    unfold jumpEnd
    split
    · left; rfl
    · rename_i first _ hw
      split
      · right
        obtain ⟨hi, _⟩ := (mem_npWhere _ _ first).mp (by rw [hw]; simp)
        omega
      · left; rfl
  have h2 : jumpStart ph R ext = 0 ∨ jumpStart ph R ext < (jumpRatios ph ext).length / 2 := by
    unfold jumpStart
    split
    · left; rfl
    · split
      · right; assumption
      · left; rfl
  omega

theorem dropJumps_ok {ph : ℕ → K} {R : K} {level : ℤ} {ext out : List ℕ} (hs : ext.Pairwise (· < ·))
    (h : dropJumps ph R level ext = .ok out) :
    out = (ext.take (jumpEnd ph R ext)).drop (jumpStart ph R ext) := by
  unfold dropJumps at h
  simp only at h
  obtain ⟨ext1, h1, h⟩ := bind_ok h
  unfold dropJumpsEnd at h1
  unfold dropJumpsStart at h
  have he1 : ext1 = ext.take (jumpEnd ph R ext) := by
    unfold jumpEnd
    split at h1
    · rename_i hw; rw [hw]; simp only [pure_eq_ok, Except.ok.injEq] at h1; simp [← h1]
    · rename_i first _ hw
      rw [hw]
      simp only
      split at h1
      · rename_i hmid
        rw [if_pos hmid]
        obtain ⟨e1, hg, h1⟩ := bind_ok h1
        obtain ⟨_, _, h1⟩ := bind_ok h1
        obtain ⟨_, _, h1⟩ := bind_ok h1
        simp only [pure_eq_ok, Except.ok.injEq] at h1
        obtain ⟨hi, rfl⟩ := pyGet_ok hg
        rw [← h1, filter_le_take hs (first + 1) hi]
      · rename_i hmid
        rw [if_neg hmid]
        simp only [pure_eq_ok, Except.ok.injEq] at h1; simp [← h1]
  have hs1 : ext1.Pairwise (· < ·) := by rw [he1]; exact hs.sublist (List.take_sublist _ _)
  rw [← he1]
  unfold jumpStart
  split at h
  · rename_i hw; rw [hw]; simp only [pure_eq_ok, Except.ok.injEq] at h; simp [← h]
  · rename_i last hw
    rw [hw]
    simp only
    split at h
    · rename_i hmid
      rw [if_pos hmid]
      obtain ⟨_, _, h⟩ := bind_ok h
      obtain ⟨_, _, h⟩ := bind_ok h
      obtain ⟨_, _, h⟩ := bind_ok h
      obtain ⟨e0, hg, h⟩ := bind_ok h
      simp only [pure_eq_ok, Except.ok.injEq] at h
      obtain ⟨hi, rfl⟩ := pyGet_ok hg
      rw [← h, filter_ge_drop hs1 last hi]
    · rename_i hmid
      rw [if_neg hmid]
      simp only [pure_eq_ok, Except.ok.injEq] at h; simp [← h]

/-- it never fails unless `debug_level` is 2 or invalid -/
theorem debugMessage_false_ok {level : ℤ} (hl : level = -1 ∨ level = 0 ∨ level = 1) :
    ∃ o, debugMessage level false = .ok o := by
  rcases hl with rfl | rfl | rfl <;> exact ⟨_, rfl⟩

theorem dropJumps_total (ph : ℕ → K) (R : K) {level : ℤ} (hl : level = -1 ∨ level = 0 ∨ level = 1) (ext : List ℕ)
    (hs : ext.Pairwise (· < ·)) : ∃ out, dropJumps ph R level ext = .ok out := by
  obtain ⟨o, ho⟩ := debugMessage_false_ok hl
  have hlr := length_jumpRatios ph ext
  unfold dropJumps
  simp only
  have h1 : ∃ ext1, dropJumpsEnd (jumpRatios ph ext) R level ext = .ok ext1 ∧
      (ext1.length = ext.length ∨ (jumpRatios ph ext).length / 2 + 2 < ext1.length) := by
    unfold dropJumpsEnd
    split
    · exact ⟨ext, rfl, Or.inl rfl⟩
    · rename_i first _ hw
      obtain ⟨hi, _⟩ := (mem_npWhere _ _ first).mp (by rw [hw]; simp)
      split
      · rw [pyGet_of_lt (show first + 1 < ext.length by omega), pyGet_of_lt (show first + 2 < ext.length by omega), ho]
        simp only [ok_bind, pure_eq_ok]
        refine ⟨_, rfl, Or.inr ?_⟩
        rw [filter_le_take hs]; simp; omega
      · exact ⟨ext, rfl, Or.inl rfl⟩
  obtain ⟨ext1, h1, hlen⟩ := h1
  rw [h1]
  simp only [ok_bind]
  unfold dropJumpsStart
  split
  · exact ⟨_, rfl⟩
  · rename_i last hw
    split
    · rename_i hmid
      have : last + 2 < ext1.length := by omega
      rw [pyGet_of_lt (show last + 1 < ext1.length by omega), pyGet_of_lt this,
        pyGet_of_lt (show last < ext1.length by omega), ho]
      exact ⟨_, rfl⟩
    · exact ⟨_, rfl⟩

/-! ### close extrema -/

theorem mem_close {ph : ℕ → K} {ext : List ℕ} (m : K) (i : ℕ) :
    i ∈ npWhere (fun x => decide (x < m)) (diff (ext.map ph)) ↔ Close ph m ext i := by
  rw [mem_npWhere]
  unfold Close
  constructor
  · rintro ⟨h, h1⟩
    have h2 : i + 1 < ext.length := by rw [length_diff] at h; simp at h; omega
    refine ⟨h2, ?_⟩
    rw [getElem_diff _ _ _ (by simp; omega)] at h1
    simpa using h1
  · rintro ⟨h2, h1⟩
    have h : i < (diff (ext.map ph)).length := by rw [length_diff]; simp; omega
    refine ⟨h, ?_⟩
    rw [getElem_diff _ _ _ (by simp; omega)]
    simpa using h1

def closeEnd (ph : ℕ → K) (m : K) (ext : List ℕ) : ℕ :=
  match npWhere (fun x => decide (x < m)) (diff (ext.map ph)) with
  | [] => ext.length
  | first :: _ => if first > (diff (ext.map ph)).length / 2 then first + 1 else ext.length

def closeStart (ph : ℕ → K) (m : K) (ext : List ℕ) : ℕ :=
  match (npWhere (fun x => decide (x < m)) (diff (ext.map ph))).getLast? with
  | none => 0
  | some last => if last < (diff (ext.map ph)).length / 2 then last else 0

theorem closeEnd_bounds (ph : ℕ → K) (m : K) (ext : List ℕ) (hs : 0 < ext.length) :
    closeEnd ph m ext ≤ ext.length ∧ closeStart ph m ext < closeEnd ph m ext ∧
      (closeStart ph m ext = 0 ∨ closeEnd ph m ext = ext.length) := by
  have hlr : (diff (ext.map ph)).length = ext.length - 1 := by rw [length_diff]; simp
  have hw := npWhere_sorted (fun x => decide (x < m)) (diff (ext.map ph))
  unfold closeEnd closeStart
  cases hc : npWhere (fun x => decide (x < m)) (diff (ext.map ph)) with
  | nil => simp [hs]
  | cons first rest =>
    rw [hc] at hw
    obtain ⟨hi, _⟩ := (mem_npWhere _ _ first).mp (by rw [hc]; simp)
    have hlast : first ≤ (first :: rest).getLast (by simp) := by
      cases rest with
      | nil => simp
      | cons b rest =>
        rw [List.getLast_cons (by simp)]
        exact ((List.pairwise_cons.mp hw).1 _ (List.getLast_mem _)).le
    rw [List.getLast?_eq_some_getLast (by simp)]
    simp only
    split_ifs <;> omega

theorem dropTooClose_ok {ph : ℕ → K} {m : K} {level : ℤ} {ext out : List ℕ} (hs : ext.Pairwise (· < ·))
    (h : dropTooClose ph m level ext = .ok out) :
    out = (ext.take (closeEnd ph m ext)).drop (closeStart ph m ext) := by
  unfold dropTooClose at h
  unfold closeEnd closeStart
  simp only at h
  cases hc : npWhere (fun x => decide (x < m)) (diff (ext.map ph)) with
  | nil =>
    simp only [hc, pure_eq_ok, Except.ok.injEq] at h; simp [← h]
  | cons first rest =>
    simp only [hc] at h
    obtain ⟨ext1, h1, h⟩ := bind_ok h
    rw [List.getLast?_eq_some_getLast (by simp)]
    simp only
    have he1 : ext1 = ext.take (if first > (diff (ext.map ph)).length / 2 then first + 1 else ext.length) := by
      split at h1
      · rename_i hmid
        rw [if_pos hmid]
        obtain ⟨e1, hg, h1⟩ := bind_ok h1
        obtain ⟨_, _, h1⟩ := bind_ok h1
        obtain ⟨_, _, h1⟩ := bind_ok h1
        simp only [pure_eq_ok, Except.ok.injEq] at h1
        obtain ⟨hi, rfl⟩ := pyGet_ok hg
        rw [← h1, filter_le_take hs first hi]
      · rename_i hmid
        rw [if_neg hmid]
        simp only [pure_eq_ok, Except.ok.injEq] at h1; simp [← h1]
    rw [← he1]
    have hs1 : ext1.Pairwise (· < ·) := by rw [he1]; exact hs.sublist (List.take_sublist _ _)
    split at h
    · rename_i hmid
      rw [if_pos hmid]
      obtain ⟨e0, hg, h⟩ := bind_ok h
      obtain ⟨_, _, h⟩ := bind_ok h
      simp only [pure_eq_ok, Except.ok.injEq] at h
      obtain ⟨hi, rfl⟩ := pyGet_ok hg
      rw [← h, filter_ge_drop hs1 _ hi]
    · rename_i hmid
      rw [if_neg hmid]
      simp only [pure_eq_ok, Except.ok.injEq] at h; simp [← h]

end

end GwEcc
