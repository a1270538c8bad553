import Verif.Model.Modes
import Verif.Lemmas.Dict
import Verif.Lemmas.Extrema
import Mathlib.Tactic.Ring
import Mathlib.Tactic.Linarith

namespace GwEcc

theorem mem_intRange {a b x : ℤ} : x ∈ intRange a b ↔ a ≤ x ∧ x < b := by
  simp only [intRange, List.mem_map, List.mem_range]
  constructor
  · rintro ⟨i, hi, rfl⟩; omega
  · rintro ⟨h1, h2⟩; exact ⟨(x - a).toNat, by omega, by omega⟩

theorem mem_modeLoop {a b : ℤ} {k : LM} : k ∈ modeLoop a b ↔ (a ≤ k.1 ∧ k.1 ≤ b) ∧ (-k.1 ≤ k.2 ∧ k.2 ≤ k.1) := by
  obtain ⟨l, m⟩ := k
  simp only [modeLoop, List.mem_flatMap, List.mem_map, mem_intRange, Prod.mk.injEq]
  constructor
  · rintro ⟨l', h1, m', h2, rfl, rfl⟩; omega
  · rintro ⟨h1, h2⟩; exact ⟨l, by omega, m, by omega, rfl, rfl⟩

theorem intRange_succ {a b : ℤ} (h : a ≤ b) : intRange a (b + 1) = intRange a b ++ [b] := by
  unfold intRange
  have : (b + 1 - a).toNat = (b - a).toNat + 1 := by omega
  rw [this, List.range_succ, List.map_append]
  simp only [List.map_cons, List.map_nil, List.append_cancel_left_eq]
  congr 1
  omega

theorem length_intRange (a b : ℤ) : (intRange a b).length = (b - a).toNat := by simp [intRange]

/-- The loop visits the modes in the order of the columns of the rotation library. -/
theorem modeLoop_order : ∀ n : ℕ, (modeLoop 2 (1 + n)).length = n * (n + 4) ∧
    ∀ (i : ℕ) k, (modeLoop 2 (1 + n))[i]? = some k → scriIndex 2 k = i
  | 0 => ⟨by simp [modeLoop, intRange], by simp [modeLoop, intRange]⟩
  | n + 1 => by
    obtain ⟨ih1, ih2⟩ := modeLoop_order n
    have e : modeLoop 2 (1 + ((n + 1 : ℕ) : ℤ)) = modeLoop 2 (1 + n)
        ++ (intRange (-((n : ℤ) + 2)) (((n : ℤ) + 2) + 1)).map (fun m => ((n : ℤ) + 2, m)) := by
      unfold modeLoop
      have h1 : (1 : ℤ) + ((n + 1 : ℕ) : ℤ) + 1 = ((n : ℤ) + 2) + 1 := by push_cast; ring
      have h2 : (1 : ℤ) + (n : ℤ) + 1 = (n : ℤ) + 2 := by ring
      rw [h1, intRange_succ (by omega), List.flatMap_append, h2]
      simp
    rw [e]
    constructor
    · rw [List.length_append, ih1, List.length_map, length_intRange]
      have : ((n : ℤ) + 2 + 1 - -((n : ℤ) + 2)).toNat = 2 * n + 5 := by omega
      rw [this]; ring
    · intro i k h
      rw [List.getElem?_append] at h
      split at h
      · exact ih2 i k h
      · rename_i hi
        rw [ih1] at h hi
        simp only [List.getElem?_map, intRange, Option.map_eq_some_iff] at h
        obtain ⟨m, ⟨j, hj, rfl⟩, rfl⟩ := h
        obtain ⟨hj1, hj2⟩ := List.getElem?_eq_some_iff.mp hj
        rw [List.getElem_range] at hj2
        subst hj2
        unfold scriIndex
        have : ((i - n * (n + 4) : ℕ) : ℤ) = (i : ℤ) - n * (n + 4) := by
          rw [Nat.cast_sub (by omega)]; push_cast; ring
        rw [this]; push_cast; ring

section
variable {C : Type}

/-- The packing loop: columns `i, i+1, …` receive the modes in the order of the loop. -/
theorem pack_loop (modes : Dict LM (List C)) (rows : ℕ) : ∀ (ks : List LM) (cols : List (List C)) (i : ℕ),
    i + ks.length ≤ cols.length →
    ((∀ k ∈ ks, ∃ h, modes.get? k = some h ∧ h.length = rows) →
      ∃ cols', ks.foldlM (packStep modes rows) (cols, i) = .ok (cols', i + ks.length) ∧ cols'.length = cols.length ∧
        (∀ j, j < i → cols'[j]? = cols[j]?) ∧
        ∀ j k, ks[j]? = some k → cols'[i + j]? = modes.get? k) ∧
    ((∃ k ∈ ks, ∀ h, modes.get? k = some h → h.length ≠ rows) →
      ∃ err, ks.foldlM (packStep modes rows) (cols, i) = .error err)
  | [], cols, i, _ => ⟨fun _ => ⟨cols, rfl, rfl, fun _ _ => rfl, by simp⟩, by simp⟩
  | k :: ks, cols, i, hlen => by
    simp only [List.length_cons] at hlen
    have hstep : ∀ h, modes.get? k = some h → packStep modes rows (cols, i) k
        = if h.length ≠ rows then .error .valueError else .ok (cols.set i h, i + 1) := by
      intro h hk
      simp only [packStep, hk]
      rw [if_neg (by omega)]
    constructor
    · intro hall
      obtain ⟨h, hk, hr⟩ := hall k (by simp)
      obtain ⟨cols', h1, h2, h3, h4⟩ := (pack_loop modes rows ks (cols.set i h) (i + 1)
        (by rw [List.length_set]; omega)).1 (fun k' hk' => hall k' (by simp [hk']))
      refine ⟨cols', ?_, by rw [h2, List.length_set], ?_, ?_⟩
      · rw [List.foldlM_cons, hstep h hk, if_neg (by simpa using hr)]
        show List.foldlM _ _ _ = _
        rw [h1, List.length_cons]
        congr 2; omega
      · intro j hj
        rw [h3 j (by omega), List.getElem?_set_ne (by omega)]
      · intro j k' hj
        cases j with
        | zero =>
          simp only [List.getElem?_cons_zero, Option.some.injEq] at hj
          subst hj
          rw [Nat.add_zero, h3 i (by omega), List.getElem?_set_self (by omega), hk]
        | succ j =>
          rw [List.getElem?_cons_succ] at hj
          have := h4 j k' hj
          rwa [show i + 1 + j = i + (j + 1) by omega] at this
    · rintro ⟨k', hk', hbad⟩
      rw [List.foldlM_cons]
      cases hk : modes.get? k with
      | none => exact ⟨_, by simp only [packStep, hk]; rfl⟩
      | some h =>
        rw [hstep h hk]
        by_cases hr : h.length = rows
        · rw [if_neg (by simpa using hr)]
          refine (pack_loop modes rows ks (cols.set i h) (i + 1) (by rw [List.length_set]; omega)).2 ⟨k', ?_, hbad⟩
          rcases List.mem_cons.mp hk' with rfl | hk'
          · exact absurd hr (hbad h hk)
          · exact hk'
        · exact ⟨_, by rw [if_pos hr]; rfl⟩

/-- The unpacking loop. -/
theorem unpack_loop (data : List (List C)) (idx : LM → ℕ) : ∀ (ks : List LM) (acc : Dict LM (List C)),
    (∀ k ∈ ks, idx k < data.length) →
    ∃ d, ks.foldlM (fun acc k => do
        let col ← pyGet data (idx k)
        pure (acc.set k col)) acc = .ok d ∧
      ∀ k, d.get? k = if k ∈ ks then data[idx k]? else acc.get? k
  | [], acc, _ => ⟨acc, rfl, by simp⟩
  | k :: ks, acc, h => by
    have hk := h k (by simp)
    obtain ⟨d, h1, h2⟩ := unpack_loop data idx ks (acc.set k data[idx k]) (fun k' hk' => h k' (by simp [hk']))
    refine ⟨d, ?_, ?_⟩
    · rw [List.foldlM_cons]
      have : pyGet data (idx k) = .ok data[idx k] := by simp [pyGet, hk]
      rw [this]
      exact h1
    · intro j
      rw [h2 j]
      by_cases hj : j ∈ ks
      · simp [hj]
      · rw [if_neg hj, Dict.get?_set]
        by_cases hjk : j = k
        · subst hjk; simp [hk]
        · simp [hjk, hj]

end

end GwEcc
