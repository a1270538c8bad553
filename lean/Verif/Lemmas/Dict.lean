import Verif.Py
import Mathlib.Tactic.SplitIfs

/-! Lemmas about dictionaries. -/

namespace GwEcc.Dict

variable {κ V : Type} [DecidableEq κ]

@[simp] theorem get?_nil (k : κ) : Dict.get? ([] : Dict κ V) k = none := rfl

theorem get?_cons (p : κ × V) (d : Dict κ V) (k : κ) :
    Dict.get? (p :: d : Dict κ V) k = if k = p.1 then some p.2 else Dict.get? d k := by
  unfold Dict.get?
  rw [List.lookup_cons]
  by_cases h : k = p.1
  · simp [h]
  · have : (k == p.1) = false := by simpa using h
    simp [this, h]

theorem has_iff (d : Dict κ V) (k : κ) : d.has k = true ↔ k ∈ d.keys := by
  unfold Dict.has
  induction d with
  | nil => simp [Dict.keys]
  | cons p d ih =>
    rw [get?_cons]
    by_cases h : k = p.1
    · simp [h, Dict.keys]
    · rw [if_neg h, ih]; simp [Dict.keys, h]

theorem has_iff_get? (d : Dict κ V) (k : κ) : d.has k = true ↔ ∃ v, d.get? k = some v := by
  unfold Dict.has; rw [Option.isSome_iff_exists]

theorem get?_none_iff (d : Dict κ V) (k : κ) : d.get? k = none ↔ k ∉ d.keys := by
  rw [← has_iff]; unfold Dict.has; cases d.get? k <;> simp

theorem get?_set (d : Dict κ V) (k j : κ) (v : V) :
    (d.set k v).get? j = if j = k then some v else d.get? j := by
  induction d with
  | nil => simp [Dict.set, get?_cons]
  | cons p d ih =>
    obtain ⟨k', v'⟩ := p
    unfold Dict.set
    by_cases h : k = k'
    · subst h
      rw [if_pos rfl, get?_cons, get?_cons]
      split_ifs <;> rfl
    · rw [if_neg h, get?_cons, get?_cons, ih]
      by_cases h1 : j = k'
      · subst h1
        simp [Ne.symm h]
      · simp [h1]

theorem get?_del (d : Dict κ V) (k j : κ) :
    (d.del k).get? j = if j = k then none else d.get? j := by
  induction d with
  | nil => simp [Dict.del]
  | cons p d ih =>
    unfold Dict.del at *
    rw [List.filter_cons]
    by_cases h : p.1 = k
    · simp only [h, ne_eq, not_true_eq_false, decide_false, Bool.false_eq_true, ↓reduceIte]
      rw [ih, get?_cons, h]
      split_ifs <;> rfl
    · simp only [ne_eq, h, not_false_eq_true, decide_true, ↓reduceIte]
      rw [get?_cons, get?_cons, ih]
      by_cases h1 : j = k
      · subst h1; simp [Ne.symm h]
      · simp [h1]

theorem nodup_set {d : Dict κ V} (k : κ) (v : V) (h : d.keys.Nodup) : (d.set k v).keys.Nodup := by
  induction d with
  | nil => simp [Dict.set, Dict.keys]
  | cons b d ih =>
    simp only [Dict.keys, List.map_cons, List.nodup_cons] at h
    unfold Dict.set
    split
    · rename_i hk; subst hk; simpa [Dict.keys] using h
    · rename_i hk
      simp only [Dict.keys, List.map_cons, List.nodup_cons]
      refine ⟨?_, ih h.2⟩
      intro hm
      rw [← Dict.keys, ← has_iff, Dict.has, get?_set, if_neg (Ne.symm hk), ← Dict.has, has_iff] at hm
      exact h.1 hm

theorem get?_append (d e : Dict κ V) (k : κ) :
    Dict.get? (d ++ e : Dict κ V) k = (d.get? k).or (e.get? k) := by
  induction d with
  | nil => simp
  | cons p d ih =>
    rw [List.cons_append, get?_cons, get?_cons, ih]
    split_ifs <;> simp

end GwEcc.Dict
