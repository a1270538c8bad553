import Verif.Model.BatchSize

/-!
# C50 for every whole number given as batch size
-/

namespace GwEcc.Mpi

variable {α : Type}

/-- For natural numbers the batches are those of the model of the parallel run. -/
theorem feed_nextBatch {Idx P V : Type} {W : ℕ} (items : List (ℕ × Idx × P)) (b : ℕ) (w : Fin W) (s : Sys Idx P V W) :
    feed items b w s = match nextBatch items b s.next with
      | some (x, n) => { s with workers := send s.workers w (.batch (x.map Prod.snd)), next := n.toNat }
      | none => { s with workers := send s.workers w .stop } := by
  unfold feed nextBatch
  by_cases h : s.next < items.length
  · rw [if_pos h, if_pos (by exact_mod_cast h)]
    have e : min ((s.next : ℤ) + b) (items.length : ℤ) = ((min (s.next + b) items.length : ℕ) : ℤ) := by push_cast; rfl
    dsimp only
    rw [e]
    unfold pySlice pyBound
    rw [if_neg (by omega), if_neg (by omega)]
    simp only [Int.toNat_natCast]
    rw [Nat.min_eq_left h.le, Nat.min_eq_left (Nat.min_le_right _ _)]
  · rw [if_neg h, if_neg (by exact_mod_cast h)]

theorem batches_pos (items : List α) {b : ℕ} (hb : 0 < b) : ∀ (k m : ℕ),
    (batches items b k (m : ℤ)).flatMap (fun x => x.getD []) = (items.drop m).take (k * b)
  | 0, m => by simp [batches]
  | k + 1, m => by
    unfold batches nextBatch
    by_cases h : m < items.length
    · rw [if_pos (by exact_mod_cast h)]
      have e : min ((m : ℤ) + b) (items.length : ℤ) = ((min (m + b) items.length : ℕ) : ℤ) := by push_cast; rfl
      dsimp only
      rw [e, List.flatMap_cons, batches_pos items hb k]
      unfold pySlice pyBound
      rw [if_neg (by omega), if_neg (by omega)]
      simp only [Int.toNat_natCast, Option.getD_some]
      rw [Nat.min_eq_left h.le, Nat.min_eq_left (Nat.min_le_right _ _), List.drop_take]
      have : ∀ (l : List α) (p q : ℕ), l.take p ++ (l.drop p).take q = l.take (p + q) := by
        intro l p q; exact (List.take_add ..).symm
      have hd : items.drop (min (m + b) items.length) = (items.drop m).drop (min (m + b) items.length - m) := by
        rw [List.drop_drop]; congr 1; omega
      rw [hd, this]
      by_cases hh : m + b ≤ items.length
      · rw [Nat.min_eq_left hh]; congr 1; rw [Nat.succ_mul]; omega
      · rw [Nat.min_eq_right (by omega)]
        rw [List.take_of_length_le (by simp), List.take_of_length_le (by simp; rw [Nat.succ_mul]; omega)]
    · rw [if_neg (by exact_mod_cast h)]
      dsimp only
      rw [List.flatMap_cons, batches_pos items hb k m, List.drop_eq_nil_of_le (by omega)]
      simp

theorem batches_stop (items : List α) {b : ℕ} (hb : 0 < b) : ∀ (k m i : ℕ), i < k →
    ((batches items b k (m : ℤ))[i]? = some none ↔ items.length ≤ m + i * b)
  | k + 1, m, i, hi => by
    unfold batches nextBatch
    by_cases h : m < items.length
    · rw [if_pos (by exact_mod_cast h)]
      have e : min ((m : ℤ) + b) (items.length : ℤ) = ((min (m + b) items.length : ℕ) : ℤ) := by push_cast; rfl
      dsimp only
      rw [e]
      cases i with
      | zero => simp; omega
      | succ i =>
        rw [List.getElem?_cons_succ, batches_stop items hb k _ i (by omega), Nat.succ_mul]
        have := Nat.zero_le (i * b)
        omega
    · rw [if_neg (by exact_mod_cast h)]
      dsimp only
      cases i with
      | zero => simp; omega
      | succ i =>
        rw [List.getElem?_cons_succ, batches_stop items hb k m i (by omega), Nat.succ_mul]
        have := Nat.zero_le (i * b)
        omega

/-- **C50, batches.**  For a positive batch size `b` the first `k` requests get the first `k * b` samples, each once and in order, and
the request number `i` (from 0) is told to stop exactly if `i * b` samples are all there are. -/
theorem C50_batches (items : List α) {b : ℕ} (hb : 0 < b) (k : ℕ) :
    (batches items b k 0).flatMap (fun x => x.getD []) = items.take (k * b) ∧
    ∀ i < k, ((batches items b k 0)[i]? = some none ↔ items.length ≤ i * b) := by
  constructor
  · have := batches_pos items hb k 0
    simpa using this
  · intro i hi
    have := batches_stop items hb k 0 i hi
    simpa using this

theorem batches_neg (items : List α) {b : ℤ} (hb : b < 0) : ∀ (k : ℕ) (m : ℤ), m < 0 → 
    batches items b k m = List.replicate k (some [])
  | 0, _, _ => rfl
  | k + 1, m, hm => by
    unfold batches nextBatch
    rw [if_pos (by omega)]
    dsimp only
    rw [min_eq_left (by omega), batches_neg items hb k (m + b) (by omega), List.replicate_succ]
    congr 2
    unfold pySlice pyBound
    rw [if_pos hm, if_pos (show m + b < 0 by omega)]
    apply List.drop_eq_nil_of_le
    rw [List.length_take]
    omega

/-- **C50 is false of the code for negative batch sizes**, which the command line accepts: whatever the number of requests, no worker is
told to stop, the first request gets all samples but the last `-b`, every later one gets no sample, and so the number of samples handed
out never reaches the number the master waits for. -/
theorem C50_negative_batch_violation (items : List α) (hne : items ≠ []) {b : ℤ} (hb : b < 0) (k : ℕ) :
    batches items b (k + 1) 0 = some (items.take (items.length - b.natAbs)) :: List.replicate k (some []) ∧
    ((batches items b k 0).flatMap (fun x => x.getD [])).length < items.length := by
  have hpos : 0 < items.length := List.length_pos_iff.mpr hne
  have h1 : ∀ k, batches items b (k + 1) 0 = some (items.take (items.length - b.natAbs)) :: List.replicate k (some []) := by
    intro k
    conv_lhs => unfold batches nextBatch
    rw [if_pos (by exact_mod_cast hpos)]
    dsimp only
    rw [min_eq_left (by omega), zero_add, batches_neg items hb k b hb]
    congr 2
    unfold pySlice pyBound
    rw [if_pos hb, if_neg (by omega)]
    simp only [Int.toNat_zero, Nat.zero_min, List.drop_zero]
    congr 1
    omega
  refine ⟨h1 k, ?_⟩
  cases k with
  | zero => simpa [batches] using hpos
  | succ k =>
    rw [h1 k, List.flatMap_cons]
    have : (List.replicate k (some ([] : List α))).flatMap (fun x => x.getD []) = [] := by
      induction k with
      | zero => rfl
      | succ k ih => rw [List.replicate_succ, List.flatMap_cons, ih]; rfl
    rw [this]
    simp only [Option.getD_some, List.append_nil, List.length_take]
    omega

/-- Seven samples in batches of three; with batches of `-3` three samples are never handed out. -/
example : batches [1, 2, 3, 4, 5, 6, 7] 3 4 0 = [some [1, 2, 3], some [4, 5, 6], some [7], none] ∧
    batches [1, 2, 3, 4, 5, 6, 7] (-3) 4 0 = [some [1, 2, 3, 4], some [], some [], some []] := by decide

end GwEcc.Mpi
