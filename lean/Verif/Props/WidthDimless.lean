import Verif.Model.WidthDimless
import Mathlib.Tactic.Linarith
import Mathlib.Algebra.Order.Floor.Ring

/-!
# C65: the width of peaks from the time step alone
-/

namespace GwEcc

variable {K : Type} [Field K] [LinearOrder K] [IsStrictOrderedRing K] [FloorRing K]

/-- **C65, width for a given length of time.**  For times that start to increase, the width asked for with a length of time is the
largest number of time steps that fit into it; there is always one. -/
theorem C65_dimless {t0 t1 W : K} (rest : List K) (ht : t0 < t1) (hW : 0 ≤ W) :
    ∃ w : ℤ, widthDimless (t0 :: t1 :: rest) W = .ok w ∧ 0 ≤ w ∧ w * (t1 - t0) ≤ W ∧ W < (w + 1) * (t1 - t0) := by
  have hd : 0 < t1 - t0 := sub_pos.mpr ht
  have hq : 0 ≤ W / (t1 - t0) := div_nonneg hW hd.le
  refine ⟨⌊W / (t1 - t0)⌋, ?_, Int.floor_nonneg.mpr hq, ?_, ?_⟩
  · have g1 : pyGet (t0 :: t1 :: rest) 1 = .ok t1 := by rfl
    have g0 : pyGet (t0 :: t1 :: rest) 0 = .ok t0 := by rfl
    unfold widthDimless
    rw [g1, g0]
    show (if t1 - t0 = 0 then _ else _) = _
    rw [if_neg hd.ne']
    unfold pyInt
    rw [if_pos hq]
    rfl
  · exact (le_div_iff₀ hd).mp (Int.floor_le _)
  · exact (div_lt_iff₀ hd).mp (Int.lt_floor_add_one _)

example : widthDimless [(0 : ℚ), 3, 6] 50 = .ok 16 := by decide +kernel

end GwEcc
