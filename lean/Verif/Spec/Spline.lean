import Mathlib.Analysis.Calculus.ContDiff.Defs
import Mathlib.Algebra.Polynomial.Eval.Degree
import Mathlib.Data.Real.Basic
import Verif.Spec.Measure

/-!
# Specification of C115, C116, C117: interpolation
-/

namespace GwEcc.Spec

open Polynomial

/-- Where the pieces of the spline of order `k` through the nodes `x` meet: for odd orders at nodes, leaving out `(k + 1) / 2` at
each end, for even orders half-way between nodes, leaving out `k / 2` at each end. -/
noncomputable def Breaks (k : ℕ) (x : List ℝ) : List ℝ :=
  if k % 2 = 1 then (x.drop ((k + 1) / 2)).take (x.length - (k + 1))
  else ((List.zipWith (fun a b => (a + b) / 2) x x.tail).drop (k / 2)).take (x.length - (k + 1))

/-- A spline of order `k`: it has `k - 1` continuous derivatives and is a polynomial of degree at most `k` between breaks. -/
structure IsSpline (k : ℕ) (breaks : List ℝ) (F : ℝ → ℝ) : Prop where
  smooth : ContDiff ℝ ((k - 1 : ℕ) : WithTop ℕ∞) F
  pieces : ∀ a b, (∀ τ ∈ breaks, τ ≤ a ∨ b ≤ τ) → ∃ P : ℝ[X], P.degree ≤ k ∧ ∀ u, a ≤ u → u ≤ b → F u = P.eval u

/-- The curve passes through the points. -/
def PassesThrough {K : Type} (x y : List K) (F : K → K) : Prop := ∀ p ∈ x.zip y, F p.1 = p.2

/-- The curve rises, or falls, with each pair of neighbouring points, and so never leaves their range. -/
def FollowsPoints {K : Type} [LinearOrder K] (x y : List K) (F : K → K) : Prop :=
  ∀ i x₀ x₁ y₀ y₁, x[i]? = some x₀ → x[i + 1]? = some x₁ → y[i]? = some y₀ → y[i + 1]? = some y₁ →
    ∀ u v, x₀ ≤ u → u ≤ v → v ≤ x₁ → (y₀ ≤ y₁ → y₀ ≤ F u ∧ F u ≤ F v ∧ F v ≤ y₁) ∧ (y₁ ≤ y₀ → y₁ ≤ F v ∧ F v ≤ F u ∧ F u ≤ y₀)

end GwEcc.Spec
