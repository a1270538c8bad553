import Verif.Model.Construct

/-!
# Specification of C111-C113: maxima of data

Independent of how they are searched for.
-/

namespace GwEcc.Spec

section
variable {K : Type} [Field K] [LinearOrder K]

/-- Samples `l` to `r` have the same value, and the samples before and after them exist and are lower. -/
structure FlatTop (x : List K) (l r : ℕ) : Prop where
  pos : 0 < l
  le : l ≤ r
  lt : r + 1 < x.length
  flat : ∀ j, l ≤ j → j ≤ r → x.getD j 0 = x.getD l 0
  before : x.getD (l - 1) 0 < x.getD l 0
  after : x.getD (r + 1) 0 < x.getD l 0

/-- Sample `i` is the middle one of a flat top (which may be a single sample). -/
def IsMaximum (x : List K) (i : ℕ) : Prop := ∃ l r, FlatTop x l r ∧ i = (l + r) / 2

/-- The same upside down. -/
def IsMinimum (x : List K) (i : ℕ) : Prop := IsMaximum (x.map (-·)) i

/-- What `np.argsort` returns: the positions `0, 1, …`, each once, in the order of the values. -/
def IsArgsort (argsort : List K → List ℕ) : Prop :=
  ∀ l, (argsort l).Perm (List.range l.length) ∧ (argsort l).Pairwise fun i j => l.getD i 0 ≤ l.getD j 0

/-- The lowest of the samples met on the way from sample `p` to the left, as long as they are not higher than it. -/
def IsLeftBase (x : List K) (p : ℕ) (v : K) : Prop :=
  ∃ a, a ≤ p ∧ (∀ j, a ≤ j → j ≤ p → x.getD j 0 ≤ x.getD p 0) ∧ (0 < a → x.getD p 0 < x.getD (a - 1) 0) ∧
    (∃ j, a ≤ j ∧ j ≤ p ∧ x.getD j 0 = v) ∧ ∀ j, a ≤ j → j ≤ p → v ≤ x.getD j 0

/-- The same to the right. -/
def IsRightBase (x : List K) (p : ℕ) (v : K) : Prop :=
  ∃ b, p ≤ b ∧ b < x.length ∧ (∀ j, p ≤ j → j ≤ b → x.getD j 0 ≤ x.getD p 0) ∧
    (b + 1 < x.length → x.getD p 0 < x.getD (b + 1) 0) ∧ (∃ j, p ≤ j ∧ j ≤ b ∧ x.getD j 0 = v) ∧
    ∀ j, p ≤ j → j ≤ b → v ≤ x.getD j 0

/-- How far the maximum at sample `p` stands out: its height above the higher one of the two lowest points. -/
def HasProminence (x : List K) (p : ℕ) (v : K) : Prop :=
  ∃ l r, IsLeftBase x p l ∧ IsRightBase x p r ∧ v = x.getD p 0 - max l r

/-- Going from sample `p` to the left, the data, joined by straight lines, first come down to `level` at the position `a`
(in samples). -/
def CrossesLeft (x : List K) (p : ℕ) (level a : K) : Prop :=
  ∃ k : ℕ, k < p ∧ (∀ j, k < j → j ≤ p → level < x.getD j 0) ∧ x.getD k 0 ≤ level ∧ (k : K) ≤ a ∧ a < k + 1 ∧
    x.getD k 0 + (a - k) * (x.getD (k + 1) 0 - x.getD k 0) = level

/-- The same to the right. -/
def CrossesRight (x : List K) (p : ℕ) (level b : K) : Prop :=
  ∃ k : ℕ, p ≤ k ∧ k + 1 < x.length ∧ (∀ j, p ≤ j → j ≤ k → level < x.getD j 0) ∧ x.getD (k + 1) 0 ≤ level ∧ (k : K) < b ∧
    b ≤ k + 1 ∧ x.getD k 0 + (b - k) * (x.getD (k + 1) 0 - x.getD k 0) = level

/-- Width of the maximum at sample `p`, half way down to the higher one of the lowest points to its left and right. -/
def HasWidth (x : List K) (p : ℕ) (w : K) : Prop :=
  ∃ l r a b, IsLeftBase x p l ∧ IsRightBase x p r ∧ CrossesLeft x p ((x.getD p 0 + max l r) / 2) a ∧
    CrossesRight x p ((x.getD p 0 + max l r) / 2) b ∧ w = b - a

end

end GwEcc.Spec
