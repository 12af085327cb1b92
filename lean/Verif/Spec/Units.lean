import Mathlib.Algebra.Order.Field.Basic
import Mathlib.Algebra.BigOperators.Group.Finset.Basic
import Mathlib.Algebra.BigOperators.Intervals
import Mathlib.Data.Real.Basic

/-! Vocabulary for changes of units.  Nothing here refers to the model of the code. -/
set_option autoImplicit false
namespace Verif
open Finset

variable {K : Type} [Field K]

/-- `x'` is `x` (row, variable) with variable `i` measured in another unit: all its values are multiplied by `c i`. -/
def Rescaled (n T : Nat) (c : Nat → K) (x x' : Nat → Nat → K) : Prop := ∀ t, t < T → ∀ i, i < n → x' t i = c i * x t i

/-- The coefficients `M'` are the coefficients `M` (target, source) in the new units. -/
def ConvertedMatrix (n : Nat) (c : Nat → K) (M M' : Nat → Nat → K) : Prop :=
  ∀ i, i < n → ∀ j, j < n → M' i j = M i j * (c i / c j)

/-- The constant, the present values and the values of the last `p` time steps are linearly independent. -/
def WindowIndependent (n p T : Nat) (x : Nat → Nat → K) : Prop :=
  ∀ (b0 : K) (d : Nat → Nat → K),
    (∀ t, p ≤ t → t < T → b0 + ∑ k ∈ range (p + 1), ∑ j ∈ range n, d k j * x (t - k) j = 0) →
      ∀ k, k ≤ p → ∀ j, j < n → d k j = 0

/-- `A k i j` (lag `k + 1`) are least squares coefficients without intercept of every variable on the last `p` time steps. -/
def LagLeastSquares (n p T : Nat) (A : Nat → Nat → Nat → K) (x : Nat → Nat → K) : Prop :=
  ∀ i, i < n → ∀ k, k < p → ∀ j, j < n →
    ∑ t ∈ Ico p T, (x t i - ∑ l ∈ range p, ∑ m ∈ range n, A l i m * x (t - (l + 1)) m) * x (t - (k + 1)) j = 0

/-- `X'` are the columns `X` measured in other units and from other origins. -/
def OtherUnits {N : Nat} (c o : Nat → ℝ) (X X' : Nat → Fin N → ℝ) : Prop := ∀ j r, X' j r = c j * X j r + o j

/-- The slopes `c` belong to a least squares fit of `y` by the regressors `Z` and a constant. -/
def LeastSquaresFit {N q : Nat} (Z : Fin q → Fin N → ℝ) (y : Fin N → ℝ) (c : Fin q → ℝ) : Prop :=
  ∃ b, ∀ b' (c' : Fin q → ℝ), ∑ r, (y r - b - ∑ k, c k * Z k r) ^ 2 ≤ ∑ r, (y r - b' - ∑ k, c' k * Z k r) ^ 2

/-- The constant and the first `n` columns are linearly independent. -/
def ColumnsIndependent {N : Nat} (n : Nat) (X : Nat → Fin N → ℝ) : Prop :=
  ∀ (a : ℝ) (d : Nat → ℝ), (∀ r, ∑ j ∈ range n, d j * X j r = a) → ∀ j, j < n → d j = 0

/-- The constant and the values of all variables at the times `lo, …, hi - 1` are linearly independent over the `n` samples. -/
def TimesIndependent (n p lo hi : Nat) (x : Nat → Nat → Nat → ℝ) : Prop :=
  ∀ (b0 : ℝ) (d : Nat → Nat → ℝ), (∀ s, s < n → b0 + ∑ t ∈ Ico lo hi, ∑ j ∈ range p, d t j * x t s j = 0) →
    ∀ t, lo ≤ t → t < hi → ∀ j, j < p → d t j = 0

end Verif
