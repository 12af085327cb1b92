import Mathlib.Analysis.SpecialFunctions.Exp
import Mathlib.Algebra.BigOperators.Group.Finset.Basic
import Mathlib.Data.Fintype.BigOperators
import Mathlib.Data.Real.Basic
import Mathlib.Data.Multiset.Count
import Mathlib.Data.Fin.Basic
import Mathlib.Data.Fintype.Prod

/-! Specification of the Hilbert-Schmidt independence criterion, written down independently of the code. -/
set_option autoImplicit false
namespace Verif.Hsic.Spec

/-- The Gaussian kernel `exp (- |x - y|^2 / (2 w^2))`. -/
noncomputable def gauss {d : Nat} (w : ℝ) (x y : Fin d → ℝ) : ℝ :=
  Real.exp (-(∑ k, (x k - y k) ^ 2) / (2 * w ^ 2))

/-- The biased (V-statistic) estimate of the criterion from `n` pairs of observations, with kernels `k` and `l`:
`E[k l] + E[k] E[l] - 2 E[ E[k | first] E[l | first] ]` with all expectations replaced by averages over the sample. -/
noncomputable def criterion {α β : Type} {n : Nat} (k : α → α → ℝ) (l : β → β → ℝ) (x : Fin n → α) (y : Fin n → β) : ℝ :=
  (∑ i, ∑ j, k (x i) (x j) * l (y i) (y j)) / n ^ 2
    + (∑ i, ∑ j, k (x i) (x j)) * (∑ i, ∑ j, l (y i) (y j)) / n ^ 4
    - 2 * (∑ i, (∑ j, k (x i) (x j)) * (∑ j, l (y i) (y j))) / n ^ 3

/-- The average of a kernel over all pairs of different observations. -/
noncomputable def offDiagonal {α : Type} {n : Nat} (k : α → α → ℝ) (x : Fin n → α) : ℝ :=
  (∑ i, ∑ j, if i = j then 0 else k (x i) (x j)) / (n * ((n : ℝ) - 1))

/-- A kernel between two observations, minus its averages over the second and the first argument, plus its overall average. -/
noncomputable def centredKernel {α : Type} {n : Nat} (k : α → α → ℝ) (x : Fin n → α) (i j : Fin n) : ℝ :=
  k (x i) (x j) - (∑ b, k (x i) (x b)) / n - (∑ a, k (x a) (x j)) / n + (∑ a, ∑ b, k (x a) (x b)) / n ^ 2

/-- The estimate of the variance of the criterion for independent variables:
`2 (n-4) (n-5) / (n (n-1) (n-2) (n-3))` times the average over pairs of different observations of the squared product of
the two centred kernels. -/
noncomputable def nullVariance {α β : Type} {n : Nat} (k : α → α → ℝ) (l : β → β → ℝ) (x : Fin n → α) (y : Fin n → β) : ℝ :=
  2 * ((n : ℝ) - 4) * ((n : ℝ) - 5) / (n * ((n : ℝ) - 1) * ((n : ℝ) - 2) * ((n : ℝ) - 3)) *
    ((∑ i, ∑ j, if i = j then 0 else (centredKernel k x i j * centredKernel l y i j) ^ 2) / (n * ((n : ℝ) - 1)))

/-- The squared distances between different observations among the first `N` ones, one for every unordered pair. -/
noncomputable def distances {n d : Nat} (N : Nat) (x : Fin n → Fin d → ℝ) : Multiset ℝ :=
  ((Finset.univ : Finset (Fin n × Fin n)).filter
    (fun p => p.1 < p.2 ∧ p.2.val < N ∧ 0 < ∑ k, (x p.1 k - x p.2 k) ^ 2)).val.map (fun p => ∑ k, (x p.1 k - x p.2 k) ^ 2)

/-- At most half of the numbers are smaller and at most half of them are larger than `m`, and there is a number. -/
def IsMedian (s : Multiset ℝ) (m : ℝ) : Prop :=
  0 < s.card ∧ 2 * s.countP (· < m) ≤ s.card ∧ 2 * s.countP (m < ·) ≤ s.card

end Verif.Hsic.Spec
