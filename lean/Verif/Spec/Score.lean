import Mathlib.Analysis.SpecialFunctions.Log.Basic
import Mathlib.Analysis.SpecialFunctions.Sqrt
import Mathlib.Algebra.BigOperators.Fin
import Mathlib.Data.Nat.Factorial.Basic

/-! Vocabulary for likelihoods.  Nothing here refers to the model of the code. -/
set_option autoImplicit false
namespace Verif

variable {N : Nat}

/-- Density at `t` of the Laplace distribution with mean zero and standard deviation `s`. -/
noncomputable def laplaceDensity (s t : ℝ) : ℝ := 1 / (√2 * s) * Real.exp (-(√2 * |t| / s))

/-- Log-likelihood of counts `y` under Poisson distributions with the logarithms `eta` of the rates. -/
noncomputable def poissonLogLik (eta : Fin N → ℝ) (y : Fin N → ℕ) : ℝ :=
  ∑ r, (y r * eta r - Real.exp (eta r) - Real.log (y r).factorial)

/-- A distribution of total mass at most one in which every observed value is possible. -/
def IsDistribution (y : Fin N → ℝ) (q : ℝ → ℝ) : Prop :=
  (∀ v, 0 ≤ q v) ∧ (∀ r, 0 < q (y r)) ∧ ∀ s : Finset ℝ, ∑ v ∈ s, q v ≤ 1

/-- `L` is the largest log-likelihood of the sample `y` over all distributions. -/
def IsMaxLogLik (y : Fin N → ℝ) (L : ℝ) : Prop :=
  (∀ q, IsDistribution y q → ∑ r, Real.log (q (y r)) ≤ L) ∧ ∃ q, IsDistribution y q ∧ ∑ r, Real.log (q (y r)) = L

end Verif
