import Verif.Spec.Population
import Mathlib.Data.Finset.Range
import Mathlib.Data.List.Nodup

/-!
What it means that the statistics of RESIT are right about a linear model with independent non-Gaussian sources and a
linear regressor.  Nothing here refers to the model of the code.
-/
set_option autoImplicit false
namespace Verif.Resit

/-- The least squares residual of variable `t` on the variables `P` is independent of them. -/
def ResidualIndependent (m : Nat) (σ : Nat → ℚ) (X : Nat → Nat → ℚ) (P : Finset Nat) (t : Nat) : Prop :=
  ∃ r, IsResidual m σ X P (X t) r ∧ ∀ u ∈ P, ShareNoSource m r (X u)

/-- The compared statistic is smaller for independent residuals than for dependent ones, and the p-value exceeds the level
exactly for independent residuals. -/
structure RightTests (n m : Nat) (σ : Nat → ℚ) (X : Nat → Nat → ℚ) (s : List Nat → Nat → ℚ)
    (pval : Nat → List Nat → Option ℚ) (alpha : ℚ) : Prop where
  stat : ∀ S i j, S.Nodup → (∀ u ∈ S, u < n) → i ∈ S → j ∈ S →
    ResidualIndependent m σ X (S.toFinset.erase i) i → ¬ ResidualIndependent m σ X (S.toFinset.erase j) j → s S i < s S j
  pval : ∀ t ps, ps ≠ [] → ps.Nodup → (∀ u ∈ ps, u < n ∧ u ≠ t) → t < n →
    ((∃ p, pval t ps = some p ∧ alpha < p) ↔ ResidualIndependent m σ X ps.toFinset t)

end Verif.Resit
