import Verif.Spec.Population
import Verif.Model.Rcd
import Mathlib.Data.Finset.Range

/-!
What it means that the statistical tests of RCD give the right answer about a linear model with independent non-Gaussian
sources (`SourceModel`), and that its regressions give the population coefficients.
-/
set_option autoImplicit false
namespace Verif.Rcd
open Finset

/-- All tests answer correctly about the variables `X` (coefficients on `m` independent non-Gaussian sources with
variances `σ`).
* a residual that is not zero is a combination of non-Gaussian sources, hence non-Gaussian;
* two residuals are reported as correlated iff their covariance is not zero;
* the residual of `x` on the variables `l` (all taken as residuals on `H`) is reported as independent of all of them iff
  it shares no source with any of them. -/
structure PerfectTests (n m : Nat) (σ : Nat → ℚ) (X : Nat → Nat → ℚ) (t : Tests) : Prop where
  nonGauss : ∀ H x, H ⊆ range n → x < n → x ∉ H → t.nonGauss H x = true
  corr : ∀ P a Q b, P ⊆ range n → Q ⊆ range n → a < n → b < n →
    (t.corr P a Q b = true ↔
      ∃ r s, IsResidual m σ X P (X a) r ∧ IsResidual m σ X Q (X b) s ∧ popCov m σ r s ≠ 0)
  indep : ∀ H x l, H ⊆ range n → x < n → (∀ u ∈ l, u < n) →
    (t.indep H x l = true ↔
      ∃ y r, (∀ u, u = x ∨ u ∈ l → IsResidual m σ X H (X u) (y u)) ∧ IsResidual m σ y l.toFinset (y x) r ∧
        ∀ u ∈ l, ShareNoSource m r (y u))

/-- The regressions return population least squares coefficients. -/
def PerfectCoef (n m : Nat) (σ : Nat → ℚ) (X : Nat → Nat → ℚ) (coef : Coef) : Prop :=
  ∀ ps x, ps.Sublist (List.range n) → x < n → ∃ r, IsRegression m σ X ps.toFinset (X x) (coef ps x) r

end Verif.Rcd
