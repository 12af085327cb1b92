import Verif.Spec.Graph
import Mathlib.Algebra.BigOperators.Group.Finset.Basic
import Mathlib.Algebra.BigOperators.Fin
import Mathlib.Algebra.Order.Field.Rat

/-!
Linear structural equation models on a finite sample.  A variable is a vector with one entry for each of the `N` rows.
Nothing here refers to the model of the code.
-/
set_option autoImplicit false
namespace Verif
open Finset

variable {N : Nat}

/-- `N²` times the sample covariance. -/
def sampleCov (x y : Fin N → ℚ) : ℚ := N * ∑ r, x r * y r - (∑ r, x r) * ∑ r, y r

/-- Zero sample correlation. -/
def Uncorrelated (x y : Fin N → ℚ) : Prop := N * ∑ r, x r * y r = (∑ r, x r) * ∑ r, y r

/-- The vector has two different entries. -/
def NonConstant (x : Fin N → ℚ) : Prop := ∃ r s, x r ≠ x s

/-- The variables `U` follow the linear model with coefficients `B` (row = target) and errors `e`, in every row. -/
def FollowsModel (U : Finset Nat) (B : Nat → Nat → ℚ) (X e : Nat → Fin N → ℚ) : Prop :=
  ∀ i ∈ U, ∀ r, X i r = ∑ j ∈ U, B i j * X j r + e i r

/-- The errors are uncorrelated in the sample and none is constant. -/
def GoodErrors (n : Nat) (e : Nat → Fin N → ℚ) : Prop :=
  (∀ i j, i < n → j < n → i ≠ j → Uncorrelated (e i) (e j)) ∧ ∀ i, i < n → NonConstant (e i)

/-- `c` are least squares coefficients (with an intercept) of `y` on the variables `S`: the residual is uncorrelated
with every predictor. -/
def IsLeastSquares (S : List Nat) (X : Nat → Fin N → ℚ) (y : Fin N → ℚ) (c : Nat → ℚ) : Prop :=
  ∀ q ∈ S, Uncorrelated (fun r => y r - (S.map (fun p => c p * X p r)).sum) (X q)

end Verif
