import Mathlib.Algebra.Order.Field.Rat
import Mathlib.Algebra.BigOperators.Fin
import Mathlib.Algebra.Module.Pi
import Mathlib.LinearAlgebra.Span.Defs

/-! Vocabulary for regressions with an intercept.  Nothing here refers to the model of the code. -/
set_option autoImplicit false
namespace Verif

variable {N : Nat} {K : Type} [Field K]

/-- The linear combinations of the constant and of the columns `S`. -/
def affineSpan (S : List Nat) (X : Nat → Fin N → K) : Submodule K (Fin N → K) :=
  Submodule.span K ({f | f = fun _ => 1} ∪ {f | ∃ j ∈ S, f = X j})

/-- `res` is what remains of `y` after least squares with intercept on the columns `S`: it differs from `y` by a
combination of the constant and the columns, has mean zero and is uncorrelated with each of the columns. -/
def IsRegressionResidual (S : List Nat) (X : Nat → Fin N → K) (y res : Fin N → K) : Prop :=
  y - res ∈ affineSpan S X ∧ ∑ r, res r = 0 ∧ ∀ j ∈ S, ∑ r, res r * X j r = 0

/-- Rounding to six decimals: to a nearest multiple of `10⁻⁶`, ties either way. -/
def RoundsSix (rnd : ℚ → ℚ) : Prop := ∀ x, |rnd x - x| ≤ 1 / 2000000 ∧ ∃ k : ℤ, rnd x = k / 1000000

/-- Rows `i` with a relation to report: an unknown entry or a coefficient that is not taken for zero. -/
def HasRelation (n : Nat) (A : Nat → Nat → Option ℚ) (i : Nat) : Prop :=
  ∃ j, j < n ∧ (A i j = none ∨ ∃ x, A i j = some x ∧ 1 / 100000000 < |x|)

end Verif
