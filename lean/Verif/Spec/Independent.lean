import Mathlib.Data.Real.Basic
import Mathlib.Algebra.BigOperators.Fin

/-! Vocabulary for samples that are exactly independent.  Nothing here refers to the model of the code. -/
set_option autoImplicit false
namespace Verif

variable {N : Nat}

/-- Two samples are exactly independent: every pair of values is as frequent as the product of the frequencies says, that is,
the mean of a product of functions of the two is the product of the means.  The observations may be numbers or vectors. -/
def SampleIndependent {α β : Type} (x : Fin N → α) (e : Fin N → β) : Prop :=
  ∀ (f : α → ℝ) (g : β → ℝ), N * ∑ r, f (x r) * g (e r) = (∑ r, f (x r)) * ∑ r, g (e r)

/-- A sample takes two different values equally often, like the throws of a fair coin. -/
def FairCoin (x : Fin N → ℝ) : Prop := ∃ m d : ℝ, d ≠ 0 ∧ (∀ r, x r = m + d ∨ x r = m - d) ∧ ∑ r, x r = N * m

end Verif
