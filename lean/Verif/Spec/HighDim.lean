import Verif.Spec.Lsem

/-!
Vocabulary for the high-dimensional variant: least squares residuals without intercept, the moment statistic, and errors
that are independent as far as the moments used are concerned.  Nothing here refers to the model of the code.
-/
set_option autoImplicit false
namespace Verif
open Finset

variable {N : Nat}

/-- `res` is what remains of `y` after least squares on the variables `S`, without an intercept: `y` minus a combination
of them, orthogonal to each of them. -/
def IsSampleResidual (S : List Nat) (Y : Nat → Fin N → ℚ) (y res : Fin N → ℚ) : Prop :=
  (∃ c : Nat → ℚ, ∀ r, res r = y r - (S.map (fun q => c q * Y q r)).sum) ∧ ∀ q ∈ S, ∑ r, res r * Y q r = 0

/-- `E[x^(K-1) y] E[x²] - E[x^K] E[x y]` up to sign; zero if `y` is a multiple of `x` plus something independent of `x`. -/
def momentGap (K : Nat) (x y : Fin N → ℚ) : ℚ :=
  |((∑ r, x r ^ (K - 1) * y r) * (∑ r, x r ^ 2) - (∑ r, x r ^ K) * ∑ r, x r * y r) / N ^ 2|

/-- Different errors are independent as far as the moments of orders 1 and `K - 1` of the first are concerned. -/
def MomentIndependent (K n : Nat) (e : Nat → Fin N → ℚ) : Prop :=
  ∀ i j, i < n → j < n → i ≠ j → ∑ r, e i r * e j r = 0 ∧ ∑ r, e i r ^ (K - 1) * e j r = 0

/-- Every variable has at most one direct cause among the `n` variables. -/
def AtMostOneCause (n : Nat) (B : Nat → Nat → ℚ) : Prop :=
  ∀ i j k, i < n → j < n → k < n → B i j ≠ 0 → B i k ≠ 0 → j = k

/-- After regressing a variable on others that it does not influence, a direct cause that was left out is visible. -/
def VisibleCauses (K n : Nat) (B : Nat → Nat → ℚ) (Y : Nat → Fin N → ℚ) : Prop :=
  ∀ v u S res, v < n → u < n → B v u ≠ 0 → (∀ q ∈ S, q < n ∧ q ≠ v ∧ ¬ Relation.TransGen (Edge n B 0) v q) → u ∉ S →
    IsSampleResidual S Y (Y v) res → momentGap K res (Y u) ≠ 0

/-- Every statistic that a procedure might look at is at least `δ`. -/
def StatisticsAtLeast (K n : Nat) (Y : Nat → Fin N → ℚ) (δ : ℚ) : Prop :=
  ∀ v u S res, v < n → u < n → u ≠ v → (∀ q ∈ S, q < n) → u ∉ S → v ∉ S → IsSampleResidual S Y (Y v) res →
    δ ≤ momentGap K res (Y u)

/-- `r` attains the smallest value of: the largest statistic of the variable with any other one, cut off at `cap`. -/
def SmallestMaximum (K n : Nat) (cap : ℚ) (Y : Nat → Fin N → ℚ) (r : Nat) : Prop :=
  ∀ v, v < n → ∀ b, (∀ u, u < n → u ≠ v → min cap (momentGap K (Y v) (Y u)) ≤ b) →
    ∀ u, u < n → u ≠ r → min cap (momentGap K (Y r) (Y u)) ≤ b

end Verif
