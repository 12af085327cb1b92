import Verif.Spec.Lsem
import Verif.Spec.TimeSeries

/-!
Specification vocabulary for regressions on the past of a series.  Nothing here refers to the model of the code.
Observation `r` of a series `x` analysed with `p` lags is the time `r + p`.
-/
set_option autoImplicit false
namespace Verif
open Finset

/-- Variable `j`, `k + 1` steps before observation `r`. -/
def past (p : Nat) (x : Nat → Nat → ℚ) (k j r : Nat) : ℚ := x (r + p - (k + 1)) j

/-- `A k i j` (lag `k + 1`) are least squares coefficients without intercept of every variable on the past: the residual is
orthogonal to all values of the past. -/
def PlainLeastSquares (n p N : Nat) (A : Nat → Nat → Nat → ℚ) (x : Nat → Nat → ℚ) : Prop :=
  ∀ i, i < n → ∀ k, k < p → ∀ j, j < n →
    ∑ r ∈ range N, (x (r + p) i - ∑ l ∈ range p, ∑ m ∈ range n, A l i m * past p x l m r) * past p x k j r = 0

/-- The past values are linearly independent. -/
def PastIndependent (n p N : Nat) (x : Nat → Nat → ℚ) : Prop :=
  ∀ d : Nat → Nat → ℚ, (∀ r, r < N → ∑ k ∈ range p, ∑ j ∈ range n, d k j * past p x k j r = 0) →
    ∀ k, k < p → ∀ j, j < n → d k j = 0

/-- The past values are linearly independent, also together with a constant. -/
def PastIndependentC (n p N : Nat) (x : Nat → Nat → ℚ) : Prop :=
  ∀ (d : Nat → Nat → ℚ) (a : ℚ), (∀ r, r < N → ∑ k ∈ range p, ∑ j ∈ range n, d k j * past p x k j r = a) →
    ∀ k, k < p → ∀ j, j < n → d k j = 0

/-- The series follows the structural equations with coefficients `B` and errors `e` (time, variable) at every time from
`p` on. -/
def FollowsVar (n p T : Nat) (B : Nat → Nat → Nat → ℚ) (x e : Nat → Nat → ℚ) : Prop :=
  ∀ t, p ≤ t → t < T → StructEq n p B x t (e t)

/-- The errors are orthogonal to the past. -/
def OrthogonalPast (n p N : Nat) (x e : Nat → Nat → ℚ) : Prop :=
  ∀ i, i < n → ∀ k, k < p → ∀ j, j < n → ∑ r ∈ range N, e (r + p) i * past p x k j r = 0

/-- The errors are uncorrelated with the past. -/
def UncorrelatedPast (n p N : Nat) (x e : Nat → Nat → ℚ) : Prop :=
  ∀ i, i < n → ∀ k, k < p → ∀ j, j < n →
    Uncorrelated (fun r : Fin N => e (r + p) i) (fun r : Fin N => past p x k j r)

/-- Column `c` of a design given by its rows. -/
def column (rows : Nat → List ℚ) (c r : Nat) : ℚ := (rows r).getD c 0

/-- A regression with selection that is right: whenever `b` are least squares coefficients (with intercept) of `y` on all
`w` columns of the design, the columns it keeps include all with a nonzero `b`, and it returns least squares coefficients
for the kept columns and zero elsewhere. -/
def SelectsRight (reg : Nat → (Nat → List ℚ) → (Nat → ℚ) → Nat → ℚ) : Prop :=
  ∀ (N w : Nat) (rows : Nat → List ℚ) (y b : Nat → ℚ), (∀ r, r < N → (rows r).length = w) →
    (∀ c, c < w → Uncorrelated (fun r : Fin N => y r - ∑ c ∈ range w, b c * column rows c r)
      (fun r : Fin N => column rows c r)) →
    ∃ S ⊆ range w, (∀ c, c < w → b c ≠ 0 → c ∈ S) ∧ (∀ c, c ∉ S → reg N rows y c = 0) ∧
      ∀ c ∈ S, Uncorrelated (fun r : Fin N => y r - ∑ c ∈ S, reg N rows y c * column rows c r)
        (fun r : Fin N => column rows c r)

end Verif
