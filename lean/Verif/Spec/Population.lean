import Verif.Spec.Graph
import Mathlib.Algebra.BigOperators.Group.Finset.Basic
import Mathlib.Algebra.Order.Field.Rat

/-!
Linear models with independent non-Gaussian sources at the level of the distribution.  A random variable is written as
the vector of its coefficients on the `m` independent sources; `σ k` is the variance of source `k`.  Nothing here refers
to the model of the code.
-/
set_option autoImplicit false
namespace Verif
open Finset

/-- `x_i = Σ_j B i j x_j + e_i + Σ_k L i k h_k`: source `k < n` is the own error of variable `k`, the sources
`n ≤ k < m` are hidden causes acting with weights `L`.  `X i k` is the coefficient of source `k` in variable `i`.
There is no hidden cause when `m = n`. -/
def SourceModel (n m : Nat) (B L X : Nat → Nat → ℚ) : Prop :=
  n ≤ m ∧ ∀ i, i < n → ∀ k, k < m →
    X i k = ∑ j ∈ range n, B i j * X j k + (if k < n then (if k = i then 1 else 0) else L i k)

/-- `j` is a proper ancestor of `i` in the graph of `B`. -/
def TrueAncestor (n : Nat) (B : Nat → Nat → ℚ) (j i : Nat) : Prop := Relation.TransGen (Edge n B 0) j i

/-- The hidden cause `k` acts on `i` or on an ancestor of `i`. -/
def HiddenAbove (n m : Nat) (B L : Nat → Nat → ℚ) (i k : Nat) : Prop :=
  n ≤ k ∧ k < m ∧ ∃ a, a < n ∧ L a k ≠ 0 ∧ (a = i ∨ TrueAncestor n B a i)

/-- No hidden cause acts on `i` or on an ancestor of `i`. -/
def NoHiddenAbove (n m : Nat) (B L : Nat → Nat → ℚ) (i : Nat) : Prop := ∀ k, ¬ HiddenAbove n m B L i k

/-- Covariance of two combinations of the sources. -/
def popCov (m : Nat) (σ : Nat → ℚ) (u v : Nat → ℚ) : ℚ := ∑ k ∈ range m, σ k * (u k * v k)

/-- `r` is the residual of `v` regressed (least squares) on the variables `Y h`, `h ∈ S`, with coefficients `c`. -/
def IsRegression (m : Nat) (σ : Nat → ℚ) (Y : Nat → Nat → ℚ) (S : Finset Nat) (v : Nat → ℚ) (c r : Nat → ℚ) : Prop :=
  (∀ k, k < m → r k = v k - ∑ h ∈ S, c h * Y h k) ∧ ∀ h ∈ S, popCov m σ r (Y h) = 0

/-- `r` is the least squares residual of `v` on the variables `Y h`, `h ∈ S`. -/
def IsResidual (m : Nat) (σ : Nat → ℚ) (Y : Nat → Nat → ℚ) (S : Finset Nat) (v r : Nat → ℚ) : Prop :=
  ∃ c, IsRegression m σ Y S v c r

/-- Two combinations of independent non-Gaussian sources are independent exactly when they share no source (theorem of
Darmois and Skitovich). -/
def ShareNoSource (m : Nat) (u v : Nat → ℚ) : Prop := ∀ k, k < m → u k = 0 ∨ v k = 0

end Verif
