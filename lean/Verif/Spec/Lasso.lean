import Verif.Spec.Pairwise

/-! Vocabulary for regressions on a list of columns.  Nothing here refers to the model of the code. -/
set_option autoImplicit false
namespace Verif
open Finset

variable {N : Nat}

/-- Variance of a sample. -/
noncomputable def sampleVar (x : Fin N → ℝ) : ℝ := (∑ r, (x r - sampleMean x) ^ 2) / N

/-- Slope of the simple regression of `y` on `x`. -/
noncomputable def slope (x y : Fin N → ℝ) : ℝ :=
  (∑ r, (x r - sampleMean x) * (y r - sampleMean y)) / ∑ r, (x r - sampleMean x) ^ 2

/-- What a regression with intercept `b0` and coefficients `w` leaves unexplained. -/
noncomputable def unexplained (cols : List (Fin N → ℝ)) (y : Fin N → ℝ) (b0 : ℝ) (w : Nat → ℝ) : Fin N → ℝ :=
  fun r => y r - b0 - ∑ k ∈ range cols.length, w k * cols.getD k 0 r

/-- `w` are least squares coefficients of `y` on the columns, with intercept `b0`. -/
def SolvesRegression (cols : List (Fin N → ℝ)) (y : Fin N → ℝ) (b0 : ℝ) (w : Nat → ℝ) : Prop :=
  ∑ r, unexplained cols y b0 w r = 0 ∧ ∀ k, k < cols.length → ∑ r, unexplained cols y b0 w r * cols.getD k 0 r = 0

/-- The constant and the columns are linearly independent. -/
def IndependentCols (cols : List (Fin N → ℝ)) : Prop :=
  ∀ (b0 : ℝ) (w : Nat → ℝ), (∀ r, b0 + ∑ k ∈ range cols.length, w k * cols.getD k 0 r = 0) → ∀ k, k < cols.length → w k = 0

/-- Any columns of which there are fewer than rows are independent (together with the constant). -/
def GeneralPosition (n : Nat) (X : Nat → Fin N → ℝ) : Prop :=
  ∀ S : List Nat, S.Nodup → (∀ q ∈ S, q < n) → S.length < N → IndependentCols (S.map X)

/-- A routine that uses fewer columns than there are rows. -/
def FewColumns (select : List (Fin N → ℝ) → (Fin N → ℝ) → Nat → ℝ) : Prop :=
  ∀ cols y, ((range cols.length).filter (fun k => select cols y k ≠ 0)).card < N

/-- A least squares routine: its coefficients are always a solution. -/
def RightRegression (lin : List (Fin N → ℝ) → (Fin N → ℝ) → Nat → ℝ) : Prop :=
  ∀ cols y, ∃ b0, SolvesRegression cols y b0 (lin cols y)

/-- What is used about a Lasso path for centred data: it begins with the zero vector, reaches a least squares solution, and for
a single column it has no other break. -/
structure RightPath (lars : List (Fin N → ℝ) → (Fin N → ℝ) → List (Nat → ℝ)) : Prop where
  start : ∀ cols y, ∃ b l, lars cols y = b :: l ∧ ∀ k, k < cols.length → b k = 0
  stop : ∀ cols y, (∀ x ∈ cols, ∑ r, x r = 0) → ∑ r, y r = 0 → ∃ w ∈ lars cols y, SolvesRegression cols y 0 w
  one : ∀ x y, ∑ r, x r = 0 → ∑ r, y r = 0 → ∀ w ∈ lars [x] y, w 0 = 0 ∨ SolvesRegression [x] y 0 w

end Verif
