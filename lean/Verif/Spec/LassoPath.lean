import Verif.Spec.Lasso

/-! What a Lasso path is.  Nothing here refers to the model of the code. -/
set_option autoImplicit false
namespace Verif

variable {N : Nat}

/-- `v` minimises half the sum of squared errors plus `lam` times the sum of the absolute values of the coefficients. -/
def LassoMin (cols : List (Fin N → ℝ)) (y : Fin N → ℝ) (lam : ℝ) (v : Nat → ℝ) : Prop :=
  ∀ u : Nat → ℝ, (∑ r, unexplained cols y 0 v r ^ 2) / 2 + lam * ∑ k ∈ Finset.range cols.length, |v k| ≤
    (∑ r, unexplained cols y 0 u r ^ 2) / 2 + lam * ∑ k ∈ Finset.range cols.length, |u k|

/-- `l` has the Lasso coefficients at penalties that decrease to 0, and between two of them the Lasso coefficients are linear in
the penalty. -/
def LassoPath (cols : List (Fin N → ℝ)) (y : Fin N → ℝ) (l : List (Nat → ℝ)) : Prop :=
  ∃ lam : Nat → ℝ, (∀ i, i < l.length → 0 ≤ lam i ∧ LassoMin cols y (lam i) (l.getD i 0)) ∧ lam (l.length - 1) = 0 ∧
    ∀ i, i + 1 < l.length → lam (i + 1) ≤ lam i ∧ ∀ θ : ℝ, 0 ≤ θ → θ ≤ 1 →
      LassoMin cols y ((1 - θ) * lam i + θ * lam (i + 1)) (fun k => (1 - θ) * l.getD i 0 k + θ * l.getD (i + 1) 0 k)

/-- A routine that returns Lasso paths for centred data of fewer than `n` columns. -/
def RightLasso (n : Nat) (lars : List (Fin N → ℝ) → (Fin N → ℝ) → List (Nat → ℝ)) : Prop :=
  ∀ cols y, cols.length < n → (∀ x ∈ cols, ∑ r, x r = 0) → ∑ r, y r = 0 → LassoPath cols y (lars cols y)

end Verif
