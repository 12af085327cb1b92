import Mathlib.Analysis.SpecialFunctions.Exp
import Mathlib.Analysis.SpecialFunctions.Sqrt
import Mathlib.Data.Matrix.Mul
import Mathlib.Algebra.BigOperators.Fin

/-! Vocabulary for kernel correlations.  Nothing here refers to the model of the code. -/
set_option autoImplicit false
namespace Verif

open Matrix

variable {n : Nat}

/-- Gaussian kernel of width `σ`. -/
noncomputable def gauss (σ a b : ℝ) : ℝ := Real.exp (-(a - b) ^ 2 / (2 * σ ^ 2))

/-- Mean of a sample removed. -/
noncomputable def centre (v : Fin n → ℝ) : Fin n → ℝ := fun r => v r - (∑ q, v q) / n

/-- Quadratic form of the centred Gram matrix of the sample `z`: the sum over pairs of observations. -/
noncomputable def gramForm (σ : ℝ) (z v : Fin n → ℝ) : ℝ := ∑ r, ∑ s, centre v r * centre v s * gauss σ (z r) (z s)

/-- The symmetric matrix `K` lies below the centred Gram matrix of `z`, by at most `ε`. -/
def NearGram (σ ε : ℝ) (z : Fin n → ℝ) (K : Matrix (Fin n) (Fin n) ℝ) : Prop :=
  K.transpose = K ∧ ∀ v, 0 ≤ v ⬝ᵥ K *ᵥ v ∧ v ⬝ᵥ K *ᵥ v ≤ gramForm σ z v ∧ gramForm σ z v ≤ v ⬝ᵥ K *ᵥ v + ε * (v ⬝ᵥ v)

/-- Euclidean norm. -/
noncomputable def vnorm {m : Nat} (v : Fin m → ℝ) : ℝ := √(v ⬝ᵥ v)

/-- The regularised correlation of the functions with coefficients `α` and `β` (Bach and Jordan). -/
noncomputable def regCorr (c : ℝ) (K L : Matrix (Fin n) (Fin n) ℝ) (α β : Fin n → ℝ) : ℝ :=
  ((K *ᵥ α) ⬝ᵥ (L *ᵥ β)) / (vnorm (K *ᵥ α + c • α) * vnorm (L *ᵥ β + c • β))

/-- `ρ` is the largest regularised correlation. -/
def IsMaxRegCorr (c : ℝ) (K L : Matrix (Fin n) (Fin n) ℝ) (ρ : ℝ) : Prop :=
  (∀ α β, regCorr c K L α β ≤ ρ) ∧ ∃ α β, α ≠ 0 ∧ β ≠ 0 ∧ regCorr c K L α β = ρ

/-- `w` is an eigenvalue of `W` of smallest absolute value. -/
def IsSmallestEigenvalue {m : Nat} (W : Matrix (Fin m) (Fin m) ℝ) (w : ℝ) : Prop :=
  (∃ v, v ≠ 0 ∧ W *ᵥ v = w • v) ∧ ∀ μ v, v ≠ 0 → W *ᵥ v = μ • v → |w| ≤ |μ|

/-- Eigenvalues `D` and an orthogonal matrix `A` of eigenvectors of `W`. -/
def IsEigenDecomposition {m : Nat} (W : Matrix (Fin m) (Fin m) ℝ) (D : Fin m → ℝ) (A : Matrix (Fin m) (Fin m) ℝ) : Prop :=
  A.transpose * A = 1 ∧ W * A = A * Matrix.diagonal D

end Verif
