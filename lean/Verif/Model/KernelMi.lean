import Mathlib.Analysis.Matrix.PosDef
import Mathlib.Analysis.SpecialFunctions.Exp
import Mathlib.Analysis.SpecialFunctions.Log.Basic
import Mathlib.Data.Matrix.Block

/-!
Model of `_mutual_information`, the measure `kernel` of `lingam/direct_lingam.py`, over the reals.  A sample of `n` rows is a
function `Fin n → ℝ`.
-/
set_option autoImplicit false
namespace Verif.KernelMi
open Matrix

/-- lingam/direct_lingam.py:290-293: `[kappa, sigma]` for `n` rows. -/
noncomputable def params (n : Nat) : ℝ × ℝ := if 1000 < n then (2 / 1000, 1 / 2) else (2 / 100, 1)

/-- lingam/direct_lingam.py:267-270: `X = np.tile(x, (n, 1))` has entry `x[j]` in row `i` and column `j`. -/
noncomputable def gram {n : Nat} (sigma : ℝ) (x : Fin n → ℝ) : Matrix (Fin n) (Fin n) ℝ :=
  of fun i j => Real.exp (-1 / (2 * sigma ^ 2) * (x j ^ 2 + x i ^ 2 - 2 * x j * x i))

/-- lingam/direct_lingam.py:272-273. -/
noncomputable def reg {n : Nat} (kappa : ℝ) (K : Matrix (Fin n) (Fin n) ℝ) : Matrix (Fin n) (Fin n) ℝ :=
  K + (n * kappa / 2) • (1 : Matrix (Fin n) (Fin n) ℝ)

/-- lingam/direct_lingam.py:274. -/
noncomputable def kKappa {n : Nat} (kappa : ℝ) (K1 K2 : Matrix (Fin n) (Fin n) ℝ) : Matrix (Fin n ⊕ Fin n) (Fin n ⊕ Fin n) ℝ :=
  fromBlocks (reg kappa K1 * reg kappa K1) (K1 * K2) (K2 * K1) (reg kappa K2 * reg kappa K2)

/-- lingam/direct_lingam.py:275-277. -/
noncomputable def dKappa {n : Nat} (kappa : ℝ) (K1 K2 : Matrix (Fin n) (Fin n) ℝ) : Matrix (Fin n ⊕ Fin n) (Fin n ⊕ Fin n) ℝ :=
  fromBlocks (reg kappa K1 * reg kappa K1) 0 0 (reg kappa K2 * reg kappa K2)

/-- lingam/direct_lingam.py:279-280: singular values, the square roots of the eigenvalues of `Aᵀ A` (in some order). -/
noncomputable def singular {ι : Type} [Fintype ι] [DecidableEq ι] (A : Matrix ι ι ℝ) (i : ι) : ℝ :=
  Real.sqrt ((isHermitian_conjTranspose_mul_self A).eigenvalues i)

/-- lingam/direct_lingam.py:282: `np.sum(np.log(sigma))`.  (The logarithm of 0 is `-inf` in numpy; it does not occur, see
`C166_no_log_of_zero`.) -/
noncomputable def sumLog {ι : Type} [Fintype ι] [DecidableEq ι] (A : Matrix ι ι ℝ) : ℝ := ∑ i, Real.log (singular A i)

/-- lingam/direct_lingam.py:263-282. -/
noncomputable def mutualInformation {n : Nat} (kappa sigma : ℝ) (x1 x2 : Fin n → ℝ) : ℝ :=
  -1 / 2 * (sumLog (kKappa kappa (gram sigma x1) (gram sigma x2)) - sumLog (dKappa kappa (gram sigma x1) (gram sigma x2)))

end Verif.KernelMi
