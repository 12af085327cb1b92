import Mathlib.LinearAlgebra.Matrix.NonsingularInverse
import Mathlib.LinearAlgebra.Matrix.Trace
import Mathlib.Analysis.SpecialFunctions.Log.Basic
import Mathlib.Analysis.SpecialFunctions.Sqrt
import Mathlib.Analysis.Complex.Trigonometric
import Verif.Model.Lina

/-!
Model of the objective of `MDLiNA._estimate_MDLiNA_H` (lingam/lina.py:409-461) over the real numbers: the matrix `H` (`q × h`)
maps the `q` factors of all domains to the `h` shared factors.  `f` is the `n × q` matrix of factor scores and `W` the current
`h × h` adjacency matrix.
-/
set_option autoImplicit false
namespace Verif.Lina
open Matrix

variable {n q h : Nat}

/-- `inv_HH = np.linalg.inv(H.T @ H)` (lingam/lina.py:418); a singular argument raises, see `hLoss`. -/
noncomputable def invHH (H : Matrix (Fin q) (Fin h) ℝ) : Matrix (Fin h) (Fin h) ℝ := (Hᵀ * H)⁻¹

/-- `R = fH @ inv_HH - M` with `M = fH @ inv_HH @ W` (lingam/lina.py:419-420, 426), before the standardisation. -/
noncomputable def rawResid (f : Matrix (Fin n) (Fin q) ℝ) (W : Matrix (Fin h) (Fin h) ℝ) (H : Matrix (Fin q) (Fin h) ℝ) :
    Matrix (Fin n) (Fin h) ℝ := f * H * invHH H - f * H * invHH H * W

/-- `np.mean` of a column (lingam/lina.py:429). -/
noncomputable def colMean (A : Matrix (Fin n) (Fin h) ℝ) (j : Fin h) : ℝ := (∑ s, A s j) / n

/-- `np.std` of a column (lingam/lina.py:430). -/
noncomputable def colStd (A : Matrix (Fin n) (Fin h) ℝ) (j : Fin h) : ℝ := Real.sqrt ((∑ s, (A s j - colMean A j) ^ 2) / n)

/-- The loop which centres and scales the columns (lingam/lina.py:428-430).  The standard deviation of the centred column is that of
the column; a constant column gives NaN in the code, excluded by hypotheses. -/
noncomputable def standardise (A : Matrix (Fin n) (Fin h) ℝ) : Matrix (Fin n) (Fin h) ℝ :=
  Matrix.of fun s j => (A s j - colMean A j) / colStd A j

/-- `np.tanh` of the standardised residuals (lingam/lina.py:433-443). -/
noncomputable def tanhR (f : Matrix (Fin n) (Fin q) ℝ) (W : Matrix (Fin h) (Fin h) ℝ) (H : Matrix (Fin q) (Fin h) ℝ) :
    Matrix (Fin n) (Fin h) ℝ := (standardise (rawResid f W H)).map Real.tanh

/-- `f - fH @ inv_HH @ H.T` (lingam/lina.py:445). -/
noncomputable def reconResid (f : Matrix (Fin n) (Fin q) ℝ) (H : Matrix (Fin q) (Fin h) ℝ) : Matrix (Fin n) (Fin q) ℝ :=
  f - f * H * invHH H * Hᵀ

/-- The value of the loss "laplace" (lingam/lina.py:431-432, 438, 444-446): `aa` is the trace if it is below 10000, else 0. -/
noncomputable def laplaceValue (f : Matrix (Fin n) (Fin q) ℝ) (W : Matrix (Fin h) (Fin h) ℝ) (H : Matrix (Fin q) (Fin h) ℝ) : ℝ :=
  (∑ s, ∑ j, Real.log (Real.cosh (standardise (rawResid f W H) s j))) + ((reconResid f H)ᵀ * reconResid f H).trace +
    ((Hᵀ * H).trace - if (Hᵀ * H).trace < 10000 then (Hᵀ * H).trace else 0)

/-- The last two terms of `D` without the term of the trace (lingam/lina.py:436, 442). -/
noncomputable def reconGrad (f : Matrix (Fin n) (Fin q) ℝ) (H : Matrix (Fin q) (Fin h) ℝ) : Matrix (Fin q) (Fin h) ℝ :=
  - ((2 : ℝ) • (fᵀ * (f * H) * invHH H)) + (2 : ℝ) • (H * invHH H * (f * H)ᵀ * (f * H) * invHH H)

/-- The matrix `D` returned with the loss "laplace" (lingam/lina.py:433-436, 439-442). -/
noncomputable def laplaceGrad (f : Matrix (Fin n) (Fin q) ℝ) (W : Matrix (Fin h) (Fin h) ℝ) (H : Matrix (Fin q) (Fin h) ℝ) :
    Matrix (Fin q) (Fin h) ℝ :=
  - (fᵀ * tanhR f W H * (1 - W) * invHH H) + H * invHH H * invHH H * (f * H)ᵀ * tanhR f W H * (1 - W) +
    H * invHH H * invHH H * (1 - W)ᵀ * (tanhR f W H)ᵀ * (f * H) + reconGrad f H +
    if (Hᵀ * H).trace < 10000 then 0 else (2 : ℝ) • H

/-- What `_loss` returns: the value and the matrix `D`, which has `q` rows and `cols` columns (lingam/lina.py:416-449). -/
structure HOut where
  value : ℝ
  cols : Nat
  grad : Nat → Nat → ℝ

/-- Index of an axis of length `m` under numpy's broadcasting: an axis of length one is repeated (lingam/lina.py:422). -/
def bidx (m k : Nat) : Nat := if m = 1 then 0 else k

/-- Entry of a matrix at natural number indices, 0 outside; used only inside the shapes (lingam/lina.py:422-424). -/
noncomputable def entry {a b : Nat} (A : Matrix (Fin a) (Fin b) ℝ) (i j : Nat) : ℝ :=
  if hij : i < a ∧ j < b then A ⟨i, hij.1⟩ ⟨j, hij.2⟩ else 0

/-- `R = f - M` of the loss "l2" with broadcasting of the `n × q` and `n × h` arrays (lingam/lina.py:422). -/
noncomputable def l2Resid (f : Matrix (Fin n) (Fin q) ℝ) (M : Matrix (Fin n) (Fin h) ℝ) (s k : Nat) : ℝ :=
  entry f s (bidx q k) - entry M s (bidx h k)

/-- The number of columns of `f - M` (lingam/lina.py:422). -/
def l2Cols (q h : Nat) : Nat := if q = 1 then h else q

/-- `_loss` for the four values of `loss_type` of the other losses of the class (lingam/lina.py:416-449); a singular `H.T @ H`, arrays
which cannot be broadcast and unknown loss types raise. -/
noncomputable def hLoss (lossType : String) (f : Matrix (Fin n) (Fin q) ℝ) (W : Matrix (Fin h) (Fin h) ℝ)
    (H : Matrix (Fin q) (Fin h) ℝ) : Except Err HOut :=
  if (Hᵀ * H).det = 0 then .error .linAlg
  else if lossType = "l2" then
    if q = h ∨ q = 1 ∨ h = 1 then
      .ok ⟨0.5 / n * ∑ s ∈ Finset.range n, ∑ k ∈ Finset.range (l2Cols q h), l2Resid f (f * H * invHH H * W) s k ^ 2, l2Cols q h,
        fun i k => - 1 / n * ∑ s ∈ Finset.range n, entry f s i * l2Resid f (f * H * invHH H * W) s k⟩
    else .error .value
  else if lossType = "laplace" then .ok ⟨laplaceValue f W H, h, entry (laplaceGrad f W H)⟩
  else .error .value

/-- `_adj`: the difference of the two halves (lingam/lina.py:451-453), here as two matrices. -/
def adjH (u v : Matrix (Fin q) (Fin h) ℝ) : Matrix (Fin q) (Fin h) ℝ := u - v

/-- The objective `_func` of the optimiser (loss "laplace"): `loss + lambda1 * h.sum()` (lingam/lina.py:455-459). -/
noncomputable def hObjective (lambda1 : ℝ) (f : Matrix (Fin n) (Fin q) ℝ) (W : Matrix (Fin h) (Fin h) ℝ)
    (u v : Matrix (Fin q) (Fin h) ℝ) : ℝ :=
  laplaceValue f W (adjH u v) + lambda1 * ((∑ i, ∑ j, u i j) + ∑ i, ∑ j, v i j)

/-- `grad_cat`: the two halves of the gradient given to the optimiser (lingam/lina.py:460-461). -/
noncomputable def hObjectiveGrad (lambda1 : ℝ) (f : Matrix (Fin n) (Fin q) ℝ) (W : Matrix (Fin h) (Fin h) ℝ)
    (u v : Matrix (Fin q) (Fin h) ℝ) : Matrix (Fin q) (Fin h) ℝ × Matrix (Fin q) (Fin h) ℝ :=
  (Matrix.of fun i j => laplaceGrad f W (adjH u v) i j + lambda1, Matrix.of fun i j => - laplaceGrad f W (adjH u v) i j + lambda1)

/-- What the passes of `_estimate_MDLiNA_H` need from the first pass: one evaluation of the objective at the random start
(lingam/lina.py:465-469); an exception leaves `fit`. -/
noncomputable def firstEvaluation (lossType : String) (maxIter : Nat) (f : Matrix (Fin n) (Fin q) ℝ) (W : Matrix (Fin h) (Fin h) ℝ)
    (u v : Matrix (Fin q) (Fin h) ℝ) : Except Err HOut :=
  if maxIter = 0 then .error .unbound else hLoss lossType f W (adjH u v)

end Verif.Lina
