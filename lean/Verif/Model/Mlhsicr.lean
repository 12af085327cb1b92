import Verif.Model.Hsic

/-!
Model of `_get_resid_and_coef_by_MLHSICR` (the same code in `lingam/rcd.py`, `lingam/multi_group_rcd.py` and
`lingam/utils/_rcd.py`), over the real numbers: one variable `y` and the regressors `Z j`, each with `n` rows.  `none` is
NaN.  The optimiser `fmin_l_bfgs_b` is an oracle.
-/
set_option autoImplicit false
namespace Verif.Mlhsicr
open Finset Hsic

variable {n q : Nat}

/-- `np.reshape(v, [n_samples, 1])`.  lingam/rcd.py:192, 200, 209; lingam/multi_group_rcd.py:457, 465, 474;
lingam/utils/_rcd.py:210, 218, 227. -/
def col (v : Fin n → ℝ) : Dat n 1 := fun i _ => v i

/-- The residual for given coefficients.  lingam/rcd.py:204-207, 221-224; lingam/multi_group_rcd.py:469-472, 486-489;
lingam/utils/_rcd.py:222-225, 239-242. -/
noncomputable def resid (y : Fin n → ℝ) (Z : Fin q → Fin n → ℝ) (c : Fin q → ℝ) : Fin n → ℝ :=
  fun i => y i - ∑ j, c j * Z j i

/-- The kernel width used for the residual.  lingam/rcd.py:205-208; lingam/multi_group_rcd.py:470-473;
lingam/utils/_rcd.py:223-226. -/
noncomputable def width (wy : ℝ) (wz : Fin q → ℝ) (c : Fin q → ℝ) : ℝ := wy - ∑ j, c j * wz j

/-- `sum_empirical_hsic` for given widths; a width of 0 gives `0 / 0` on the diagonal of the Gram matrix and hence NaN
everywhere.  lingam/rcd.py:203-214; lingam/multi_group_rcd.py:468-479; lingam/utils/_rcd.py:221-232. -/
noncomputable def sumHsic (y : Fin n → ℝ) (Z : Fin q → Fin n → ℝ) (wy : ℝ) (wz : Fin q → ℝ) (c : Fin q → ℝ) : Option ℝ :=
  if width wy wz c = 0 then none
  else some (∑ j, testStat (centred (rbf (col (resid y Z c)) (width wy wz c))) (centred (rbf (col (Z j)) (wz j))))

/-- `sum_empirical_hsic` as a function of the data: the widths come from `get_kernel_width`, NaN for a column that is
constant over the first 100 rows.  (With at least one regressor; the code calls it with two or more.)
lingam/rcd.py:188-214; lingam/multi_group_rcd.py:453-479; lingam/utils/_rcd.py:206-232. -/
noncomputable def objective (y : Fin n → ℝ) (Z : Fin q → Fin n → ℝ) (c : Fin q → ℝ) : Option ℝ :=
  match kernelWidth (col y) with
  | none => none
  | some wy =>
    if ∀ j, (kernelWidth (col (Z j))).isSome then
      sumHsic y Z wy (fun j => (kernelWidth (col (Z j))).getD 0) c
    else none

/-- The whole function: `opt f x0` stands for `fmin_l_bfgs_b(func=f, x0=x0, approx_grad=True)`, `ols` for the coefficients
of the least squares regression.  lingam/rcd.py:186-224; lingam/multi_group_rcd.py:451-489; lingam/utils/_rcd.py:204-242. -/
noncomputable def fitResid (opt : ((Fin q → ℝ) → Option ℝ) → (Fin q → ℝ) → (Fin q → ℝ)) (ols : Fin q → ℝ) (y : Fin n → ℝ)
    (Z : Fin q → Fin n → ℝ) : (Fin n → ℝ) × (Fin q → ℝ) :=
  let c := opt (objective y Z) ols
  (resid y Z c, c)

end Verif.Mlhsicr
