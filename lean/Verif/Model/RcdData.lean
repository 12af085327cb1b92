import Verif.Model.Rcd
import Verif.Model.Mlhsicr
import Verif.Model.FCorr

/-!
Model of the tests of `lingam/rcd.py` as functions of the data, over the real numbers.  Column `j` of the data is
`X j`, with `N` rows.  `LinearRegression`, `shapiro`, the distribution function behind `pearsonr`, the survival function
of the gamma distribution, the linear algebra of the F-correlation and `fmin_l_bfgs_b` are oracles.  Exceptions (fewer than
four rows with HSIC, fewer than three with `shapiro`) are not modelled: such a test counts as failed.
-/
set_option autoImplicit false
namespace Verif.RcdData
open Finset

variable {N : Nat}

/-- Mean of a column (`LinearRegression` centres the data).  lingam/rcd.py:140-142. -/
noncomputable def mean (v : Fin N → ℝ) : ℝ := (∑ r, v r) / N

/-- What is called from libraries.
* `ols q Z y`: `lr.coef_` for the regressors `Z 0, …, Z (q - 1)` (lingam/rcd.py:140-141);
* `shapiro v`: the p-value of `shapiro` (lingam/rcd.py:157);
* `pearsonSf r`: the two-sided p-value of a correlation of absolute value `r` (lingam/rcd.py:163);
* `gammaSf`: `gamma.sf` (lingam/rcd.py:179);
* `R`: eigenvalues for `f_correlation` (lingam/rcd.py:182);
* `opt q f x0`: `fmin_l_bfgs_b` (lingam/rcd.py:217-219). -/
structure Lib (N : Nat) where
  ols : (q : Nat) → (Fin q → Fin N → ℝ) → (Fin N → ℝ) → Fin q → ℝ
  shapiro : (Fin N → ℝ) → ℝ
  pearsonSf : ℝ → ℝ
  gammaSf : ℝ → ℝ → ℝ → ℝ
  R : FCorr.Routines
  opt : (q : Nat) → ((Fin q → ℝ) → Option ℝ) → (Fin q → ℝ) → Fin q → ℝ

/-- Arguments of the constructor.  lingam/rcd.py:32-42. -/
structure Cfg where
  corAlpha : ℝ
  indAlpha : ℝ
  shapiroAlpha : ℝ
  mlhsicr : Bool
  hsic : Bool
  indCorr : ℝ

/-- `y - lr.predict(Z)` for given coefficients.  lingam/rcd.py:142. -/
noncomputable def residOf {q : Nat} (c : Fin q → ℝ) (Z : Fin q → Fin N → ℝ) (y : Fin N → ℝ) : Fin N → ℝ :=
  fun r => y r - (∑ k, c k * Z k r + (mean y - ∑ k, c k * mean (Z k)))

/-- The columns listed in `l`.  lingam/rcd.py:141. -/
def cols (Y : Nat → Fin N → ℝ) (l : List Nat) : Fin l.length → Fin N → ℝ := fun k => Y (l.get k)

/-- `_get_resid_and_coef`, the residual.  lingam/rcd.py:138-143. -/
noncomputable def resid (L : Lib N) (Y : Nat → Fin N → ℝ) (x : Nat) (l : List Nat) : Fin N → ℝ :=
  residOf (L.ols l.length (cols Y l) (Y x)) (cols Y l) (Y x)

/-- A set of variables as a list (iteration over a set of small integers).  lingam/rcd.py:151, 320, 325, 349. -/
def listOf (n : Nat) (H : Finset Nat) : List Nat := (List.range n).filter (fun k => decide (k ∈ H))

/-- `_get_residual_matrix` and the residuals of `_is_parent` and `_get_resid_to_parent`: column `x` with `H` regressed
out; the column itself for an empty set.  lingam/rcd.py:145-152, 318-330, 345-350. -/
noncomputable def without (L : Lib N) (n : Nat) (X : Nat → Fin N → ℝ) (H : Finset Nat) (x : Nat) : Fin N → ℝ :=
  if H = ∅ then X x else resid L X x (listOf n H)

/-- Sum of products of deviations from the mean.  lingam/rcd.py:163 (`pearsonr`). -/
noncomputable def codev (a b : Fin N → ℝ) : ℝ := ∑ r, (a r - mean a) * (b r - mean b)

/-- The p-value of `pearsonr`; NaN for a constant column.  lingam/rcd.py:163. -/
noncomputable def pearsonP (L : Lib N) (a b : Fin N → ℝ) : Option ℝ :=
  if codev a a = 0 ∨ codev b b = 0 then none
  else some (L.pearsonSf |codev a b / (Real.sqrt (codev a a) * Real.sqrt (codev b b))|)

/-- `_is_correlated`; a comparison with NaN is false.  lingam/rcd.py:161-163. -/
noncomputable def isCorrelated (L : Lib N) (c : Cfg) (a b : Fin N → ℝ) : Bool :=
  match pearsonP L a b with
  | some p => decide (p < c.corAlpha)
  | none => false

/-- `_is_independent`, with the default `bw_method`; a comparison with NaN is false.  lingam/rcd.py:176-184. -/
noncomputable def isIndependent (L : Lib N) (c : Cfg) (a b : Fin N → ℝ) : Bool :=
  if c.hsic then
    match Hsic.test L.gammaSf (Mlhsicr.col a) (Mlhsicr.col b) with
    | .ok (_, some p) => decide (c.indAlpha < p)
    | _ => false
  else
    match FCorr.fcorr L.R a b with
    | some v => decide (v < c.indCorr)
    | none => false

/-- The residual of `_get_resid_and_coef_by_MLHSICR`.  lingam/rcd.py:186-224. -/
noncomputable def residMlhsicr (L : Lib N) (Y : Nat → Fin N → ℝ) (x : Nat) (l : List Nat) : Fin N → ℝ :=
  (Mlhsicr.fitResid (L.opt l.length) (L.ols l.length (cols Y l) (Y x)) (Y x) (cols Y l)).1

/-- `_is_independent_of_resid`.  lingam/rcd.py:226-252. -/
noncomputable def isIndependentOfResid (L : Lib N) (c : Cfg) (Y : Nat → Fin N → ℝ) (x : Nat) (l : List Nat) : Bool :=
  if l.all (fun y => isIndependent L c (resid L Y x l) (Y y)) then true
  else if l.length = 1 ∨ c.mlhsicr = false then false
  else l.all (fun y => isIndependent L c (residMlhsicr L Y x l) (Y y))

/-- All tests as functions of the data.  lingam/rcd.py:145-163, 226-252, 318-330, 357-364. -/
noncomputable def tests (L : Lib N) (c : Cfg) (n : Nat) (X : Nat → Fin N → ℝ) : Rcd.Tests where
  nonGauss := fun H x => !decide (c.shapiroAlpha < L.shapiro (without L n X H x))
  corr := fun A a B b => isCorrelated L c (without L n X A a) (without L n X B b)
  indep := fun H x l => isIndependentOfResid L c (without L n X H) x l

/-- The coefficient of the column `j` in the regression of column `i` on the columns `ps`.  lingam/rcd.py:386-393. -/
noncomputable def coef (L : Lib N) (X : Nat → Fin N → ℝ) (ps : List Nat) (i j : Nat) : ℝ :=
  if h : ps.idxOf j < ps.length then L.ols ps.length (cols X ps) (X i) ⟨ps.idxOf j, h⟩ else 0

/-- `fit` for the data `X` with `n` columns.  lingam/rcd.py:104-130. -/
noncomputable def fit (L : Lib N) (c : Cfg) (n maxNum fuel : Nat) (X : Nat → Fin N → ℝ) :
    Option (Rcd.Anc × (Nat → Nat → Option ℝ)) :=
  Rcd.fit (tests L c n X) (coef L X) n maxNum fuel

end Verif.RcdData
