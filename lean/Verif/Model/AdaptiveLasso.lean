import Verif.Model.Pairwise

/-!
Model over the reals of `predict_adaptive_lasso` (`/repo/lingam/utils/__init__.py`) and of the adjacency matrix that
`DirectLiNGAM.fit` builds with it.  `LinearRegression` and `lars_path` of scikit-learn are oracles; the choice on the path by
`LassoLarsIC(criterion="bic")` follows its documentation.  Exact arithmetic: the tolerances of scikit-learn for constant
columns and zero coefficients are 0.
-/
set_option autoImplicit false
namespace Verif.Pairwise
open Finset

variable {N : Nat}

/-- `StandardScaler().fit_transform(X)`: constant columns are only centred.  lingam/utils/__init__.py:769-770. -/
noncomputable def scaled (x : Fin N → ℝ) : Fin N → ℝ := fun r => (x r - mean x) / (if var x = 0 then 1 else √(var x))

/-- `LinearRegression().fit(columns, y).coef_`.  lingam/utils/__init__.py:773-774, 783-785. -/
abbrev Lin (N : Nat) := List (Fin N → ℝ) → (Fin N → ℝ) → Nat → ℝ

/-- The coefficient vectors at the breaks of the Lasso path, from the largest penalty to none, as computed inside
`LassoLarsIC`.  lingam/utils/__init__.py:776-777. -/
abbrev Lars (N : Nat) := List (Fin N → ℝ) → (Fin N → ℝ) → List (Nat → ℝ)

/-- The linear combination of columns.  lingam/utils/__init__.py:777. -/
noncomputable def comb (w : Nat → ℝ) (cols : List (Fin N → ℝ)) : Fin N → ℝ :=
  fun r => ∑ k ∈ range cols.length, w k * cols.getD k 0 r

/-- Residual sum of squares of coefficients for centred data.  lingam/utils/__init__.py:776-777 (inside `LassoLarsIC`). -/
noncomputable def rss (cols : List (Fin N → ℝ)) (y : Fin N → ℝ) (w : Nat → ℝ) : ℝ := ∑ r, (y r - comb w cols r) ^ 2

/-- Variance of the errors, estimated from the full regression.  lingam/utils/__init__.py:776-777 (inside `LassoLarsIC`). -/
noncomputable def noise (lin : Lin N) (cols : List (Fin N → ℝ)) (y : Fin N → ℝ) : ℝ :=
  rss cols y (lin cols y) / (N - cols.length - 1)

/-- Number of coefficients that are not zero.  lingam/utils/__init__.py:776-777 (inside `LassoLarsIC`). -/
noncomputable def dof (p : Nat) (w : Nat → ℝ) : Nat := ((range p).filter (fun k => w k ≠ 0)).card

/-- The criterion, lingam/utils/__init__.py:776-777 (inside `LassoLarsIC`). -/
noncomputable def bic (lin : Lin N) (cols : List (Fin N → ℝ)) (y : Fin N → ℝ) (w : Nat → ℝ) : ℝ :=
  N * Real.log (2 * Real.pi * noise lin cols y) + rss cols y w / noise lin cols y + Real.log N * dof cols.length w

/-- First element with the smallest value (`np.argmin`).  lingam/utils/__init__.py:776-777 (inside `LassoLarsIC`). -/
noncomputable def firstMin (f : (Nat → ℝ) → ℝ) : (Nat → ℝ) → List (Nat → ℝ) → (Nat → ℝ)
  | b, [] => b
  | b, c :: cs => if f c < f b then firstMin f c cs else firstMin f b cs

/-- `reg.coef_`; with error variance 0 the criterion is NaN everywhere and the first vector is taken.
lingam/utils/__init__.py:776-778. -/
noncomputable def larsIC (lin : Lin N) (lars : Lars N) (cols : List (Fin N → ℝ)) (y : Fin N → ℝ) : Nat → ℝ :=
  match lars cols y with
  | [] => fun _ => 0
  | b :: cs => if noise lin cols y = 0 then b else firstMin (bic lin cols y) b cs

/-- `weight` with `gamma = 1`, which is what all callers use.  lingam/utils/__init__.py:773-775. -/
noncomputable def weight (lin : Lin N) (cols : List (Fin N → ℝ)) (y : Fin N → ℝ) (k : Nat) : ℝ := |lin cols y k|

/-- `X_std[:, predictors] * weight`.  lingam/utils/__init__.py:777. -/
noncomputable def weighted (lin : Lin N) (cols : List (Fin N → ℝ)) (y : Fin N → ℝ) : List (Fin N → ℝ) :=
  (List.range cols.length).map (fun k r => cols.getD k 0 r * weight lin cols y k)

/-- `pruned_idx` as the list of positions kept, for standardised data.  lingam/utils/__init__.py:772-778. -/
noncomputable def kept (lin : Lin N) (lars : Lars N) (cols : List (Fin N → ℝ)) (y : Fin N → ℝ) : List Nat :=
  (List.range cols.length).filter (fun k =>
    decide (0 < |larsIC lin lars (weighted lin cols y) y k * weight lin cols y k|))

/-- `predict_adaptive_lasso`: the coefficient of the predictor at position `k`.  lingam/utils/__init__.py:750-788. -/
noncomputable def predict (lin : Lin N) (lars : Lars N) (X : Nat → Fin N → ℝ) (ps : List Nat) (t k : Nat) : ℝ :=
  let idx := kept lin lars (ps.map (fun p => scaled (X p))) (scaled (X t))
  if k ∈ idx then lin (idx.map (fun i => X (ps.getD i 0))) (X t) (idx.idxOf k) else 0

/-- Why `fit` fails: in the search for the order, or in `LassoLarsIC` when there are not more rows than coefficients.
lingam/direct_lingam.py:61-116, lingam/utils/__init__.py:777. -/
inductive FitErr where
  | order (e : Direct.Err)
  | tooFewRows

/-- `DirectLiNGAM.fit`.  lingam/direct_lingam.py:61-116, lingam/base.py:123-159, lingam/utils/__init__.py:750-788. -/
noncomputable def fitLasso (cfg : Direct.Config) (lin : Lin N) (lars : Lars N) (n : Nat) (X : Nat → Fin N → ℝ) :
    Except FitErr (List Nat × (Nat → Nat → ℝ)) :=
  match fitOrder cfg n X with
  | .error e => .error (.order e)
  | .ok order =>
    if (List.range' 1 (order.length - 1)).any (fun i =>
      let m := (Direct.predictors cfg.pk (order.take i) (order.getD i 0)).length
      decide (m ≠ 0 ∧ N ≤ m + 1)) then .error .tooFewRows
    else .ok (order, Direct.estimateAdj cfg.pk (fun ps t p => predict lin lars X ps t (ps.idxOf p)) order)

end Verif.Pairwise
