import Verif.Model.AdaptiveLasso
import Verif.Model.HighDim

/-!
Model of the adjacency matrix of `HighDimDirectLiNGAM` with the regressions spelled out.  The numbers in the data are rational
(as floating point numbers are); the regressions are over the reals.  `LinearRegression`, `lars_path` and `LassoLarsCV` of
scikit-learn are oracles.
-/
set_option autoImplicit false
namespace Verif.HighDim
open Pairwise (Lin Lars scaled weight weighted predict)

variable {N : Nat}

/-- `LassoLarsCV().fit(columns, y).coef_`, lingam/high_dim_direct_lingam.py:230-232. -/
abbrev Cv (N : Nat) := List (Fin N → ℝ) → (Fin N → ℝ) → Nat → ℝ

/-- `pruned_idx` as the list of positions kept, for standardised data.  lingam/high_dim_direct_lingam.py:226-232. -/
noncomputable def keptCv (lin : Lin N) (cv : Cv N) (cols : List (Fin N → ℝ)) (y : Fin N → ℝ) : List Nat :=
  (List.range cols.length).filter (fun k => decide (0 < |cv (weighted lin cols y) y k * weight lin cols y k|))

/-- `_predict_adaptive_lasso`: the coefficient of the predictor at position `k`.  lingam/high_dim_direct_lingam.py:204-242. -/
noncomputable def predictCv (lin : Lin N) (cv : Cv N) (X : Nat → Fin N → ℝ) (ps : List Nat) (t k : Nat) : ℝ :=
  let idx := keptCv lin cv (ps.map (fun p => scaled (X p))) (scaled (X t))
  if k ∈ idx then lin (idx.map (fun i => X (ps.getD i 0))) (X t) (idx.idxOf k) else 0

/-- The data as real numbers.  lingam/high_dim_direct_lingam.py:63. -/
noncomputable def asReal (Y : Nat → Fin N → ℚ) : Nat → Fin N → ℝ := fun q r => (Y q r : ℝ)

/-- `LassoLarsIC` needs more rows than coefficients and intercept, `LassoLarsCV` needs five rows for its five folds.
lingam/high_dim_direct_lingam.py:107-114, 230; lingam/utils/__init__.py:777. -/
inductive FitErr | tooFewRows | tooFewFolds
deriving DecidableEq

/-- `fit`: the order and, unless switched off, the matrix.  No regression is run for the first variable of the order.
`none` is out of fuel.  lingam/high_dim_direct_lingam.py:49-114, 175-202; lingam/base.py:123-159. -/
noncomputable def fitLasso (c : Config) (K : Nat) (coef : Coef) (lin : Lin N) (lars : Lars N) (cv : Cv N) (estimateAdj : Bool)
    (p : Nat) (Y : Nat → Fin N → ℚ) : Option (Except FitErr (List Nat × Option (Nat → Nat → ℝ))) :=
  match order c (dataTau K coef Y) p with
  | none => none
  | some o => some (
    if estimateAdj then
      if N ≤ p then
        if (List.range' 1 (o.length - 1)).any (fun _ => decide (N < 5)) then .error .tooFewFolds
        else .ok (o, some (Direct.estimateAdj none (fun ps t q => predictCv lin cv (asReal Y) ps t (ps.idxOf q)) o))
      else
        if (List.range' 1 (o.length - 1)).any (fun i => decide (N ≤ (o.take i).length + 1)) then .error .tooFewRows
        else .ok (o, some (Direct.estimateAdj none (fun ps t q => predict lin lars (asReal Y) ps t (ps.idxOf q)) o))
    else .ok (o, none))

end Verif.HighDim
