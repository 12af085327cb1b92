import Verif.Spec.Lsem
import Verif.Model.DirectLingam
import Mathlib.Data.Rat.Floor

/-!
Model of the part of `DirectLiNGAM` that works on the data (`/repo/lingam/direct_lingam.py`), of
`predict_adaptive_lasso` (`/repo/lingam/utils/__init__.py`) and of `_BaseLiNGAM.estimate_total_effect`
(`/repo/lingam/base.py`).

A column is a vector of rationals with one entry for each row.  Square root, entropy, kernel mutual information, the
adaptive Lasso selection and the least squares solver are oracles.  Exact arithmetic; division by a zero variance gives 0
here and NaN in the code, so theorems assume the variances they need to be positive.
-/
set_option autoImplicit false
namespace Verif.Direct
open Finset

variable {N : Nat}

/-- `np.mean`, lingam/direct_lingam.py:223-224. -/
def mean (x : Fin N → ℚ) : ℚ := (∑ r, x r) / N

/-- `np.cov(x, y, bias=True)[0, 1]`, lingam/direct_lingam.py:151. -/
def cov (x y : Fin N → ℚ) : ℚ := (∑ r, (x r - mean x) * (y r - mean y)) / N

/-- `np.var`, lingam/direct_lingam.py:151. -/
def var (x : Fin N → ℚ) : ℚ := (∑ r, (x r - mean x) ^ 2) / N

/-- `_residual(xi, xj)`, lingam/direct_lingam.py:149-151. -/
def residual (xi xj : Fin N → ℚ) : Fin N → ℚ := fun r => xi r - cov xi xj / var xj * xj r

/-- The numerical oracles: square root, `_entropy` (lingam/direct_lingam.py:153-159) and `_mutual_information` with
the parameters chosen from the number of rows (263-282, 290-293). -/
structure Numerics (N : Nat) where
  sqrt : ℚ → ℚ
  entropy : (Fin N → ℚ) → ℚ
  mi : (Fin N → ℚ) → (Fin N → ℚ) → ℚ

/-- `np.std`, lingam/direct_lingam.py:163-164, 223-224. -/
def sd (num : Numerics N) (x : Fin N → ℚ) : ℚ := num.sqrt (var x)

/-- `(x - np.mean(x)) / np.std(x)`, lingam/direct_lingam.py:223-224; also `scale`, 88. -/
def standardize (num : Numerics N) (x : Fin N → ℚ) : Fin N → ℚ := fun r => (x r - mean x) / sd num x

/-- `_diff_mutual_info`, lingam/direct_lingam.py:161-165. -/
def diffMutualInfo (num : Numerics N) (xi xj ri rj : Fin N → ℚ) : ℚ :=
  (num.entropy xj + num.entropy (fun r => ri r / sd num ri)) -
    (num.entropy xi + num.entropy (fun r => rj r / sd num rj))

/-- The difference for one pair, lingam/direct_lingam.py:223-235. -/
def pairDiff (num : Numerics N) (X : Nat → Fin N → ℚ) (Uc Vj : List Nat) (i j : Nat) : ℚ :=
  let xi := standardize num (X i)
  let xj := standardize num (X j)
  let ri := if i ∈ Vj ∧ j ∈ Uc then xi else residual xi xj
  let rj := if j ∈ Vj ∧ i ∈ Uc then xj else residual xj xi
  diffMutualInfo num xi xj ri rj

/-- `M` for candidate `i`, lingam/direct_lingam.py:219-235. -/
def pwlingM (num : Numerics N) (X : Nat → Fin N → ℚ) (U Uc Vj : List Nat) (i : Nat) : ℚ :=
  ((U.filter (fun j => decide (i ≠ j))).map (fun j => (min 0 (pairDiff num X Uc Vj i j)) ^ 2)).sum

/-- `Tkernel` for candidate `j`, lingam/direct_lingam.py:296-306. -/
def kernelT (num : Numerics N) (X : Nat → Fin N → ℚ) (U Uc Vj : List Nat) (j : Nat) : ℚ :=
  ((U.filter (fun i => decide (i ≠ j))).map (fun i =>
    num.mi (X j) (if j ∈ Vj ∧ i ∈ Uc then X i else residual (X i) (X j)))).sum

/-- Conversion of a float to the integer type of the array it is assigned to (numpy truncates towards zero).
Relevant to lingam/direct_lingam.py:100. -/
def truncate (x : ℚ) : ℚ := if 0 ≤ x then (⌊x⌋ : ℚ) else (⌈x⌉ : ℚ)

/-- Removal of the effect of `m` from the other remaining columns, lingam/direct_lingam.py:98-100.  `store` is the
conversion on assignment: the identity for float data, truncation for integer data. -/
def removeEffect (store : ℚ → ℚ) (X : Nat → Fin N → ℚ) (U : List Nat) (m : Nat) : Nat → Fin N → ℚ :=
  fun i => if i ∈ U ∧ i ≠ m then fun r => store (residual (X i) (X m) r) else X i

/-- Working data and remaining variables after the removal of the variables `A` in this order,
lingam/direct_lingam.py:85-102. -/
def working (store : ℚ → ℚ) (n : Nat) (X : Nat → Fin N → ℚ) (A : List Nat) : (Nat → Fin N → ℚ) × List Nat :=
  A.foldl (fun s m => (removeEffect store s.1 s.2 m, s.2.filter (fun i => decide (i ≠ m)))) (X, List.range n)

/-- The values compared by the search, lingam/direct_lingam.py:212-237, 284-308.  With `kernel` the data are scaled
first (line 87-88), which also makes them floats.  `pwling_fast` (239-261) is an external library: `gpu`. -/
def dataScore (num : Numerics N) (gpu : Score) (measure : Measure) (store : ℚ → ℚ) (n : Nat) (X : Nat → Fin N → ℚ) :
    Score := fun A U Uc Vj i =>
  match measure with
  | .pwling => some (-1 * pwlingM num (working store n X A).1 U Uc Vj i)
  | .kernel => some (kernelT num (working id n (fun k => standardize num (X k)) A).1 U Uc Vj i)
  | .fast => gpu A U Uc Vj i

/-- `LinearRegression().fit(X[:, S], X[:, t]).coef_` as a function of predictors, target and predictor.
Used in lingam/utils/__init__.py:784-786 and lingam/base.py:88-91. -/
abbrev Ols := List Nat → Nat → Nat → ℚ

/-- `predict_adaptive_lasso`: a selection among the predictors, then least squares on the selected ones.  `select` gives
`pruned_idx`.  lingam/utils/__init__.py:750-788. -/
def adaptiveLasso (select : List Nat → Nat → Nat → Bool) (ols : Ols) : Lasso ℚ := fun ps t p =>
  let S := ps.filter (select ps t)
  if p ∈ S then ols S t p else 0

/-- `DirectLiNGAM.fit` on data, lingam/direct_lingam.py:61-116. -/
def fitData (cfg : Config) (num : Numerics N) (gpu : Score) (store : ℚ → ℚ) (select : List Nat → Nat → Nat → Bool)
    (ols : Ols) (n : Nat) (X : Nat → Fin N → ℚ) : Except Err (List Nat × (Nat → Nat → ℚ)) :=
  fit cfg (dataScore num gpu cfg.measure store n X) (adaptiveLasso select ols) n

/-- Predictors of `estimate_total_effect`: the source and its estimated parents, lingam/base.py:82-85. -/
def effectPredictors (n : Nat) (B : Nat → Nat → ℚ) (src : Nat) : List Nat :=
  src :: (List.range n).filter (fun j => decide (0 < |B src j|))

/-- `estimate_total_effect`; the warning about the order (lingam/base.py:72-79) has no effect on the result.
lingam/base.py:51-91. -/
def estimateTotalEffect (ols : Ols) (n : Nat) (B : Nat → Nat → ℚ) (src dst : Nat) : ℚ :=
  ols (effectPredictors n B src) dst src

end Verif.Direct
