import Mathlib.Algebra.Order.Field.Basic
import Mathlib.Algebra.Order.Ring.Abs
import Mathlib.Algebra.BigOperators.Group.Finset.Basic
import Mathlib.Algebra.BigOperators.Intervals
import Verif.Model.Paths

/-!
Model of `VARLiNGAM` (`/repo/lingam/var_lingam.py`).

A series is a number of rows and the values `val t i` (time, variable).  Matrices are functions
`row → column → K`; row = target, column = source.  `statsmodels`' `VAR`, the LiNGAM model fitted to the
residuals and the adaptive lasso are oracles.
-/
set_option autoImplicit false
namespace Verif.Var

open Verif.Paths (Err)

variable {K : Type} [Field K] [LinearOrder K]

/-- lingam/var_lingam.py:86-100: A two-dimensional array of data: `rows` samples, `val t i` = variable `i` at time
`t`. -/
structure Data (K : Type) where
  rows : Nat
  val : Nat → Nat → K

/-- `np.dot` of two matrices with inner dimension `n` (used at lingam/var_lingam.py:362). -/
def mm (n : Nat) (A B : Nat → Nat → K) : Nat → Nat → K := fun i j => ∑ k ∈ Finset.range n, A i k * B k j

/-- `np.dot` of a matrix and a vector (used at lingam/var_lingam.py:165, 347). -/
def mv (n : Nat) (A : Nat → Nat → K) (x : Nat → K) : Nat → K := fun i => ∑ k ∈ Finset.range n, A i k * x k

/-- `np.eye(n_features) - B0` (lingam/var_lingam.py:362). -/
def oneSub (B : Nat → Nat → K) : Nat → Nat → K := fun i j => (if i = j then 1 else 0) - B i j

/-- lingam/var_lingam.py:355-365 `_calc_b`: `[B0, (I - B0) M_1, (I - B0) M_2, …]`. -/
def calcB (n : Nat) (B0 : Nat → Nat → K) (Ms : List (Nat → Nat → K)) : List (Nat → Nat → K) :=
  B0 :: Ms.map (fun M => mm n (oneSub B0) M)

/-- lingam/var_lingam.py:345-347: the accumulated `estimated`, `tau = 1, …, lags`, at time `t`.
`Ms[tau-1]` beyond the end would be an `IndexError`; the callers pass `lags = len(Ms)`. -/
def estimated (n : Nat) (Ms : List (Nat → Nat → K)) (lags : Nat) (x : Nat → Nat → K) (t i : Nat) : K :=
  ∑ tau ∈ Finset.range lags, mv n (Ms.getD tau (fun _ _ => 0)) (x (t - (tau + 1))) i

/-- lingam/var_lingam.py:340-349: the array `residuals` before the final slice (zero rows for `t < lags`). -/
def residFull (n : Nat) (Ms : List (Nat → Nat → K)) (lags : Nat) (x : Nat → Nat → K) (t i : Nat) : K :=
  if t < lags then 0 else x t i - estimated n Ms lags x t i

/-- lingam/var_lingam.py:334-353 `_calc_residuals`: the rows from `lags` on (line 351). -/
def calcResiduals (n : Nat) (X : Data K) (Ms : List (Nat → Nat → K)) (lags : Nat) : Data K :=
  { rows := X.rows - lags, val := fun r => residFull n Ms lags X.val (r + lags) }

/-! ### Pruning -/

/-- lingam/var_lingam.py:371-373: `stacked[k]` is the time-reversed series rolled by `-k`; row `r`. -/
def stacked (X : Data K) (k r c : Nat) : K := X.val (X.rows - 1 - (r + k) % X.rows) c

/-- lingam/var_lingam.py:374: `len(blocks)`, the slice `[: -self._lags]` (which is empty for `lags = 0`). -/
def nBlocks (X : Data K) (lags : Nat) : Nat := if lags = 0 then 0 else X.rows - lags

/-- lingam/var_lingam.py:385: one regressor row: the ancestors at the block's own time, then all variables at the
following `lags` positions of the block. -/
def expRow (n : Nat) (X : Data K) (lags : Nat) (anc : List Nat) (r : Nat) : List K :=
  anc.map (stacked X 0 r) ++
    (List.range lags).flatMap (fun k => (List.range n).map (stacked X (k + 1) r))

/-- lingam/var_lingam.py:381-387: the loop over the blocks.  Line 384 assigns to `exp[j:]`, i.e. to *all* rows from
`j` on; later iterations overwrite them again. -/
def expLoop (n : Nat) (X : Data K) (lags : Nat) (anc : List Nat) : Nat → List K :=
  (List.range (nBlocks X lags)).foldl
    (fun acc j => fun r => if j ≤ r then expRow n X lags anc j else acc r)
    (fun _ => List.replicate (anc.length + n * lags) 0)

/-- lingam/var_lingam.py:380, 383: the regressand. -/
def objVec (X : Data K) (i r : Nat) : K := stacked X 0 r i

/-- `B_taus[0][i, ancestor_indexes] = coef[:causal_order_no]` (lingam/var_lingam.py:395). -/
def setAnc (anc : List Nat) (coef : Nat → K) (row : Nat → K) (c : Nat) : K :=
  if c ∈ anc then coef (anc.idxOf c) else row c

/-- What the adaptive lasso (`predict_adaptive_lasso`, lingam/var_lingam.py:393) sees: the number of rows, the
regressor rows and the regressand; the result is `coef`. -/
abbrev Lasso (K : Type) := Nat → (Nat → List K) → (Nat → K) → Nat → K

/-- lingam/var_lingam.py:376-400, one iteration of the loop over the variables.  `lags` is `self._lags`.  The assignment
at 397-400 takes a slice that is empty (a shape error) when block `j ≥ self._lags` is asked for. -/
def pruneStep (n : Nat) (lasso : Lasso K) (X : Data K) (lags : Nat) (order : List Nat)
    (Bs : List (Nat → Nat → K)) (i : Nat) : List (Nat → Nat → K) :=
  let pos := order.idxOf i
  let anc := order.take pos
  let coef := lasso (nBlocks X lags) (expLoop n X lags anc) (objVec X i)
  Bs.mapIdx (fun j B => fun r c =>
    if r = i then
      (if j = 0 then setAnc anc coef (B i) c else coef (pos + n * (j - 1) + c))
    else B r c)

/-- lingam/var_lingam.py:367-402 `_pruning`. -/
def pruning (n : Nat) (lasso : Lasso K) (X : Data K) (lags : Nat) (order : List Nat)
    (Bs : List (Nat → Nat → K)) : Except Err (List (Nat → Nat → K)) :=
  if 0 < n ∧ lags < Bs.length - 1 then .error .valueError
  else .ok ((List.range n).foldl (pruneStep n lasso X lags order) Bs)

/-! ### The estimator object -/

/-- lingam/var_lingam.py:315-336: The outcome of `statsmodels`' `VAR(X).fit(maxlags=lag)`: `coefs`, `k_ar`, `resid`
and the value of the
information criterion (`none` for NaN or infinity: the comparison of line 328 is then false). -/
structure VarFit (K : Type) where
  coefs : List (Nat → Nat → K)
  kAr : Nat
  resid : Data K
  crit : Option K

/-- lingam/var_lingam.py:101, 317-325, 393: The external components: VAR estimation, LiNGAM on the residuals (order
and matrix), adaptive lasso. -/
structure Env (K : Type) where
  n : Nat
  var : Data K → Nat → VarFit K
  lingam : Data K → List Nat × (Nat → Nat → K)
  lasso : Lasso K

/-- The attributes of a `VARLiNGAM` object (lingam/var_lingam.py:54-65) and its results. -/
structure Obj (K : Type) where
  arCoefs : Option (List (Nat → Nat → K))
  lags : Nat
  useCriterion : Bool
  prune : Bool
  residuals : Option (Data K) := none
  causalOrder : Option (List Nat) := none
  adjacency : Option (List (Nat → Nat → K)) := none

/-- lingam/var_lingam.py:327-330: keep the first fit with the smallest criterion (strict comparison with the minimum so
far, initially `Inf`). -/
def better (best : Option (VarFit K)) (f : VarFit K) : Option (VarFit K) :=
  match f.crit, best with
  | none, _ => best
  | some _, none => some f
  | some v, some b => match b.crit with
    | none => some f
    | some w => if v < w then some f else best

/-- lingam/var_lingam.py:313-332 `_estimate_var_coefs`; `none` = the loop kept nothing (`AttributeError` at line 332). -/
def estimateVar (E : Env K) (o : Obj K) (X : Data K) : Option (VarFit K) :=
  if o.useCriterion then
    (List.range o.lags).foldl (fun best l => better best (E.var X (l + 1))) none
  else some (E.var X o.lags)

/-- lingam/var_lingam.py:92-98: coefficients, number of lags, residuals. -/
def arPart (E : Env K) (o : Obj K) (X : Data K) : Except Err (List (Nat → Nat → K) × Nat × Data K) :=
  match o.arCoefs with
  | none => match estimateVar E o X with
    | none => .error .valueError
    | some f => .ok (f.coefs, f.kAr, f.resid)
  | some Ms => .ok (Ms, Ms.length, calcResiduals E.n X Ms Ms.length)

/-- lingam/var_lingam.py:103-106. -/
def lagMatrices (E : Env K) (o : Obj K) (X : Data K) (Ms : List (Nat → Nat → K)) (order : List Nat)
    (B0 : Nat → Nat → K) : Except Err (List (Nat → Nat → K)) :=
  if o.prune then pruning E.n E.lasso X o.lags order (calcB E.n B0 Ms) else .ok (calcB E.n B0 Ms)

/-- lingam/var_lingam.py:67-115 `fit`.  An exception leaves the object unusable; only the successful outcome is a state. -/
def fit (E : Env K) (o : Obj K) (X : Data K) : Except Err (Obj K) :=
  match arPart E o X with
  | .error e => .error e
  | .ok (Ms, lags, resid) =>
    match lagMatrices E o X Ms (E.lingam resid).1 (E.lingam resid).2 with
    | .error e => .error e
    | .ok Bs => .ok { o with
        arCoefs := some Ms, lags := lags, residuals := some resid,
        causalOrder := some (E.lingam resid).1, adjacency := some Bs }

/-! ### Bootstrap -/

/-- lingam/var_lingam.py:158-167: one generated row, written into the array `x`.  `lags` is the setting stored before the
fit; a negative index (possible only if there are more matrices than `lags`) is not modelled: callers assume
`len(Ms) ≤ lags`. -/
def genStep (n lags : Nat) (Ms : List (Nat → Nat → K)) (e x : Nat → Nat → K) (j : Nat) : Nat → Nat → K :=
  fun r i => if r = j then
      (if j < lags then e j i
       else (∑ t ∈ Finset.range Ms.length, mv n (Ms.getD t (fun _ _ => 0)) (x (j - t - 1)) i) + e j i)
    else x r i

/-- lingam/var_lingam.py:157-167: the resampled series. -/
def generate (n lags : Nat) (Ms : List (Nat → Nat → K)) (e : Nat → Nat → K) (N : Nat) : Nat → Nat → K :=
  (List.range N).foldl (genStep n lags Ms e) (fun _ _ => 0)

/-- lingam/var_lingam.py:154-175, the loop of `bootstrap`: `resample i resid` are the residual rows drawn (with
replacement) from the *current* residuals in round `i`; before each fit `_ar_coefs` and `_lags` are reset (170-171).
-/
def bootLoop (E : Env K) (N : Nat) (resample : Nat → Data K → Nat → Nat → K)
    (ar0 : Option (List (Nat → Nat → K))) (lags0 : Nat) (fitted : List (Nat → Nat → K)) :
    List Nat → Obj K → List (List (Nat → Nat → K)) → Except Err (Obj K × List (List (Nat → Nat → K)))
  | [], o, acc => .ok (o, acc)
  | i :: is, o, acc =>
    let e := resample i (o.residuals.getD ⟨0, fun _ _ => 0⟩)
    let X' : Data K := ⟨N, generate E.n lags0 fitted e N⟩
    match fit E { o with arCoefs := ar0, lags := lags0 } X' with
    | .error err => .error err
    | .ok o' => bootLoop E N resample ar0 lags0 fitted is o' (acc ++ [o'.adjacency.getD []])

/-- lingam/var_lingam.py:117-194 `bootstrap`, without the total effects: the object afterwards and the matrices. -/
def bootstrap (E : Env K) (o : Obj K) (X : Data K) (nSampling : Nat)
    (resample : Nat → Data K → Nat → Nat → K) : Except Err (Obj K × List (List (Nat → Nat → K))) :=
  match fit E { o with useCriterion := false } X with
  | .error e => .error e
  | .ok o1 =>
    match bootLoop E X.rows resample o.arCoefs o.lags (o1.arCoefs.getD []) (List.range nSampling) o1 [] with
    | .error e => .error e
    | .ok (o2, ms) => .ok ({ o2 with useCriterion := o.useCriterion }, ms)

/-! ### Total effects and paths -/

/-- lingam/var_lingam.py:279-280: the matrices side by side, then zero rows up to a square of size `n * (p + 1)`. -/
def padded (n : Nat) (Bs : List (Nat → Nat → K)) (i j : Nat) : Option K :=
  some (if i < n then Bs.getD (j / n) (fun _ _ => 0) i (j % n) else 0)

/-- lingam/var_lingam.py:250-287 `estimate_total_effect2` (the warning of 267-276 has no effect on the value). -/
def totalEffect2 (n : Nat) (Bs : List (Nat → Nat → K)) (src dst lag : Nat) : Option (Except Err (Option K)) :=
  Paths.calcTotalEffect (n * Bs.length) (padded n Bs) (if lag = 0 then src else src + n * lag) dst

/-- lingam/var_lingam.py:177-191: the assignments `((to, column), value)` of the loops over the reversed causal order, the
sources at time `t` and the lagged sources, in loop order; `te from to lag` is `estimate_total_effect2`. -/
def totalAssigns {V : Type} (n lags : Nat) (order : List Nat) (te : Nat → Nat → Nat → V) : List ((Nat × Nat) × V) :=
  order.reverse.zipIdx.flatMap (fun x =>
    (order.take (n - (x.2 + 1))).map (fun v => ((x.1, v), te v x.1 0)) ++
    (List.range lags).flatMap (fun lag => (List.range n).map (fun v =>
      ((x.1, v + n * (lag + 1)), te v x.1 (lag + 1)))))

/-- lingam/var_lingam.py:149-151, 177-191 (and lingam/varma_lingam.py:173, 205-219): the array `total_effects[i]`, zeros
and then the assignments. -/
def bootTotals {V : Type} (n lags : Nat) (order : List Nat) (te : Nat → Nat → Nat → V) (zero : V) : Nat → Nat → V :=
  (totalAssigns n lags order te).foldl (fun m a => fun r c => if r = a.1.1 ∧ c = a.1.2 then a.2 else m r c)
    (fun _ _ => zero)

/-- lingam/var_lingam.py:502-512: one block assignment into `expansion_m`; `am` is the side-by-side matrix, and columns
`lag … lag + n` of it are taken, where `lag = n * (j - i)`. -/
def expandStep (n : Nat) (am : Nat → Nat → K) (m : Nat → Nat → K) (ij : Nat × Nat) : Nat → Nat → K :=
  fun r c =>
    if n * ij.1 ≤ r ∧ r < n * ij.1 + n ∧ n * ij.2 ≤ c ∧ c < n * ij.2 + n
    then am (r - n * ij.1) ((n * ij.2 - n * ij.1) + (c - n * ij.2)) else m r c

/-- lingam/var_lingam.py:505-506: the index pairs `i ≤ j ≤ n_lags`, in loop order. -/
def blockPairs (p : Nat) : List (Nat × Nat) :=
  (List.range (p + 1)).flatMap (fun i => (List.range' i (p + 1 - i)).map (fun j => (i, j)))

/-- lingam/var_lingam.py:502-512 (and lingam/varma_lingam.py:571-581): `expansion_m`. -/
def expansion (n p : Nat) (am : Nat → Nat → K) : Nat → Nat → K :=
  (blockPairs p).foldl (expandStep n am) (fun _ _ => 0)

/-- `np.concatenate([*adjacency_matrices], axis=1)` (lingam/var_lingam.py:174). -/
def concat (n : Nat) (Bs : List (Nat → Nat → K)) (i j : Nat) : K := Bs.getD (j / n) (fun _ _ => 0) i (j % n)

/-- lingam/var_lingam.py:487-518: the parameter checks and the path search of `VARBootstrapResult.get_paths` for one
bootstrap sample. -/
def pathsOf (n p : Nat) (am : Nat → Nat → K) (src dst srcLag dstLag : Nat) (thr : Option K) :
    Option (Except Err (List (List Nat) × List (Option K))) :=
  match thr with
  | some t => if ¬ 0 < t then some (.error .valueError) else go t
  | none => go 0
where
  /-- lines 492-518 -/
  go (t : K) : Option (Except Err (List (List Nat) × List (Option K))) :=
    if srcLag < dstLag then some (.error .valueError)
    else if dstLag = srcLag ∧ dst = src then some (.error .valueError)
    else Paths.findAllPaths (n * (p + 1)) (fun i j => some (expansion n p am i j))
      (n * srcLag + src) (n * dstLag + dst) t

/-! ### Regression-based total effect -/

/-- lingam/var_lingam.py:229-232: column `col` of `X_joined`, row `t`: block `p` is the series rolled by `p`. -/
def joined (n : Nat) (X : Data K) (t col : Nat) : K :=
  X.val ((t + X.rows - (col / n) % X.rows) % X.rows) (col % n)

/-- lingam/var_lingam.py:235-242: `predictors`. -/
def predictors (n : Nat) (Bs : List (Nat → Nat → K)) (src lag : Nat) : List Nat :=
  (if lag = 0 then src else src + n * lag) ::
    ((List.range (n * Bs.length)).filter (fun c => decide (0 < |concat n Bs src c|))).map
      (fun c => if lag = 0 then c else c + n * lag)

/-- lingam/var_lingam.py:196-248 `estimate_total_effect`: the first coefficient of the regression of column `to_index`
on the predictor columns; `ols` is `LinearRegression().fit(...).coef_` given rows, regressors and regressand. -/
def totalEffectReg (n : Nat) (ols : Nat → (Nat → List K) → (Nat → K) → Nat → K) (X : Data K)
    (Bs : List (Nat → Nat → K)) (src dst lag : Nat) : K :=
  ols X.rows (fun t => (predictors n Bs src lag).map (joined n X t)) (fun t => joined n X t dst) 0

end Verif.Var
