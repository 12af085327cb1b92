import Verif.Model.Var

/-!
Model of `VARMALiNGAM` (`/repo/lingam/varma_lingam.py`).

Conventions as in `Verif.Model.Var`.  `statsmodels`' `VARMAX`, the LiNGAM model, the adaptive lasso and the normal
random numbers of `_calc_residuals` are oracles.
-/
set_option autoImplicit false
namespace Verif.Varma

open Verif.Paths (Err)
open Verif.Var (Data mm mv oneSub concat)

variable {K : Type} [Field K] [LinearOrder K]

/-- lingam/varma_lingam.py:414-418: `psis = [psi0, (I - psi0) phi_1, …]`. -/
def calcPsi (n : Nat) (psi0 : Nat → Nat → K) (phis : List (Nat → Nat → K)) (p : Nat) : List (Nat → Nat → K) :=
  psi0 :: (phis.take p).map (fun phi => mm n (oneSub psi0) phi)

/-- lingam/varma_lingam.py:420-427: `np.dot(I - psi0, theta, inv(I - psi0))`.  The third argument of `np.dot` is the output
buffer: the product of the *first two* is returned, and the inverse is overwritten. -/
def calcOmega (n : Nat) (psi0 : Nat → Nat → K) (thetas : List (Nat → Nat → K)) (q : Nat) : List (Nat → Nat → K) :=
  (thetas.take q).map (fun theta => mm n (oneSub psi0) theta)

/-- One step of lingam/varma_lingam.py:395-408: the row `t` of `epsilon`. -/
def epsStep (n : Nat) (noise : Nat → Nat → K) (x : Nat → Nat → K) (phis thetas : List (Nat → Nat → K)) (start : Nat)
    (eps : Nat → Nat → K) (t : Nat) : Nat → Nat → K :=
  fun r i => if r = t then
      (if t < start then noise t i
       else x t i - ((∑ k ∈ Finset.range phis.length, mv n (phis.getD k (fun _ _ => 0)) (x (t - k - 1)) i) +
          (∑ k ∈ Finset.range thetas.length, mv n (thetas.getD k (fun _ _ => 0)) (eps (t - k - 1)) i)))
    else eps r i

/-- lingam/varma_lingam.py:394-408: the array `epsilon`. -/
def epsilon (n N : Nat) (noise : Nat → Nat → K) (x : Nat → Nat → K) (phis thetas : List (Nat → Nat → K)) :
    Nat → Nat → K :=
  (List.range N).foldl (epsStep n noise x phis thetas (max phis.length thetas.length)) (fun _ _ => 0)

/-- lingam/varma_lingam.py:387-412 `_calc_residuals` with `p = len(phis)`, `q = len(thetas)` (lines 111-113): the rows from
`max(p, q)` on. -/
def calcResiduals (n : Nat) (noise : Nat → Nat → K) (X : Data K) (phis thetas : List (Nat → Nat → K)) : Data K :=
  { rows := X.rows - max phis.length thetas.length,
    val := fun r => epsilon n X.rows noise X.val phis thetas (r + max phis.length thetas.length) }

/-! ### Pruning -/

/-- lingam/varma_lingam.py:436-445: row `t`, column `col` of `X_joined`: `1 + p` blocks of the rolled series, then `q`
blocks of the rolled errors (rolled by 1, 2, …). -/
def joined (n p : Nat) (X ee : Data K) (t col : Nat) : K :=
  if col / n < 1 + p then X.val ((t + X.rows - (col / n) % X.rows) % X.rows) (col % n)
  else ee.val ((t + ee.rows - (col / n - p) % ee.rows) % ee.rows) (col % n)

/-- lingam/varma_lingam.py:450-452: the columns that do not belong to the target's position or later ones at time `t`. -/
def predictors (n p q : Nat) (order : List Nat) (i : Nat) : List Nat :=
  (List.range (n * (1 + p + q))).filter (fun j => decide (j ∉ order.drop i))

/-- lingam/varma_lingam.py:455: What the adaptive lasso sees: number of rows, the data columns, the predictor columns
and the target column. -/
abbrev Lasso (K : Type) := Nat → (Nat → Nat → K) → List Nat → Nat → Nat → K

/-- lingam/varma_lingam.py:449-456: one row of `psi_omega`. -/
def pruneStep (n p q : Nat) (lasso : Lasso K) (X ee : Data K) (order : List Nat) (m : Nat → Nat → K)
    (it : Nat × Nat) : Nat → Nat → K :=
  let ps := predictors n p q order it.1
  let coef := lasso X.rows (joined n p X ee) ps it.2
  fun r c => if r = it.2 ∧ c ∈ ps then coef (ps.idxOf c) else m r c

/-- lingam/varma_lingam.py:448-456: `psi_omega`. -/
def psiOmega (n p q : Nat) (lasso : Lasso K) (X ee : Data K) (order : List Nat) : Nat → Nat → K :=
  (order.zipIdx.map (fun x => (x.2, x.1))).foldl (pruneStep n p q lasso X ee order) (fun _ _ => 0)

/-- lingam/varma_lingam.py:458-469: block `k` of `psi_omega`. -/
def block (n k : Nat) (m : Nat → Nat → K) : Nat → Nat → K := fun i j => m i (n * k + j)

/-- lingam/varma_lingam.py:431-469 `_pruning`.  Lines 441-445 write the (rolled) error rows into columns of `X_joined`: a
shape
error unless both have the same number of rows (or there is a single error row, which numpy broadcasts). -/
def pruning (n : Nat) (lasso : Lasso K) (X ee : Data K) (p q : Nat) (order : List Nat) :
    Except Err (List (Nat → Nat → K) × List (Nat → Nat → K)) :=
  if 0 < q ∧ 0 < n ∧ ee.rows ≠ X.rows ∧ ee.rows ≠ 1 then .error .valueError
  else
    let m := psiOmega n p q lasso X ee order
    .ok ((List.range (1 + p)).map (fun k => block n k m), (List.range q).map (fun k => block n (1 + p + k) m))

/-! ### The estimator object -/

/-- lingam/varma_lingam.py:360-385: The outcome of `VARMAX(X, order).fit()`; a coefficient array is `None` when its
order is 0. -/
structure VarmaFit (K : Type) where
  phis : Option (List (Nat → Nat → K))
  thetas : Option (List (Nat → Nat → K))
  order : Nat × Nat
  resid : Data K
  crit : Option K

/-- lingam/varma_lingam.py:116, 360, 373, 397, 455: The external components. -/
structure Env (K : Type) where
  n : Nat
  varmax : Data K → Nat × Nat → VarmaFit K
  lingam : Data K → List Nat × (Nat → Nat → K)
  lasso : Lasso K
  noise : Data K → Nat → Nat → K

/-- The attributes of a `VARMALiNGAM` object (lingam/varma_lingam.py:66-77) and its results. -/
structure Obj (K : Type) where
  ar : Option (List (Nat → Nat → K))
  ma : Option (List (Nat → Nat → K))
  order : Nat × Nat
  useCriterion : Bool
  prune : Bool
  residuals : Option (Data K) := none
  causalOrder : Option (List Nat) := none
  adjacency : Option (List (Nat → Nat → K) × List (Nat → Nat → K)) := none

/-- lingam/varma_lingam.py:365-370: the orders tried, `(0, 0)` removed. -/
def orders (o : Nat × Nat) : List (Nat × Nat) :=
  ((List.range (o.1 + 1)).flatMap (fun p => (List.range (o.2 + 1)).map (fun q => (p, q)))).erase (0, 0)

/-- lingam/varma_lingam.py:375-378. -/
def better (best : Option (VarmaFit K)) (f : VarmaFit K) : Option (VarmaFit K) :=
  match f.crit, best with
  | none, _ => best
  | some _, none => some f
  | some v, some b => match b.crit with
    | none => some f
    | some w => if v < w then some f else best

/-- lingam/varma_lingam.py:358-385 `_estimate_varma_coefs`; `none` = nothing kept (`AttributeError`). -/
def estimate (E : Env K) (o : Obj K) (X : Data K) : Option (VarmaFit K) :=
  if o.useCriterion then (orders o.order).foldl (fun best pq => better best (E.varmax X pq)) none
  else some (E.varmax X o.order)

/-- lingam/varma_lingam.py:104-113: coefficients, order, residuals. -/
def armaPart (E : Env K) (o : Obj K) (X : Data K) :
    Except Err (Option (List (Nat → Nat → K)) × Option (List (Nat → Nat → K)) × (Nat × Nat) × Data K) :=
  match o.ar, o.ma with
  | some phis, some thetas => .ok (some phis, some thetas, o.order, calcResiduals E.n (E.noise X) X phis thetas)
  | _, _ => match estimate E o X with
    | none => .error .valueError
    | some f => .ok (f.phis, f.thetas, f.order, f.resid)

/-- `(I - psi0) e_t` for every row (lingam/varma_lingam.py:123-126). -/
def disturbances (n : Nat) (psi0 : Nat → Nat → K) (R : Data K) : Data K :=
  { rows := R.rows, val := fun t => mv n (oneSub psi0) (R.val t) }

/-- lingam/varma_lingam.py:118-127: `phis[i]` beyond the end is an `IndexError`. -/
def matrices (E : Env K) (o : Obj K) (X : Data K) (phis thetas : List (Nat → Nat → K)) (pq : Nat × Nat)
    (resid : Data K) (order : List Nat) (psi0 : Nat → Nat → K) :
    Except Err (List (Nat → Nat → K) × List (Nat → Nat → K)) :=
  if phis.length < pq.1 ∨ thetas.length < pq.2 then .error .indexError
  else if o.prune then pruning E.n E.lasso X (disturbances E.n psi0 resid) pq.1 pq.2 order
  else .ok (calcPsi E.n psi0 phis pq.1, calcOmega E.n psi0 thetas pq.2)

/-- lingam/varma_lingam.py:79-137 `fit`. -/
def fit (E : Env K) (o : Obj K) (X : Data K) : Except Err (Obj K) :=
  match armaPart E o X with
  | .error e => .error e
  | .ok (phis, thetas, pq, resid) =>
    match matrices E o X (phis.getD []) (thetas.getD []) pq resid (E.lingam resid).1 (E.lingam resid).2 with
    | .error e => .error e
    | .ok ms => .ok { o with
        ar := phis, ma := thetas, order := pq, residuals := some resid,
        causalOrder := some (E.lingam resid).1, adjacency := some ms }

/-! ### Bootstrap -/

/-- lingam/varma_lingam.py:180-193: one generated row. -/
def genStep (n start : Nat) (phis thetas : List (Nat → Nat → K)) (e x : Nat → Nat → K) (j : Nat) : Nat → Nat → K :=
  fun r i => if r = j then
      (if j < start then e j i
       else (∑ t ∈ Finset.range phis.length, mv n (phis.getD t (fun _ _ => 0)) (x (j - t - 1)) i) + e j i +
        (∑ t ∈ Finset.range thetas.length, mv n (thetas.getD t (fun _ _ => 0)) (e (j - t - 1)) i))
    else x r i

/-- lingam/varma_lingam.py:179-193: the resampled series. -/
def generate (n start : Nat) (phis thetas : List (Nat → Nat → K)) (e : Nat → Nat → K) (N : Nat) : Nat → Nat → K :=
  (List.range N).foldl (genStep n start phis thetas e) (fun _ _ => 0)

/-- lingam/varma_lingam.py:179-193: the resampled series of one round; `enumerate(None)` raises for every row from
`start = max(p, q)` on if there is no AR or no MA part. -/
def bootSeries (n N start : Nat) (ar ma : Option (List (Nat → Nat → K))) (e : Nat → Nat → K) : Except Err (Data K) :=
  match ar, ma with
  | some phis, some thetas => .ok ⟨N, generate n start phis thetas e N⟩
  | _, _ => if start < N then .error .typeError else .ok ⟨N, generate n start [] [] e N⟩

/-- lingam/varma_lingam.py:175-203, the loop of `bootstrap`: `resample i resid` are the rows drawn from the *current*
residuals in round `i`; before each fit the coefficients are reset (196-197), the order is not. -/
def bootLoop (E : Env K) (N start : Nat) (resample : Nat → Data K → Nat → Nat → K)
    (ar0 ma0 fittedAr fittedMa : Option (List (Nat → Nat → K))) :
    List Nat → Obj K → List (List (Nat → Nat → K) × List (Nat → Nat → K)) →
      Except Err (Obj K × List (List (Nat → Nat → K) × List (Nat → Nat → K)))
  | [], o, acc => .ok (o, acc)
  | i :: is, o, acc =>
    match bootSeries E.n N start fittedAr fittedMa (resample i (o.residuals.getD ⟨0, fun _ _ => 0⟩)) with
    | .error err => .error err
    | .ok X' => match fit E { o with ar := ar0, ma := ma0 } X' with
      | .error err => .error err
      | .ok o' => bootLoop E N start resample ar0 ma0 fittedAr fittedMa is o' (acc ++ [o'.adjacency.getD ([], [])])

/-- lingam/varma_lingam.py:139-223 `bootstrap`, without the total effects. -/
def bootstrap (E : Env K) (o : Obj K) (X : Data K) (nSampling : Nat) (resample : Nat → Data K → Nat → Nat → K) :
    Except Err (Obj K × List (List (Nat → Nat → K) × List (Nat → Nat → K))) :=
  match fit E { o with useCriterion := false } X with
  | .error e => .error e
  | .ok o1 =>
    match bootLoop E X.rows (max o.order.1 o.order.2) resample o.ar o.ma o1.ar o1.ma (List.range nSampling) o1 [] with
    | .error e => .error e
    | .ok (o2, ms) => .ok ({ o2 with useCriterion := o.useCriterion }, ms)

/-! ### Total effects -/

/-- lingam/varma_lingam.py:293-332 `estimate_total_effect2`: line 327 adds `n_features` for *every* nonzero lag. -/
def totalEffect2 (n : Nat) (psis : List (Nat → Nat → K)) (src dst lag : Nat) : Option (Except Err (Option K)) :=
  Paths.calcTotalEffect (n * psis.length) (Var.padded n psis) (if lag = 0 then src else src + n) dst

/-- lingam/varma_lingam.py:276-285: the predictor columns of `estimate_total_effect`; lines 282-283 shift by `n_features`. -/
def effectPredictors (n : Nat) (psis omegas : List (Nat → Nat → K)) (src lag : Nat) : List Nat :=
  (if lag = 0 then src else src + n) ::
    ((List.range (n * (psis ++ omegas).length)).filter (fun c => decide (0 < |concat n (psis ++ omegas) src c|))).map
      (fun c => if lag = 0 then c else c + n)

/-- lingam/varma_lingam.py:261-273: row `t`, column `col` of the data of `estimate_total_effect`: as in `joined`, followed by
`from_lag` blocks that stay zero. -/
def effectJoined (n p q : Nat) (X ee : Data K) (t col : Nat) : K :=
  if col / n < 1 + p + q then joined n p X ee t col else 0

end Verif.Varma
