import Verif.Model.Paths
import Verif.Model.DirectLingam
import Mathlib.Algebra.BigOperators.Group.Finset.Basic
import Mathlib.Algebra.BigOperators.Intervals

/-!
Model of `LongitudinalLiNGAM` (`/repo/lingam/longitudinal_lingam.py`).

A panel has `T` time points, `n` samples and `p` features; `val t s i` is feature `i` of sample `s` at time `t`.
`DirectLiNGAM` is the model of `Verif.Model.DirectLingam`; `LinearRegression` is an oracle.  NaN is `none`.
-/
set_option autoImplicit false
namespace Verif.Longitudinal

variable {K : Type} [Field K] [LinearOrder K]

/-- `X_list` after the shape checks of lingam/longitudinal_lingam.py:74-89. -/
structure Panel (K : Type) where
  T : Nat
  n : Nat
  p : Nat
  val : Nat → Nat → Nat → K

/-- lingam/longitudinal_lingam.py:77-89, 116, 822, 825. -/
inductive Err
  /-- lingam/longitudinal_lingam.py:78, 89, 115-118, `np.vstack([])` for `n_lags = 0`, `list.index` -/
  | value
  /-- NaN used as an index (`check_scalar` in `calculate_total_effect`, or the assignment at 246-255) -/
  | nanIndex
  /-- `residuals_` read before it was set (lingam/longitudinal_lingam.py:483) -/
  | attribute
  /-- an error of `DirectLiNGAM.fit` -/
  | direct (e : Direct.Err)
  /-- an error of `calculate_total_effect` -/
  | paths (e : Paths.Err)
  deriving DecidableEq

/-- lingam/longitudinal_lingam.py:154, 416, 429: The external components.  `ols n X y`: `LinearRegression().fit(X.T,
y.T).coef_` for `n` samples, regressor values
`X c s` (row `c` of the stacked matrix, sample `s`) and targets `y i s`; result `coef i c`.
`score`, `lasso`: the scores and the adaptive lasso inside `DirectLiNGAM`, given the data (samples, columns, values).
-/
structure Env (K : Type) where
  ols : Nat → (Nat → Nat → K) → (Nat → Nat → K) → Nat → Nat → K
  measure : Direct.Measure
  score : Nat → Nat → (Nat → Nat → K) → Direct.Score
  lasso : Nat → Nat → (Nat → Nat → K) → Direct.Lasso K

/-- The attributes of the object (lingam/longitudinal_lingam.py:48-58) and its results. -/
structure Obj (K : Type) where
  nLags : Nat
  /-- `prior_knowledge`: its first two dimensions and its values `[t, tau, to, from]` -/
  pk : Option (Nat → Nat → Nat → Nat → Int)
  orders : Option (List (List (Option Nat))) := none
  adjacency : Option (Nat → Nat → Nat → Nat → Option K) := none
  residuals : Option (Nat → Nat → Nat → Option K) := none

/-- `np.vstack(X_t[t - n_lags:t])` (lingam/longitudinal_lingam.py:413): row `c` is variable `c % p` at time
`t - n_lags + c / p`. -/
def stacked (L : Nat) (X : Panel K) (t c s : Nat) : K := X.val (t - L + c / X.p) s (c % X.p)

/-- `reg.coef_` of lingam/longitudinal_lingam.py:416-417. -/
def coef (E : Env K) (L : Nat) (X : Panel K) (t : Nat) : Nat → Nat → K :=
  E.ols X.n (stacked L X t) (fun i s => X.val t s i)

/-- `M_tau[t, k]`: part `k` of `np.split(reg.coef_, n_lags, axis=1)` (lingam/longitudinal_lingam.py:419). -/
def mTau (E : Env K) (L : Nat) (X : Panel K) (t k i j : Nat) : K := coef E L X t i (X.p * k + j)

/-- `N_t[t] = X_t[t] - reg.coef_ @ X` (lingam/longitudinal_lingam.py:420). -/
def nT (E : Env K) (L : Nat) (X : Panel K) (t i s : Nat) : K :=
  X.val t s i - ∑ c ∈ Finset.range (X.p * L), coef E L X t i c * stacked L X t c s

/-- `DirectLiNGAM(measure).fit(N_t[t].T)` (lingam/longitudinal_lingam.py:429-430). -/
def instant (E : Env K) (L : Nat) (X : Panel K) (t : Nat) : Except Direct.Err (List Nat × (Nat → Nat → K)) :=
  let D := fun s i => nT E L X t i s
  Direct.fit ⟨none, false, E.measure⟩ (E.score X.n X.p D) (E.lasso X.n X.p D) X.p

/-- `np.dot(np.eye(p) - B_t[t], M_tau[t, tau])` (lingam/longitudinal_lingam.py:440). -/
def lagged (p : Nat) (B M : Nat → Nat → K) (i j : Nat) : K :=
  ∑ k ∈ Finset.range p, ((if i = k then 1 else 0) - B i k) * M k j

/-- lingam/longitudinal_lingam.py:424-433, the loop over `t` of `_estimate_instantaneous_effects`. -/
def instants (E : Env K) (L : Nat) (X : Panel K) : List Nat → Except Direct.Err (List (List Nat × (Nat → Nat → K)))
  | [] => .ok []
  | t :: ts => match instant E L X t with
    | .error e => .error e
    | .ok r => match instants E L X ts with
      | .error e => .error e
      | .ok rs => .ok (r :: rs)

/-- lingam/longitudinal_lingam.py:94-111, the branch without prior knowledge. `B_t[t]` is entry `t - n_lags` of the list. -/
def fitPlain (E : Env K) (o : Obj K) (X : Panel K) : Except Err (Obj K) :=
  if o.nLags = 0 then .error .value                          -- np.vstack of an empty slice, line 413
  else match instants E o.nLags X (List.range' o.nLags (X.T - o.nLags)) with
  | .error e => .error (.direct e)
  | .ok rs =>
    let B := fun t => (rs.getD (t - o.nLags) ([], fun _ _ => 0)).2
    .ok { o with
      -- lines 100-107
      adjacency := some (fun t l i j =>
        if o.nLags ≤ t ∧ t < X.T then
          (if l = 0 then some (B t i j)
           else if l ≤ o.nLags then
             (if t - (l - 1) ≠ 0 then some (lagged X.p (B t) (mTau E o.nLags X t (l - 1)) i j) else none)
           else none)
        else none)
      -- lines 109-111 and 406-408
      residuals := some (fun t s i => if o.nLags ≤ t ∧ t < X.T then some (nT E o.nLags X t i s) else none)
      -- lines 112, 426, 431
      orders := some (List.replicate o.nLags (List.replicate X.p none) ++ rs.map (fun r => r.1.map some)) }

/-! ### Prior knowledge -/

/-- lingam/longitudinal_lingam.py:122-129: `-1` in the window of each time point, `0` elsewhere. -/
def pkBase (p L : Nat) (r c : Nat) : Int :=
  let t := r / p
  let colEnd := (t + 1) * p
  let colStart := colEnd - p * (L + 1)
  if colStart ≤ c ∧ c < colEnd then -1 else 0

/-- lingam/longitudinal_lingam.py:131-152: the given prior knowledge is copied into the blocks `(t, t - tau)`. -/
def pkFull (p L : Nat) (A : Nat → Nat → Nat → Nat → Int) (r c : Nat) : Int :=
  let t := r / p
  let s := c / p
  if s ≤ t ∧ t - s < L + 1 then
    (if A t (t - s) (r % p) (c % p) = 0 then 0
     else if A t (t - s) (r % p) (c % p) = 1 then 1
     else pkBase p L r c)
  else pkBase p L r c

/-- lingam/longitudinal_lingam.py:120: `np.vstack(X_t)` transposed: column `c` is variable `c % p` at time `c / p`. -/
def allData (X : Panel K) (s c : Nat) : K := X.val (c / X.p) s (c % X.p)

/-- lingam/longitudinal_lingam.py:154-159: the `DirectLiNGAM` fit to all time points at once. -/
def jointFit (E : Env K) (L : Nat) (A : Nat → Nat → Nat → Nat → Int) (X : Panel K) :
    Except Direct.Err (List Nat × (Nat → Nat → K)) :=
  Direct.fit ⟨some (pkFull X.p L A), false, E.measure⟩ (E.score X.n (X.T * X.p) (allData X))
    (E.lasso X.n (X.T * X.p) (allData X)) (X.T * X.p)

/-- lingam/longitudinal_lingam.py:162-163: `adj[t, s]`, rows of time `t`, columns of time `s`. -/
def blockOf (p : Nat) (B : Nat → Nat → K) (t s i j : Nat) : K := B (p * t + i) (p * s + j)

/-- lingam/longitudinal_lingam.py:166-171: lags are stored, then the order of the lags `1, …, n_lags` is reversed. -/
def splitAdj (p L T : Nat) (B : Nat → Nat → K) (t l i j : Nat) : Option K :=
  let adjs := fun t lag => if L ≤ t ∧ t < T ∧ lag < L + 1 then some (blockOf p B t (t - lag) i j) else none
  if l = 0 then adjs t 0 else if l ≤ L then adjs t (L + 1 - l) else none

/-- lingam/longitudinal_lingam.py:181-187: the part of the joint order that belongs to time `t`, numbered from zero. -/
def orderAt (p : Nat) (order : List Nat) (t : Nat) : List Nat :=
  let own := order.filter (fun x => decide (t * p ≤ x ∧ x < (t + 1) * p))
  own.map (fun x => x - own.min?.getD 0)

/-- lingam/longitudinal_lingam.py:113-190, the branch with prior knowledge (of the right shape).  `_residuals` is not set. -/
def fitPrior (E : Env K) (o : Obj K) (A : Nat → Nat → Nat → Nat → Int) (X : Panel K) : Except Err (Obj K) :=
  match jointFit E o.nLags A X with
  | .error e => .error (.direct e)
  | .ok (order, B) => .ok { o with
      adjacency := some (splitAdj X.p o.nLags X.T B)
      orders := some ((List.range X.T).map (fun t =>
        if t < o.nLags then List.replicate X.p none else (orderAt X.p order t).map some)) }

/-- lingam/longitudinal_lingam.py:60-192 `fit`. -/
def fit (E : Env K) (o : Obj K) (X : Panel K) : Except Err (Obj K) :=
  if X.T < 2 then .error .value
  else match o.pk with
    | none => fitPlain E o X
    | some A => fitPrior E o A X

/-- The property `residuals_` (lingam/longitudinal_lingam.py:472-484). -/
def Obj.residuals_ (o : Obj K) : Except Err (Nat → Nat → Nat → Option K) :=
  match o.residuals with
  | none => .error .attribute
  | some r => .ok r

/-! ### Total effects and paths -/

/-- lingam/longitudinal_lingam.py:357-369: one pass of the double loop that fills `expansion_m`. -/
def expandStep (p L srcT : Nat) (A : Nat → Nat → Nat → Nat → Option K) (m : Nat → Nat → Option K) (ij : Nat × Nat) :
    Nat → Nat → Option K :=
  let row := p * ij.1
  let col := p * ij.2
  if row < col then m                                            -- 364-365
  else if L < ij.1 - ij.2 then m                                 -- 366-367
  else fun r c => if row ≤ r ∧ r < row + p ∧ col ≤ c ∧ c < col + p
    then A (ij.1 + srcT) (ij.1 - ij.2) (r - row) (c - col) else m r c

/-- lingam/longitudinal_lingam.py:352-369 (and 831-846): `expansion_m`. -/
def expansion (p L srcT k : Nat) (A : Nat → Nat → Nat → Nat → Option K) : Nat → Nat → Option K :=
  (Direct.allPairs k).foldl (expandStep p L srcT A) (fun _ _ => some 0)

/-- lingam/longitudinal_lingam.py:319-373 `estimate_total_effect2` for `from_t ≤ to_t` (otherwise the matrix has no rows and
an error is raised). -/
def totalEffect2 (p L : Nat) (orders : List (List (Option Nat))) (A : Nat → Nat → Nat → Nat → Option K)
    (srcT src dstT dst : Nat) : Option (Except Err (Option K)) :=
  if dstT < srcT then some (.error .value)
  else if dstT = srcT ∧ (some src ∉ orders.getD dstT [] ∨ some dst ∉ orders.getD srcT []) then some (.error .value)
  else match Paths.calcTotalEffect (p * (dstT - srcT + 1)) (expansion p L srcT (dstT - srcT + 1) A) src
      (p * (dstT - srcT) + dst) with
    | none => none
    | some (.error e) => some (.error (.paths e))
    | some (.ok v) => some (.ok v)

/-- lingam/longitudinal_lingam.py:816-853: checks and path search of `LongitudinalBootstrapResult.get_paths` for one sample;
`L = am.shape[1] - 1`. -/
def pathsOf (p L : Nat) (A : Nat → Nat → Nat → Nat → Option K) (src dst srcT dstT : Nat) (thr : Option K) :
    Option (Except Err (List (List Nat) × List (Option K))) :=
  match thr with
  | some t => if ¬ 0 < t then some (.error .value) else go t
  | none => go 0
where
  /-- lines 822-853 -/
  go (t : K) : Option (Except Err (List (List Nat) × List (Option K))) :=
    if dstT < srcT then some (.error .value)
    else if dstT = srcT ∧ dst = src then some (.error .value)
    else match Paths.findAllPaths (p * (dstT - srcT + 1)) (expansion p L srcT (dstT - srcT + 1) A) src
        (p * (dstT - srcT) + dst) t with
      | none => none
      | some (.error e) => some (.error (.paths e))
      | some (.ok v) => some (.ok v)

/-! ### Bootstrap -/

/-- lingam/longitudinal_lingam.py:230-233: the resampled panel: the same sample indices at every time point. -/
def resample (X : Panel K) (idx : Nat → Nat) : Panel K := { X with val := fun t s i => X.val t (idx s) i }

/-- lingam/longitudinal_lingam.py:241-255: the pairs `((from_t, from), (to_t, to))` for which an effect is computed, in loop
order; entries of `causal_orders_` may be NaN. -/
def effectPairs (T : Nat) (orders : List (List (Option Nat))) (startT : Nat) :
    List ((Nat × Option Nat) × (Nat × Option Nat)) :=
  (List.range' startT (T - startT)).flatMap (fun srcT =>
    let os := orders.getD srcT []
    (List.range os.length).flatMap (fun c =>
      let src := os.getD c none
      ((os.drop (c + 1)).map (fun dst => ((srcT, src), (srcT, dst)))) ++
        (List.range' (srcT + 1) (T - (srcT + 1))).flatMap (fun dstT =>
          (orders.getD dstT []).map (fun dst => ((srcT, src), (dstT, dst))))))

/-- lingam/longitudinal_lingam.py:241-255: the effects, written at `[to_t * p + to, from_t * p + from]`.  A NaN in the causal
order is not an index: `check_scalar` (lingam/utils/__init__.py:1108-1122) or the assignment raises. -/
def totalEffects (p L : Nat) (orders : List (List (Option Nat))) (A : Nat → Nat → Nat → Nat → Option K) :
    List ((Nat × Option Nat) × (Nat × Option Nat)) → (Nat → Nat → Option K) → Option (Except Err (Nat → Nat → Option K))
  | [], m => some (.ok m)
  | ((srcT, some src), (dstT, some dst)) :: ps, m =>
    match totalEffect2 p L orders A srcT src dstT dst with
    | none => none
    | some (.error e) => some (.error e)
    | some (.ok v) => totalEffects p L orders A ps
        (fun r c => if r = dstT * p + dst ∧ c = srcT * p + src then v else m r c)
  | _ :: _, _ => some (.error .nanIndex)

/-- lingam/longitudinal_lingam.py:228-257, 489-501: One bootstrap sample: matrices and total effects. -/
structure Sample (K : Type) where
  adjacency : Nat → Nat → Nat → Nat → Option K
  effects : Nat → Nat → Option K

/-- lingam/longitudinal_lingam.py:229-255, the loop of `bootstrap`; `idx i` are the drawn sample indices of round `i`. -/
def bootLoop (E : Env K) (X : Panel K) (startT : Nat) (idx : Nat → Nat → Nat) :
    List Nat → Obj K → List (Sample K) → Option (Except Err (Obj K × List (Sample K)))
  | [], o, acc => some (.ok (o, acc))
  | i :: is, o, acc =>
    match fit E o (resample X (idx i)) with
    | .error e => some (.error e)
    | .ok o' =>
      let A := o'.adjacency.getD (fun _ _ _ _ => none)
      let orders := o'.orders.getD []
      match totalEffects X.p o'.nLags orders A (effectPairs X.T orders startT) (fun _ _ => some 0) with
      | none => none
      | some (.error e) => some (.error e)
      | some (.ok te) => bootLoop E X startT idx is o' (acc ++ [⟨A, te⟩])

/-- lingam/longitudinal_lingam.py:194-257 `bootstrap`. -/
def bootstrap (E : Env K) (o : Obj K) (X : Panel K) (nSampling : Nat) (startT : Nat) (idx : Nat → Nat → Nat) :
    Option (Except Err (Obj K × List (Sample K))) :=
  if X.T < 2 then some (.error .value)
  else bootLoop E X startT idx (List.range nSampling) o []

/-! ### Regression-based total effect -/

/-- lingam/longitudinal_lingam.py:296-300: `X_joined`: block 0 is time `to_t`, block `1 + tau` is time `from_t - tau`
(`from_t ≥ n_lags`; a negative time would wrap around). -/
def joined (X : Panel K) (srcT dstT : Nat) (s col : Nat) : K :=
  if col / X.p = 0 then X.val dstT s (col % X.p) else X.val (srcT - (col / X.p - 1)) s (col % X.p)

/-- lingam/longitudinal_lingam.py:302-307: `predictors`: the source, then the columns with a nonzero entry (NaN is not). -/
def predictors (p L : Nat) (A : Nat → Nat → Nat → Nat → Option K) (srcT src : Nat) : List Nat :=
  (src + p) :: ((List.range (p * (L + 1))).filter
    (fun c => decide (0 < |(A srcT (c / p) src (c % p)).getD 0|))).map (fun c => c + p)

end Verif.Longitudinal
