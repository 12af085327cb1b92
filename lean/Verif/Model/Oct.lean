import Verif.Model.Numpy
import Mathlib.Algebra.Field.Rat
import Mathlib.Data.List.Basic
import Mathlib.Algebra.BigOperators.Group.List.Basic

/-!
Model of `lingam/experimental/oct.py` (`OutOfSampleCausalTuning`).

Matrix entries are `Option ℚ` (`none` = NaN), row = target, column = source.  The causal discovery method, the
random forest, the logarithm, the cross-validation splits and the random permutations are oracles.  Oracles that use a
random state take the number of the call.  Infinite scores (perfect prediction, line 288) are not modelled: the
logarithm of zero is an arbitrary number.
-/
set_option autoImplicit false
namespace Verif.Oct

/-- lingam/experimental/oct.py:228-240: An adjacency matrix with NaN. -/
abbrev Mat := Nat → Nat → Option ℚ

/-- `~np.isclose(x, 0)`: absolute tolerance `1e-8`, true for NaN.  lingam/experimental/oct.py:229-235. -/
def notZero : Option ℚ → Bool
  | none => true
  | some x => decide (1 / 10 ^ 8 < |x|)

/-- `_get_mb`: parents, children and co-parents; `np.unique` sorts and removes duplicates.  lingam/experimental/oct.py:228-240. -/
def pa (G : Mat) (n i : Nat) : List Nat := (List.range n).filter (fun j => notZero (G i j))
/-- Children, lingam/experimental/oct.py:230. -/
def ch (G : Mat) (n i : Nat) : List Nat := (List.range n).filter (fun j => notZero (G j i))
/-- Parents of the children, without `i`.  lingam/experimental/oct.py:232-238. -/
def coPa (G : Mat) (n i : Nat) : List Nat := ((ch G n i).flatMap (fun c => pa G n c)).filter (fun j => j != i)
/-- The sorted list without duplicates, lingam/experimental/oct.py:240. -/
def mb (G : Mat) (n i : Nat) : List Nat :=
  (List.range n).filter (fun j => decide (j ∈ pa G n i ++ (ch G n i ++ coPa G n i)))

/-- `_select_explanatory`: the blankets, or all other variables when there is no graph.  lingam/experimental/oct.py:242-252. -/
def explanatory (G : Option Mat) (n i : Nat) : List Nat :=
  match G with
  | some G => mb G n i
  | none => (List.range n).filter (fun j => j != i)

/-- lingam/experimental/oct.py:267, 308, 317: Mean; `none` for the empty list. -/
def mean (l : List ℚ) : Option ℚ := if l = [] then none else some (l.sum / l.length)

/-- lingam/experimental/oct.py:308, 361: Mean of values that may be NaN. -/
def meanN (l : List (Option ℚ)) : Option ℚ := if l.any Option.isNone then none else mean (l.map (fun x => x.getD 0))

/-- lingam/experimental/oct.py:288: Sum of products of deviations from the mean. -/
def dev (x y : List ℚ) : ℚ :=
  (List.zipWith (fun a b => (a - (mean x).getD 0) * (b - (mean y).getD 0)) x y).sum

/-- `_calc_mutual_info`: `-0.5 * log(1 - corr^2)`; NaN when one of the inputs is constant.  `lg` is the logarithm.
lingam/experimental/oct.py:287-288. -/
def mutualInfo (lg : ℚ → ℚ) (x y : List ℚ) : Option ℚ :=
  if dev x x * dev y y = 0 then none else some (-(1 / 2) * lg (1 - dev x y ^ 2 / (dev x x * dev y y)))

/-- What is kept for one fold.  lingam/experimental/oct.py:134-139. -/
structure Fold where
  test : List Nat
  exps : Nat → List Nat
  preds : Nat → List ℚ

/-- lingam/experimental/oct.py:185-218: A checked configuration; `model k rows` is the adjacency matrix estimated in fold
`k` from the training rows. -/
structure Config where
  allOthers : Bool
  model : Option (Nat → List (List ℚ) → Mat)

/-- lingam/experimental/oct.py:174-212: Exceptions. -/
inductive Err | typeError | valueError
deriving DecidableEq

/-- lingam/experimental/oct.py:254-285: a random forest: training inputs, training target and test inputs to predictions. -/
abbrev Forest := List (List ℚ) → List ℚ → List (List ℚ) → List ℚ

/-- `data[rows][:, cols]`.  lingam/experimental/oct.py:117-118, 258, 279. -/
def sub (data : Nat → Nat → ℚ) (rows cols : List Nat) : List (List ℚ) := rows.map (fun r => cols.map (fun c => data r c))

/-- Predictions of one variable: the training mean if there are no explanatory variables (`DummyRegressor`), else
the forest.  lingam/experimental/oct.py:254-285. -/
def predict (data : Nat → Nat → ℚ) (rf : Forest) (exp : List Nat) (v : Nat) (train test : List Nat) : List ℚ :=
  if exp = [] then test.map (fun _ => (mean (train.map (fun r => data r v))).getD 0)
  else rf (sub data train exp) (train.map (fun r => data r v)) (sub data test exp)

/-- One fold of one configuration (`rf v` is the forest of variable `v`); a missing model raises `TypeError` when called.
lingam/experimental/oct.py:116-140, 222-226. -/
def makeFold (data : Nat → Nat → ℚ) (n : Nat) (rf : Nat → Forest) (c : Config) (k : Nat) (train test : List Nat) :
    Except Err Fold :=
  if c.allOthers then
    Except.ok ⟨test, explanatory none n, fun v => predict data (rf v) (explanatory none n v) v train test⟩
  else
    match c.model with
    | none => Except.error Err.typeError
    | some m =>
      let G := m k (sub data train (List.range n))
      Except.ok ⟨test, explanatory (some G) n, fun v => predict data (rf v) (explanatory (some G) n v) v train test⟩

/-- All folds of one configuration.  lingam/experimental/oct.py:112-140. -/
def runConfig (data : Nat → Nat → ℚ) (n : Nat) (rf : Nat → Nat → Forest) (splits : List (List Nat × List Nat))
    (c : Config) : Except Err (List Fold) :=
  splits.zipIdx.mapM (fun s => makeFold data n (rf s.2) c s.2 s.1.1 s.1.2)

/-- lingam/experimental/oct.py:297-302: the true values of a variable at the test rows of all folds. -/
def truth (data : Nat → Nat → ℚ) (folds : List Fold) (v : Nat) : List ℚ :=
  folds.flatMap (fun f => f.test.map (fun r => data r v))

/-- lingam/experimental/oct.py:296-301: the predictions of a variable of all folds. -/
def predicted (folds : List Fold) (v : Nat) : List ℚ := folds.flatMap (fun f => f.preds v)

/-- `_evaluate_config`: mean over the variables of the mutual information between truth and prediction.
lingam/experimental/oct.py:290-308. -/
def evaluate (lg : ℚ → ℚ) (data : Nat → Nat → ℚ) (n : Nat) (folds : List Fold) : Option ℚ :=
  meanN ((List.range n).map (fun v => mutualInfo lg (truth data folds v) (predicted folds v)))

/-- `_get_mb_sizes`: mean number of explanatory variables.  lingam/experimental/oct.py:310-317. -/
def mbSize (n : Nat) (folds : List Fold) : ℚ :=
  (mean (folds.flatMap (fun f => (List.range n).map (fun v => ((f.exps v).length : ℚ))))).getD 0

/-- lingam/experimental/oct.py:364: Comparison `t > t_obs`, false with NaN. -/
def gt : Option ℚ → Option ℚ → Bool
  | some a, some b => decide (b < a)
  | _, _ => false

/-- lingam/experimental/oct.py:361: Difference, NaN propagates. -/
def subN : Option ℚ → Option ℚ → Option ℚ
  | some a, some b => some (a - b)
  | _, _ => none

/-- lingam/experimental/oct.py:333-362: the value of one trial: both sets of predictions are permuted (`pm v true` for the
best configuration, `pm v false` for the other one) and compared with the truth. -/
def trial (lg : ℚ → ℚ) (data : Nat → Nat → ℚ) (n : Nat) (pm : Nat → Bool → List ℚ → List ℚ) (best other : List Fold) :
    Option ℚ :=
  subN (meanN ((List.range n).map (fun v => mutualInfo lg (truth data other v) (pm v true (predicted best v)))))
    (meanN ((List.range n).map (fun v => mutualInfo lg (truth data other v) (pm v false (predicted other v)))))

/-- The p-value: share of the trials above the observed difference.  lingam/experimental/oct.py:364. -/
def pValue (tObs : Option ℚ) (ts : List (Option ℚ)) : ℚ := ((ts.filter (fun t => gt t tObs)).length : ℚ) / ts.length

/-- Configurations that are not significantly worse than the best one.  lingam/experimental/oct.py:323-368. -/
def matching (thr : ℚ) (scores : List (Option ℚ)) (ts : Nat → List (Option ℚ)) (best : Nat) : List Nat :=
  (List.range scores.length).filter (fun k =>
    k != best && decide (thr < pValue (subN (scores.getD best none) (scores.getD k none)) (ts k)))

/-- `_sparsity_penalty`: the smallest average blanket among the best and the matching ones.  lingam/experimental/oct.py:319-376. -/
def sparsest (thr : ℚ) (scores : List (Option ℚ)) (sizes : List ℚ) (ts : Nat → List (Option ℚ)) (best : Nat) : Nat :=
  let ms := matching thr scores ts best
  if ms = [] then best
  else
    let l := best :: ms
    match argmin ((l.map (fun k => sizes.getD k 0)).map some) with
    | some p => l.getD p best
    | none => best

/-- The random parts of a call of `fit`: forests by configuration, fold and variable, splits by configuration, permutations
by configuration, trial, variable and whether they are for the best configuration; the number of trials is 1000 in the
code.  lingam/experimental/oct.py:115, 254-273, 321, 351-352. -/
structure Random where
  rf : Nat → Nat → Nat → Forest
  splits : Nat → List (List Nat × List Nat)
  pm : Nat → Nat → Nat → Bool → List ℚ → List ℚ
  trials : Nat

/-- The information kept for all configurations.  lingam/experimental/oct.py:108-151. -/
def infosOf (data : Nat → Nat → ℚ) (n : Nat) (R : Random) (cfgs : List Config) : Except Err (List (List Fold)) :=
  cfgs.zipIdx.mapM (fun c => runConfig data n (R.rf c.2) (R.splits c.2) c.1)

/-- `fit`: the index of the selected configuration.  lingam/experimental/oct.py:105-170. -/
def fit (lg : ℚ → ℚ) (data : Nat → Nat → ℚ) (n : Nat) (R : Random) (cfgs : List Config) (sp : Bool) (thr : ℚ) :
    Except Err Nat :=
  match infosOf data n R cfgs with
  | Except.error e => Except.error e
  | Except.ok infos =>
    let scores := infos.map (evaluate lg data n)
    let sizes := infos.map (mbSize n)
    match argmax scores with
    | none => Except.error Err.valueError
    | some best =>
      let ts := fun k => (List.range R.trials).map (fun t =>
        trial lg data n (R.pm k t) (infos.getD best []) (infos.getD k []))
      Except.ok (if sp then sparsest thr scores sizes ts best else best)

/-- One entry of a user-supplied configuration dictionary, with the outcome of the type test on its value.
lingam/experimental/oct.py:193-208. -/
inductive Item
  | allOthers (value : Option Bool)
  | model (value : Option (Nat → List (List ℚ) → Mat))
  | initKwargs (isDict : Bool)
  | fitKwargs (isDict : Bool)
  | unknown

/-- Reading one entry.  lingam/experimental/oct.py:193-208. -/
def parseItem (c : Config) : Item → Except Err Config
  | Item.allOthers (some b) => Except.ok { c with allOthers := b }
  | Item.allOthers none => Except.error Err.typeError
  | Item.model (some m) => Except.ok { c with model := some m }
  | Item.model none => Except.error Err.typeError
  | Item.initKwargs b => if b then Except.ok c else Except.error Err.typeError
  | Item.fitKwargs b => if b then Except.ok c else Except.error Err.typeError
  | Item.unknown => Except.error Err.valueError

/-- One configuration.  The test on line 211 asks whether the *key* `model` is missing; the defaults of lines 186-191
contain the key, so the test never fires and is left out.  lingam/experimental/oct.py:182-218. -/
def parseConfig (items : List Item) : Except Err Config :=
  match items.foldlM parseItem ⟨false, none⟩ with
  | Except.error e => Except.error e
  | Except.ok c => Except.ok (if c.allOthers then { c with model := none } else c)

/-- `_check_configs`.  lingam/experimental/oct.py:172-220. -/
def checkConfigs (cfgs : List (List Item)) : Except Err (List Config) :=
  if cfgs = [] then Except.error Err.valueError else cfgs.mapM parseConfig

end Verif.Oct
