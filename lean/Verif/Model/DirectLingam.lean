import Verif.Model.Numpy
import Mathlib.Data.List.Dedup
import Mathlib.Algebra.Order.Field.Basic

/-!
Model of `DirectLiNGAM` (`/repo/lingam/direct_lingam.py`) and of
`_BaseLiNGAM._estimate_adjacency_matrix` (`/repo/lingam/base.py` lines 123-159).

The data enter only through two oracles:
* `score` – the value computed for a candidate (`M_list` / `Tkernels` / `mlist`); the data matrix `X_` at a step is
  determined by the input data and the list `K` of variables removed so far, so the oracle takes `K`.
* `lasso` – the coefficients returned by `predict_adaptive_lasso`.
-/
set_option autoImplicit false
namespace Verif.Direct

/-- Prior knowledge after lingam/direct_lingam.py:57-59: entries `< 0` stand for NaN (unknown). Row = to, column = from. -/
abbrev PK := Nat → Nat → Int

/-- `measure` (lingam/direct_lingam.py:48-50). -/
inductive Measure | pwling | kernel | fast
  deriving DecidableEq

/-- Constructor arguments (lingam/direct_lingam.py:25-59). -/
structure Config where
  pk : Option PK := none
  soft : Bool := false
  measure : Measure := .pwling

/-- lingam/direct_lingam.py:82, 128, 237. -/
inductive Err
  /-- lingam/direct_lingam.py:127-131 "The prior knowledge contains inconsistencies ..." -/
  | inconsistent
  /-- `np.argmax([])` / `np.argmin([])` (lingam/direct_lingam.py:237, 308) -/
  | emptyArgmax
  deriving DecidableEq, Repr

/-- lingam/direct_lingam.py:120-121: All index pairs in row-major order, as enumerated by `np.where` on an `n × n`
matrix. -/
def allPairs (n : Nat) : List (Nat × Nat) :=
  (List.range n).flatMap (fun i => (List.range n).map (fun j => (i, j)))

/-- `np.array(np.where(pk == v)).transpose()` (lingam/direct_lingam.py:120-121). -/
def pairsEq (n : Nat) (pk : PK) (v : Int) : List (Nat × Nat) :=
  (allPairs n).filter (fun p => decide (pk p.1 p.2 = v))

/-- `pairs[counts > 1]` of `np.unique(l, axis=0, return_counts=True)` (lingam/direct_lingam.py:126-127).
The order of the rows (sorted in numpy) is not relevant to the uses below. -/
def dupPairs (l : List (Nat × Nat)) : List (Nat × Nat) :=
  l.dedup.filter (fun p => decide (1 < l.count p))

/-- lingam/direct_lingam.py:133-140: pairs without path that are listed in both directions cancel out. -/
def cancelMutual (noPath : List (Nat × Nat)) : List (Nat × Nat) :=
  let check := noPath ++ noPath.map Prod.swap
  if check = [] then noPath
  else
    let check' := noPath ++ dupPairs check
    check'.dedup.filter (fun p => decide (check'.count p < 2))

/-- lingam/direct_lingam.py:118-147 `_extract_partial_orders`; result rows are `(from, to)`. -/
def extractPartialOrders (n : Nat) (pk : PK) : Except Err (List (Nat × Nat)) :=
  let pathPairs := pairsEq n pk 1
  let noPath := pairsEq n pk 0
  -- lines 124-131
  if dupPairs (pathPairs ++ pathPairs.map Prod.swap) ≠ [] then .error .inconsistent
  else
    -- lines 142-147
    let check2 := pathPairs ++ (cancelMutual noPath).map Prod.swap
    if check2 = [] then .ok [] else .ok (check2.dedup.map Prod.swap)

/-- lingam/direct_lingam.py:59, 185, 199, 208: `arr.sum()` with NaN absorbing (entries `< 0` are NaN). -/
def pkSum (l : List Int) : Option Int :=
  if l.any (fun x => decide (x < 0)) then none else some l.sum

/-- lingam/direct_lingam.py:193: `np.nansum`. -/
def pkNanSum (l : List Int) : Int := (l.filter (fun x => decide (0 ≤ x))).sum

/-- lingam/direct_lingam.py:167-210 `_search_candidate`, returning `(Uc, Vj)`. -/
def searchCandidate (cfg : Config) (po : List (Nat × Nat)) (U : List Nat) : List Nat × List Nat :=
  match cfg.pk with
  | none => (U, [])                                                  -- 170-171
  | some pk =>
    if cfg.soft = false then
      if po.length ≠ 0 then                                          -- 174-179
        (U.filter (fun i => decide (i ∉ po.map Prod.snd)), [])
      else (U, [])
    else
      let exo := U.filter (fun j =>                                  -- 182-186
        decide (pkSum ((U.filter (fun k => decide (k ≠ j))).map (pk j)) = some 0))
      let Uc :=
        if exo.length = 0 then                                       -- 189-201
          let endog := U.filter (fun j =>
            decide (0 < pkNanSum ((U.filter (fun k => decide (k ≠ j))).map (pk j))))
          let sinks := U.filter (fun i =>
            decide (pkSum ((U.filter (fun k => decide (k ≠ i))).map (fun k => pk k i)) = some 0))
          U.filter (fun i => decide (i ∉ endog ++ sinks))
        else exo
      let Vj := U.filter (fun i =>                                   -- 204-209
        decide (i ∉ Uc) && decide (pkSum (Uc.map (pk i)) = some 0))
      (Uc, Vj)

/-- lingam/direct_lingam.py:218-236, 253-261, 295-306: The score oracle: removed variables `K`, current `U`, `Uc`,
`Vj`, candidate. `none` = NaN. -/
abbrev Score := List Nat → List Nat → List Nat → List Nat → Nat → Option ℚ

/-- One selection: lingam/direct_lingam.py:212-237 (`pwling`), 284-308 (`kernel`), 239-261 (`fast`).
`pwling` maximises, `kernel` minimises; `fast` scores all of `U` and never calls `_search_candidate`. -/
def searchOrder (cfg : Config) (score : Score) (po : List (Nat × Nat)) (K U : List Nat) : Option Nat :=
  match cfg.measure with
  | .fast => (argmax (U.map (score K U U []))).bind (fun i => U[i]?)
  | .pwling =>
    let (Uc, Vj) := searchCandidate cfg po U
    match Uc with
    | [c] => some c
    | Uc => (argmax (Uc.map (score K U Uc Vj))).bind (fun i => Uc[i]?)
  | .kernel =>
    let (Uc, Vj) := searchCandidate cfg po U
    match Uc with
    | [c] => some c
    | Uc => (argmin (Uc.map (score K U Uc Vj))).bind (fun i => Uc[i]?)

/-- The loop of `fit`, lingam/direct_lingam.py:90-113 (`for _ in range(n_features)`). -/
def orderLoop (cfg : Config) (score : Score) : Nat → List Nat → List Nat → List (Nat × Nat) →
    Except Err (List Nat)
  | 0, K, _, _ => .ok K
  | r + 1, K, U, po =>
    match searchOrder cfg score po K U with
    | none => .error .emptyArgmax
    | some m =>
      orderLoop cfg score r (K ++ [m]) (U.filter (fun i => decide (i ≠ m)))
        (if cfg.pk.isSome && !cfg.soft then po.filter (fun p => decide (p.1 ≠ m)) else po)

/-- The causal order computed by `fit` (lingam/direct_lingam.py:73-115). -/
def fitOrder (cfg : Config) (score : Score) (n : Nat) : Except Err (List Nat) :=
  match cfg.pk with
  | none => orderLoop cfg score n [] (List.range n) []
  | some pk =>
    if cfg.soft then orderLoop cfg score n [] (List.range n) []
    else match extractPartialOrders n pk with
      | .error e => .error e
      | .ok po => orderLoop cfg score n [] (List.range n) po

section adjacency
variable {K : Type} [Field K]

/-- Regression oracle: predictors, target, predictor ↦ coefficient (lingam/utils/__init__.py:750-788). -/
abbrev Lasso (K : Type) := List Nat → Nat → Nat → K

/-- lingam/base.py:139-141, 145-150: the predictors of `target`, given the variables before it in the order. -/
def predictors (pk : Option PK) (before : List Nat) (target : Nat) : List Nat :=
  match pk with
  | none => before
  | some pk =>
    let pkd : PK := fun i j => if i = j then 0 else pk i j          -- fill_diagonal(pk, 0), line 141
    before.filter (fun p => decide (pkd target p ≠ 0))

/-- One iteration of lingam/base.py:144-156 with `target = order[i]`, `before = order[:i]`. -/
def adjStep (pk : Option PK) (lasso : Lasso K) (B : Nat → Nat → K) (before : List Nat) (target : Nat) :
    Nat → Nat → K :=
  let ps := predictors pk before target
  if ps.length = 0 then B
  else fun r c => if r = target ∧ c ∈ ps then lasso ps target c else B r c

/-- Iteration `i` of lingam/base.py:144-156 (`order[i]` is always in range in the loop). -/
def adjIter (pk : Option PK) (lasso : Lasso K) (order : List Nat) (B : Nat → Nat → K) (i : Nat) : Nat → Nat → K :=
  match order[i]? with
  | none => B
  | some target => adjStep pk lasso B (order.take i) target

/-- lingam/base.py:123-159 `_estimate_adjacency_matrix`: `i` runs over `1 .. len(order) - 1`. -/
def estimateAdj (pk : Option PK) (lasso : Lasso K) (order : List Nat) : Nat → Nat → K :=
  (List.range' 1 (order.length - 1)).foldl (adjIter pk lasso order) (fun _ _ => 0)

/-- lingam/direct_lingam.py:61-116 `DirectLiNGAM.fit` on data with `n` columns: causal order and adjacency matrix. -/
def fit (cfg : Config) (score : Score) (lasso : Lasso K) (n : Nat) :
    Except Err (List Nat × (Nat → Nat → K)) :=
  match fitOrder cfg score n with
  | .error e => .error e
  | .ok order => .ok (order, estimateAdj cfg.pk lasso order)

end adjacency
end Verif.Direct
