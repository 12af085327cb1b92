import Verif.Model.Numpy

/-!
Model of `lingam/resit.py`. The regressions and HSIC tests are oracles of the data:
* `stat S k`: the HSIC statistic of the residual of `k` on the other members of `S` (`none` = NaN);
* `pval t ps`: the p-value for the residual of `t` on the predictors `ps` (`none` = NaN).
-/
set_option autoImplicit false
namespace Verif.Resit

variable {K : Type} [Field K] [LinearOrder K]

/-- lingam/resit.py:90-117 `_estimate_order`: loop with remaining iterations `r`, variables `S`, parents `pa`, order `pi`;
`none` models the error of `np.argmin([])`. -/
def orderLoop (stat : List Nat → Nat → Option K) : Nat → List Nat → (Nat → List Nat) → List Nat →
    Option ((Nat → List Nat) × List Nat)
  | 0, _, pa, pi => some (pa, pi)
  | r + 1, S, pa, pi =>
    match S with
    | [x] => orderLoop stat r S (fun i => if i = x then [] else pa i) (x :: pi)        -- 97-100
    | S =>
      match (argmin (S.map (stat S))).bind (fun i => S[i]?) with                       -- 102-112
      | none => none
      | some k =>
        let S' := S.filter (fun i => decide (i ≠ k))                                    -- 113
        orderLoop stat r S' (fun i => if i = k then S' else pa i) (k :: pi)             -- 114-115

/-- lingam/resit.py:90-95. -/
def estimateOrder (stat : List Nat → Nat → Option K) (n : Nat) : Option ((Nat → List Nat) × List Nat) :=
  orderLoop stat n (List.range n) (fun _ => []) []

/-- lingam/resit.py:135: `hsic_p > self._alpha` (false for NaN). -/
def above (alpha : K) : Option K → Bool
  | none => false
  | some p => decide (alpha < p)

/-- lingam/resit.py:124-136: the loop over the copy of the parents of `t`; `cur` is `pa[t]`. -/
def pruneParents (pval : Nat → List Nat → Option K) (alpha : K) (t : Nat) : List Nat → List Nat → List Nat
  | [], cur => cur
  | l :: ls, cur =>
    let ps := cur.filter (fun i => decide (i ≠ l))
    if ps.length < 1 then pruneParents pval alpha t ls cur
    else if above alpha (pval t ps) then pruneParents pval alpha t ls (cur.erase l)
    else pruneParents pval alpha t ls cur

/-- lingam/resit.py:121-136, iteration `k`. -/
def removeStep (pval : Nat → List Nat → Option K) (alpha : K) (pi : List Nat) (pa : Nat → List Nat) (k : Nat) :
    Nat → List Nat :=
  match pi[k]? with
  | none => pa
  | some t => fun i => if i = t then pruneParents pval alpha t (pa t) (pa t) else pa i

/-- lingam/resit.py:119-138 `_remove_edges`. -/
def removeEdges (pval : Nat → List Nat → Option K) (alpha : K) (n : Nat) (pi : List Nat) (pa : Nat → List Nat) :
    Nat → List Nat :=
  (List.range' 1 (n - 1)).foldl (removeStep pval alpha pi) pa

/-- lingam/resit.py:56-88 `fit`: causal order and adjacency matrix. -/
def fit (stat : List Nat → Nat → Option K) (pval : Nat → List Nat → Option K) (alpha : K) (n : Nat) :
    Option (List Nat × (Nat → Nat → ℚ)) :=
  match estimateOrder stat n with
  | none => none
  | some (pa, pi) =>
    let pa' := removeEdges pval alpha n pi pa
    some (pi, fun i p => if p ∈ pa' i then 1 else 0)

end Verif.Resit
