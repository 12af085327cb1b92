import Verif.Model.Rcd

/-!
Model of `lingam/camuv.py` and `lingam/multi_group_camuv.py` (the same code with test values aggregated over the data
sets).

The independence measure is an oracle of the data. `val a A l` is the value computed for the residual of variable `a`
regressed on the set `A` against the residuals listed in `l` (pairs of a variable and the set it was regressed on);
`none` is NaN. The matrix `Y` of the code always holds in column `j` the residual of `j` on the current `P[j]`
(lingam/camuv.py:175, 201, 230-233), so the model carries only `P`.
-/
set_option autoImplicit false
namespace Verif.Camuv

open Rcd (Anc combos addAncestors)

/-- Constructor parameters (lingam/camuv.py:28-72, lingam/multi_group_camuv.py:30-74) and the data.
`iter` is the iteration order of a Python set; `K` the numbers. -/
structure Cfg (K : Type := ℚ) where
  hsic : Bool
  alpha : K
  indCorr : K
  prior : Option (List (Nat × Nat))
  val : Nat → Finset Nat → List (Nat × Finset Nat) → Option K
  iter : List Nat → List Nat

variable {K : Type} [LinearOrder K] [Zero K] [One K]

/-- lingam/camuv.py:147-155 `_is_independent_by` (comparison with a NaN is false); also lingam/multi_group_camuv.py:175-194. -/
def isIndBy (c : Cfg K) (v : Option K) (threshold : K) : Bool :=
  match v with
  | none => false
  | some v => if c.hsic then decide (threshold < v) else decide (v < threshold)

/-- lingam/camuv.py:139-145 `_is_independent`; lingam/multi_group_camuv.py:167-173. -/
def isInd (c : Cfg K) (v : Option K) : Bool := isIndBy c v (if c.hsic then c.alpha else c.indCorr)

/-- lingam/camuv.py:117-127 `_make_pk_dict` (also lingam/multi_group_camuv.py:124-134): the dictionary from effects to the list of excluded causes. -/
def mkPk : List (Nat × Nat) → (Nat → Option (List Nat)) → (Nat → Option (List Nat))
  | [], d => d
  | (a, b) :: ps, d =>
    mkPk ps (fun k => if k = b then (match d b with | none => some [a] | some l => some (l ++ [a])) else d k)

/-- lingam/camuv.py:223-228 `_check_prior_knowledge` (also lingam/multi_group_camuv.py:275-280): some pair is excluded. -/
def checkPrior (c : Cfg K) (xjs : List Nat) (xi : Nat) : Bool :=
  match c.prior with
  | none => false
  | some ps => xjs.any (fun xj => match mkPk ps (fun _ => none) xi with | none => false | some l => decide (xj ∈ l))

/-- lingam/camuv.py:160-168: one pair of the loop of `_get_neighborhoods`; lingam/multi_group_camuv.py:199-211. -/
def neighStep (c : Cfg K) (N : Anc) (p : List Nat) : Anc :=
  let i := p.getD 0 0
  let j := p.getD 1 0
  if isInd c (c.val i ∅ [(j, ∅)]) then N else addAncestors (addAncestors N i [j]) j [i]

/-- lingam/camuv.py:157-168 `_get_neighborhoods`; lingam/multi_group_camuv.py:196-212. -/
def neighborhoods (c : Cfg K) (d : Nat) : Anc := (combos 2 (List.range d)).foldl (neighStep c) (fun _ => ∅)

/-- lingam/camuv.py:274-280 `_check_identified_causality` (also lingam/multi_group_camuv.py:336-342): no pair of the set is already related. -/
def unidentified (P : Anc) (V : List Nat) : Bool :=
  (combos 2 V).all (fun p => !(decide (p.getD 1 0 ∈ P (p.getD 0 0)) || decide (p.getD 0 0 ∈ P (p.getD 1 0))))

/-- lingam/camuv.py:194, 242: `variables_set - {child}`; lingam/multi_group_camuv.py:239, 292. -/
def rest (V : List Nat) (child : Nat) : List Nat := V.filter (fun x => decide (x ≠ child))

/-- lingam/camuv.py:282-286 `_check_correlation`; lingam/multi_group_camuv.py:344-348. -/
def checkCorr (N : Anc) (child : Nat) (parents : List Nat) : Bool := parents.all (fun p => decide (p ∈ N child))

/-- lingam/camuv.py:250-253: the value of a candidate child; lingam/multi_group_camuv.py:300-311. -/
def childVal (c : Cfg K) (P : Anc) (V : List Nat) (child : Nat) : Option K :=
  c.val child ((rest V child).toFinset ∪ P child) ((rest V child).map (fun p => (p, P p)))

/-- lingam/camuv.py:241-256: one iteration over the candidates; lingam/multi_group_camuv.py:291-314. -/
def childStep (c : Cfg K) (P N : Anc) (V : List Nat) (st : K × Option Nat) (child : Nat) : K × Option Nat :=
  if checkPrior c (rest V child) child then st
  else if !checkCorr N child (rest V child) then st
  else
    match childVal c P V child with
    | none => st
    | some v => if isIndBy c (some v) st.1 then (v, some child) else st

/-- lingam/camuv.py:235-263 `_get_child`: the best child and whether its value passes the threshold;
lingam/multi_group_camuv.py:287-320. -/
def getChild (c : Cfg K) (P N : Anc) (V : List Nat) : Option Nat × Bool :=
  let r := (c.iter V).foldl (childStep c P N V) (if c.hsic then 0 else 1, none)
  (r.2, if c.hsic then decide (c.alpha < r.1) else decide (r.1 < c.indCorr))

/-- lingam/camuv.py:265-272 `_check_independence_withou_K`; lingam/multi_group_camuv.py:322-334. -/
def dependentWithout (c : Cfg K) (P : Anc) (parents : List Nat) (child : Nat) : Bool :=
  parents.all (fun p => !isInd c (c.val child (P child) [(p, P p)]))

/-- lingam/camuv.py:180-201: the body of the loop over the sets of variables. State: `P` and `changed`.
Also lingam/multi_group_camuv.py:223-249. -/
def body (c : Cfg K) (N : Anc) (s : Anc × Bool) (V : List Nat) : Anc × Bool :=
  if !unidentified s.1 V then s
  else
    match getChild c s.1 N V with
    | (none, _) => s
    | (some child, ok) =>
      if !ok then s
      else if !dependentWithout c s.1 (rest V child) child then s
      else (addAncestors s.1 child (rest V child), s.2 || !(rest V child).isEmpty)

/-- lingam/camuv.py:178-201: one pass; lingam/multi_group_camuv.py:221-249. -/
def pass (c : Cfg K) (N : Anc) (d t : Nat) (P : Anc) : Anc × Bool :=
  (combos t (List.range d)).foldl (body c N) (P, false)

/-- lingam/camuv.py:177-208: the `while True` loop; `none` when the fuel is used up.
Also lingam/multi_group_camuv.py:220-256. -/
def loop (c : Cfg K) (N : Anc) (d maxnum : Nat) : Nat → Nat → Anc → Option Anc
  | 0, _, _ => none
  | fuel + 1, t, P =>
    let r := pass c N d t P
    if r.2 then loop c N d maxnum fuel 2 r.1
    else if maxnum < t + 1 then some r.1
    else loop c N d maxnum fuel (t + 1) r.1

/-- lingam/camuv.py:211-219: one iteration of the final loop, removing parents that are not needed.
Also lingam/multi_group_camuv.py:256-271. -/
def pruneStep (c : Cfg K) (P : Anc) (i : Nat) : Anc :=
  fun k => if k = i then (P i).filter (fun j => isInd c (c.val i (P i \ {j}) [(j, P j)]) = false) else P k

/-- lingam/camuv.py:210-219, lingam/multi_group_camuv.py:256-271. -/
def prune (c : Cfg K) (d : Nat) (P : Anc) : Anc := (List.range d).foldl (pruneStep c) P

/-- lingam/camuv.py:170-221 `_find_parents`; lingam/multi_group_camuv.py:214-273. -/
def findParents (c : Cfg K) (d maxnum fuel : Nat) : Option Anc :=
  match loop c (neighborhoods c d) d maxnum fuel 2 (fun _ => ∅) with
  | none => none
  | some P => some (prune c d P)

/-- lingam/camuv.py:99-108: the pair is recorded as sharing an unobserved cause; lingam/multi_group_camuv.py:101-117. -/
def confounded (c : Cfg K) (N P : Anc) (i j : Nat) : Bool :=
  !(decide (i ∈ P j) || decide (j ∈ P i)) && !(decide (i ∉ N j) || decide (j ∉ N i)) &&
    !isInd c (c.val i (P i) [(j, P j)])

/-- lingam/camuv.py:95-110: the list `U` of pairs; lingam/multi_group_camuv.py:98-117. -/
def confoundedPairs (c : Cfg K) (d : Nat) (N P : Anc) : List (List Nat) :=
  (combos 2 (List.range d)).filter (fun p => confounded c N P (p.getD 0 0) (p.getD 1 0))

/-- lingam/camuv.py:288-298 `_estimate_adjacency_matrix`: ones for the parents, then NaN for the pairs.
Also lingam/multi_group_camuv.py:350-360. -/
def adjacency (U : List (List Nat)) (P : Anc) (i j : Nat) : Option ℚ :=
  if U.any (fun p => (decide (p.getD 0 0 = i) && decide (p.getD 1 0 = j)) ||
      (decide (p.getD 1 0 = i) && decide (p.getD 0 0 = j))) then none
  else if j ∈ P i then some 1 else some 0

/-- lingam/camuv.py:74-115 `fit`: parents, pairs and matrix; lingam/multi_group_camuv.py:76-122. -/
def fit (c : Cfg K) (d maxnum fuel : Nat) : Option (Anc × (Nat → Nat → Option ℚ)) :=
  match findParents c d maxnum fuel with
  | none => none
  | some P => some (P, adjacency (confoundedPairs c d (neighborhoods c d) P) P)

end Verif.Camuv
