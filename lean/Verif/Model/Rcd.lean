import Verif.Model.Paths
import Verif.Spec.Graph
import Mathlib.Data.Finset.Lattice.Basic
import Mathlib.Data.Finset.Range
import Mathlib.Data.Finset.SDiff
import Mathlib.Data.Finset.Filter
import Mathlib.Algebra.Field.Rat
import Mathlib.Algebra.Order.Ring.Rat

/-!
Model of `lingam/rcd.py`, of `lingam/utils/_rcd.py` (the same search as a function) and of the search in
`lingam/multi_group_rcd.py` (the same code with tests aggregated over the data sets).

All statistical tests are oracles of the data: they may depend on the variables tested and on the set of variables
regressed out before testing. Python sets are `Finset Nat`; the iteration order of a set never influences a result.
-/
set_option autoImplicit false
namespace Verif.Rcd

/-- The tests on the fixed data.
* `nonGauss H x`: Shapiro's p-value of the residual of `x` on `H` is not above alpha (lingam/rcd.py:154-159).
* `corr A a B b`: Pearson's p-value of the residual of `a` on `A` and the residual of `b` on `B` is below alpha
  (lingam/rcd.py:161-163, 138-152); the residual on the empty set is the variable itself.
* `indep H x l`: the residual of `x` regressed on `l`, all taken as residuals on `H`, is independent of every member
of
  `l` (lingam/rcd.py:226-252, with OLS or MLHSICR).
lingam/multi_group_rcd.py:354-381, 394-449: the same, aggregated over the data sets. -/
structure Tests where
  nonGauss : Finset Nat → Nat → Bool
  corr : Finset Nat → Nat → Finset Nat → Nat → Bool
  indep : Finset Nat → Nat → List Nat → Bool

/-- lingam/rcd.py:263, 282, 357: `itertools.combinations(l, k)` in its lexicographic order. -/
def combos : Nat → List Nat → List (List Nat)
  | 0, _ => [[]]
  | _ + 1, [] => []
  | k + 1, a :: l => (combos k l).map (fun c => a :: c) ++ combos (k + 1) l

/-- lingam/rcd.py:257: `M`: the list of sets of ancestors. -/
abbrev Anc := Nat → Finset Nat

/-- lingam/rcd.py:133-136 `_get_common_ancestors` (`U` is never empty). -/
def commonAncestors (M : Anc) : List Nat → Finset Nat
  | [] => ∅
  | a :: l => l.foldl (fun s x => s ∩ M x) (M a)

/-- lingam/rcd.py:165-174 `_exists_ancestor_in_U`. -/
def existsAncestor (M : Anc) (xi : Nat) (xjs : List Nat) : Bool :=
  xjs.any (fun xj => decide (xi ∈ M xj)) || decide (xjs.toFinset = xjs.toFinset ∩ M xi)

/-- lingam/rcd.py:291: `list(set(U) - {xi})`; set iteration order is immaterial for the uses. -/
def others (U : List Nat) (xi : Nat) : List Nat := U.filter (fun x => decide (x ≠ xi))

/-- lingam/rcd.py:281-287: all pairs of `U` are correlated given `H`. -/
def allCorrelated (t : Tests) (H : Finset Nat) (U : List Nat) : Bool :=
  (combos 2 U).all (fun c => t.corr H (c.getD 0 0) H (c.getD 1 0))

/-- lingam/rcd.py:289-297: the candidates for a sink. -/
def sinkSet (t : Tests) (M : Anc) (H : Finset Nat) (U : List Nat) : List Nat :=
  U.filter (fun xi => !existsAncestor M xi (others U xi) && t.indep H xi (others U xi))

/-- lingam/rcd.py:255-262: State of the search: ancestors, `hu_history` (latest entry first), `changed`. -/
structure St where
  M : Anc
  hist : List (List Nat × Finset Nat)
  changed : Bool

/-- lingam/rcd.py:271: `hu_history[tuple(U)]`. -/
def St.lookup (s : St) (U : List Nat) : Option (Finset Nat) := (s.hist.find? (fun e => decide (e.1 = U))).map Prod.snd

/-- lingam/rcd.py:303-304: `M[xi] = M[xi] | set(xjs)`. -/
def addAncestors (M : Anc) (xi : Nat) (xjs : List Nat) : Anc := fun i => if i = xi then M i ∪ xjs.toFinset else M i

/-- lingam/rcd.py:299-305: update with the sink found. -/
def applySink (s : St) (U : List Nat) : List Nat → St
  | [xi] =>
    if s.M xi = s.M xi ∪ (others U xi).toFinset then s
    else { s with M := addAncestors s.M xi (others U xi), changed := true }
  | _ => s

/-- lingam/rcd.py:264-307: the body of the loop over `U_list`; also lingam/utils/_rcd.py:65-108 and lingam/multi_group_rcd.py:500-541. -/
def body (t : Tests) (s : St) (U : List Nat) : St :=
  let H := commonAncestors s.M U
  if s.lookup U = some H then s
  else if U.any (fun x => !t.nonGauss H x) then s
  else if !allCorrelated t H U then s
  else
    let s' := applySink s U (sinkSet t s.M H U)
    { s' with hist := (U, H) :: s'.hist }

/-- lingam/rcd.py:262-307: one pass of the `while` loop. -/
def pass (t : Tests) (n l : Nat) (s : St) : St :=
  (combos (l + 1) (List.range n)).foldl (body t) { s with changed := false }

/-- lingam/rcd.py:261-314: the `while True` loop, with fuel; `none` = not finished. -/
def loop (t : Tests) (n maxNum : Nat) : Nat → Nat → St → Option Anc
  | 0, _, _ => none
  | fuel + 1, l, s =>
    let s' := pass t n l s
    if s'.changed then loop t n maxNum fuel 1 s'
    else if l < maxNum then loop t n maxNum fuel (l + 1) s'
    else some s'.M

/-- lingam/rcd.py:254-316 `_extract_ancestors`; also lingam/utils/_rcd.py:12-117 and lingam/multi_group_rcd.py:491-550. -/
def extractAncestors (t : Tests) (n maxNum fuel : Nat) : Option Anc :=
  loop t n maxNum fuel 1 ⟨fun _ => ∅, [], false⟩

/-- lingam/rcd.py:318-330 `_is_parent`. -/
def isParent (t : Tests) (M : Anc) (xj xi : Nat) : Bool := t.corr (M xi ∩ M xj) xj (M xi \ {xj}) xi

/-- lingam/rcd.py:332-343 `_extract_parents`. -/
def extractParents (t : Tests) (n : Nat) (M : Anc) : Anc := fun xi =>
  if xi < n then (M xi).filter (fun xj => isParent t M xj xi = true) else ∅

/-- lingam/rcd.py:357-364: the body of the loop over pairs. -/
def confStep (t : Tests) (P : Anc) (C : Anc) (c : List Nat) : Anc :=
  let i := c.getD 0 0
  let j := c.getD 1 0
  if i ∈ P j ∨ j ∈ P i then C
  else if t.corr (P i) i (P j) j then addAncestors (addAncestors C i [j]) j [i] else C

/-- lingam/rcd.py:352-366 `_extract_vars_sharing_confounders`. -/
def extractConfounded (t : Tests) (n : Nat) (P : Anc) : Anc :=
  (combos 2 (List.range n)).foldl (confStep t P) (fun _ => ∅)

/-- lingam/rcd.py:138-143, 391: Regression: `coef ps x p` is the coefficient of `p` when `x` is regressed on `ps`
(increasing order). -/
abbrev Coef := List Nat → Nat → Nat → ℚ

/-- lingam/rcd.py:368-408 `_estimate_adjacency_matrix`: coefficients first, NaN (`none`) afterwards. -/
def adjacency {K : Type} [Zero K] (coef : List Nat → Nat → Nat → K) (n : Nat) (P C : Anc) : Nat → Nat → Option K := fun xi xj =>
  if xi < n then
    if xj ∈ C xi then none
    else if xj ∈ P xi then some (coef ((List.range n).filter (fun k => decide (k ∈ P xi))) xi xj) else some 0
  else some 0

/-- lingam/rcd.py:104-130 `fit`: ancestors and adjacency matrix. -/
def fit {K : Type} [Zero K] (t : Tests) (coef : List Nat → Nat → Nat → K) (n maxNum fuel : Nat) :
    Option (Anc × (Nat → Nat → Option K)) :=
  match extractAncestors t n maxNum fuel with
  | none => none
  | some M =>
    let P := extractParents t n M
    let C := extractConfounded t n P
    some (M, adjacency coef n P C)

/-- lingam/rcd.py:441-460 `estimate_total_effect2`: NaN if the row of the source contains a NaN. -/
def totalEffect2 (n : Nat) (B : Nat → Nat → Option ℚ) (src dst : Nat) : Option (Except Paths.Err (Option ℚ)) :=
  if (List.range n).any (fun j => (B src j).isNone) then some (.ok none) else Paths.calcTotalEffect n B src dst

/-- lingam/rcd.py:556-559 (one bootstrap sample): the total effects of all recorded ancestors, in loop order. -/
def fillTotals (n : Nat) (B : Nat → Nat → Option ℚ) : List (Nat × Nat) → (Nat → Nat → Option ℚ) →
    Option (Except Paths.Err (Nat → Nat → Option ℚ))
  | [], T => some (.ok T)
  | (dst, src) :: ps, T =>
    match totalEffect2 n B src dst with
    | none => none
    | some (.error e) => some (.error e)
    | some (.ok v) => fillTotals n B ps (fun i j => if i = dst ∧ j = src then v else T i j)

/-- The pairs `(to, from_)` visited in lingam/rcd.py:557-558. -/
def ancestorPairs (n : Nat) (M : Anc) : List (Nat × Nat) :=
  (List.range n).flatMap (fun dst => ((List.range n).filter (fun src => decide (src ∈ M dst))).map (fun src => (dst, src)))

/-- lingam/rcd.py:550-559: what `bootstrap` stores for one resample with fit result `(M, B)`. -/
def bootstrapTotals (n : Nat) (M : Anc) (B : Nat → Nat → Option ℚ) : Option (Except Paths.Err (Nat → Nat → Option ℚ)) :=
  fillTotals n B (ancestorPairs n M) (fun _ _ => some 0)

end Verif.Rcd
