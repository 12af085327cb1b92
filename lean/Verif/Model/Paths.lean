import Mathlib.Algebra.Order.Field.Basic
import Mathlib.Algebra.Order.Ring.Abs
import Mathlib.Logic.Function.Basic
import Mathlib.Algebra.BigOperators.Group.List.Basic

/-!
Model of `find_all_paths` and `calculate_total_effect`
(`/repo/lingam/utils/__init__.py` lines 791-857 and 1078-1147).

Matrix convention of the code: `dag[to, from]` is the coefficient of the edge `from → to`.
NaN is `none`.  Arithmetic is exact.
-/
set_option autoImplicit false
namespace Verif.Paths

variable {K : Type} [Field K] [LinearOrder K]

/-- `np.nan_to_num` on one entry (lingam/utils/__init__.py:814; infinities are not modelled). -/
def nan0 (x : Option K) : K := x.getD 0

/-- lingam/utils/__init__.py:817-823: `to_indices[i]`, the rows `j` with `|nan_to_num(dag)[j, i]| > thr`,
in increasing order (`np.where` scans rows first). -/
def toIndices (n : Nat) (dag : Nat → Nat → Option K) (thr : K) (i : Nat) : List Nat :=
  (List.range n).filter (fun j => decide (thr < |nan0 (dag j i)|))

/-- lingam/utils/__init__.py:831, 1106, 1127: The exceptions of the two functions. -/
inductive Err
  /-- lingam/utils/__init__.py:830-833 "Unable to find the path because a cyclic graph has been specified." -/
  | cyclic
  /-- `np.cumprod([])[-1]` at lingam/utils/__init__.py:855 (a path with one node) -/
  | indexError
  /-- the checks of `calculate_total_effect`, lingam/utils/__init__.py:1098-1125 -/
  | valueError
  /-- lingam/utils/__init__.py:1140-1143 "Variables on the path must be continuous variables." -/
  | notContinuous
  /-- `enumerate(None)` in the VARMA bootstrap, lingam/varma_lingam.py:186, 190 -/
  | typeError
  deriving DecidableEq, Repr

/-- The `while stack:` loop, lingam/utils/__init__.py:829-849.
A frame is a pair (entry of `stack`, entry of `stack_to_indice`), top of the stack first.
`tbl` is `to_indices`.  The list in the *bottom* frame is the very object `to_indices[from_index]`
(line 828, no copy), so popping from it also shrinks `tbl from_index`; the lists of the other
frames are copies (line 846).
The first argument is fuel: one unit per evaluation of the loop condition; `none` = out of fuel. -/
def dfs (n dst : Nat) : Nat → (Nat → List Nat) → List (Nat × List Nat) → List (List Nat) →
    Option (Except Err (List (List Nat)))
  | 0, _, _, _ => none
  | _ + 1, _, [], acc => some (.ok acc)
  | f + 1, tbl, (cur, rem) :: rest, acc =>
    if n < rest.length + 1 then some (.error .cyclic)
    else if cur = dst then
      dfs n dst f tbl rest (acc ++ [(((cur, rem) :: rest).map Prod.fst).reverse])
    else match rem with
      | [] => dfs n dst f tbl rest acc
      | nx :: rem' =>
        let tbl' := if rest = [] then Function.update tbl cur rem' else tbl
        dfs n dst f tbl' ((nx, tbl' nx) :: (cur, rem') :: rest) acc

/-- One evaluation of the loop condition and, if the loop goes on, one pass through the body
(lingam/utils/__init__.py:829-849): the next values of `to_indices`, of the stack and of `paths`; `none` when the loop ends
or raises. -/
def dfsNext (n dst : Nat) : (Nat → List Nat) × List (Nat × List Nat) × List (List Nat) →
    Option ((Nat → List Nat) × List (Nat × List Nat) × List (List Nat))
  | (_, [], _) => none
  | (tbl, (cur, rem) :: rest, acc) =>
    if n < rest.length + 1 then none
    else if cur = dst then some (tbl, rest, acc ++ [(((cur, rem) :: rest).map Prod.fst).reverse])
    else match rem with
      | [] => some (tbl, rest, acc)
      | nx :: rem' =>
        let tbl' := if rest = [] then Function.update tbl cur rem' else tbl
        some (tbl', (nx, tbl' nx) :: (cur, rem') :: rest, acc)

/-- bound for the loop of lingam/utils/__init__.py:818-852; not in the code, used for the termination theorem only:
Upper bound of the number of loop iterations spent below a frame with `d` levels left. -/
def stepBound (n : Nat) : Nat → Nat
  | 0 => 1
  | d + 1 => 1 + n * (1 + stepBound n d)

/-- lingam/utils/__init__.py:826-849, the search from the initial state. -/
def searchPaths (n : Nat) (dag : Nat → Nat → Option K) (src dst : Nat) (thr : K) :
    Option (Except Err (List (List Nat))) :=
  dfs n dst (stepBound n n + 1) (toIndices n dag thr) [(src, toIndices n dag thr src)] []

/-- `np.cumprod(coefs)[-1]` for a non-empty list: the product; NaN is absorbing
(lingam/utils/__init__.py:855). -/
def prodNan : List (Option K) → Option K
  | [] => some 1
  | x :: xs => match x, prodNan xs with
    | some a, some b => some (a * b)
    | _, _ => none

/-- `[dag[p[i + 1], p[i]] for i in range(len(p) - 1)]` (lingam/utils/__init__.py:854). -/
def coefs (dag : Nat → Nat → Option K) : List Nat → List (Option K)
  | a :: b :: rest => dag b a :: coefs dag (b :: rest)
  | _ => []

/-- The effect of one path (lingam/utils/__init__.py:854-855). -/
def pathEffect (dag : Nat → Nat → Option K) (p : List Nat) : Except Err (Option K) :=
  if coefs dag p = [] then .error .indexError else .ok (prodNan (coefs dag p))

/-- lingam/utils/__init__.py:791-857 `find_all_paths`. `none` = out of fuel (proved impossible). -/
def findAllPaths (n : Nat) (dag : Nat → Nat → Option K) (src dst : Nat) (thr : K) :
    Option (Except Err (List (List Nat) × List (Option K))) :=
  match searchPaths n dag src dst thr with
  | none => none
  | some (.error e) => some (.error e)
  | some (.ok ps) => match ps.mapM (pathEffect dag) with
    | .error e => some (.error e)
    | .ok es => some (.ok (ps, es))

/-- Sum of effects with absorbing NaN, Python's `sum(effects)` (lingam/utils/__init__.py:1145). -/
def sumNan : List (Option K) → Option K
  | [] => some 0
  | x :: xs => match x, sumNan xs with
    | some a, some b => some (a + b)
    | _, _ => none

/-- lingam/utils/__init__.py:1078-1147 `calculate_total_effect` for a square matrix of size `n`.
`isCont` is the `is_continuous` list (all `true` when the argument is `None`). -/
def calcTotalEffect (n : Nat) (dag : Nat → Nat → Option K) (src dst : Nat)
    (isCont : Nat → Bool := fun _ => true) : Option (Except Err (Option K)) :=
  if n < 2 ∨ n ≤ src ∨ n ≤ dst then some (.error .valueError)
  else if src = dst then some (.error .valueError)
  else match findAllPaths n dag src dst 0 with
    | none => none
    | some (.error e) => some (.error e)
    | some (.ok (ps, es)) =>
      if ps.any (fun p => p.tail.any (fun v => !isCont v)) then some (.error .notContinuous)
      else some (.ok (sumNan es))

end Verif.Paths
