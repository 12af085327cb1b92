import Verif.Model.Utils
import Verif.Model.Var
import Verif.Model.Varma
import Verif.Model.Longitudinal

/-!
Model of `get_error_independence_p_values` of the time series and multi-group models (`/repo/lingam/var_lingam.py`,
`varma_lingam.py`, `longitudinal_lingam.py`, `multi_group_direct_lingam.py`, `multi_group_rcd.py`).
`hsic` stands for the p-value of `hsic_test_gamma` on two columns; NaN is `none`.
-/
set_option autoImplicit false
namespace Verif.ErrorTests
open Verif.Utils (pairs setSym)

variable {K : Type} [Field K] [LinearOrder K]

/-- The loop over `itertools.combinations(range(n), 2)` that fills a symmetric matrix of zeros
(lingam/var_lingam.py:303-309, lingam/varma_lingam.py:348-354, lingam/longitudinal_lingam.py:391-398). -/
def fill {α : Type} (n : Nat) (zero : α) (test : Nat → Nat → α) : Nat → Nat → α :=
  (pairs n).foldl (fun P ij => setSym P ij (test ij.1 ij.2)) (fun _ _ => zero)

/-- `E = np.dot(np.eye(B0.shape[0]) - B0, nn.T).T`, entry of row `r` and variable `i` (lingam/var_lingam.py:299,
lingam/varma_lingam.py:344). -/
def errors (n : Nat) (B0 : Nat → Nat → K) (R : Var.Data K) (r i : Nat) : K := Var.mv n (Var.oneSub B0) (R.val r) i

/-- `E[:, i]` (lingam/var_lingam.py:306). -/
def column (n : Nat) (B0 : Nat → Nat → K) (R : Var.Data K) (i : Nat) : List K :=
  (List.range R.rows).map (fun r => errors n B0 R r i)

/-- lingam/var_lingam.py:289-311; `none` = not fitted. -/
def varPValues (n : Nat) (o : Var.Obj K) (hsic : List K → List K → K) : Option (Nat → Nat → K) :=
  match o.residuals, o.adjacency with
  | some R, some Bs =>
    let B0 := Bs.getD 0 (fun _ _ => 0)
    some (fill n 0 (fun i j => hsic (column n B0 R i) (column n B0 R j)))
  | _, _ => none

/-- lingam/varma_lingam.py:334-356; `none` = not fitted. -/
def varmaPValues (n : Nat) (o : Varma.Obj K) (hsic : List K → List K → K) : Option (Nat → Nat → K) :=
  match o.residuals, o.adjacency with
  | some R, some ms =>
    let psi0 := ms.1.getD 0 (fun _ _ => 0)
    some (fill n 0 (fun i j => hsic (column n psi0 R i) (column n psi0 R j)))
  | _, _ => none

/-- A sum of numbers, NaN if one of them is (`np.dot`, lingam/longitudinal_lingam.py:386). -/
def sumNan (l : List (Option K)) : Option K :=
  l.foldr (fun x acc => match x, acc with | some a, some b => some (a + b) | _, _ => none) (some 0)

/-- `np.dot(np.eye(p) - B_t, resid.T).T`, sample `s`, variable `i` (lingam/longitudinal_lingam.py:383-386). -/
def longErrors (p : Nat) (A : Nat → Nat → Nat → Nat → Option K) (R : Nat → Nat → Nat → Option K) (t s i : Nat) : Option K :=
  sumNan ((List.range p).map (fun k => match A t 0 i k, R t s k with
    | some b, some r => some (((if i = k then 1 else 0) - b) * r)
    | _, _ => none))

/-- `E_list[t][:, i]` (lingam/longitudinal_lingam.py:393-396). -/
def longColumn (p n : Nat) (A : Nat → Nat → Nat → Nat → Option K) (R : Nat → Nat → Nat → Option K) (t i : Nat) :
    List (Option K) := (List.range n).map (fun s => longErrors p A R t s i)

/-- lingam/longitudinal_lingam.py:375-402: NaN for time 0, a symmetric matrix for each later time.  `residuals_` raises when
it was not set. -/
def longPValues (T n p : Nat) (o : Longitudinal.Obj K) (hsic : List (Option K) → List (Option K) → Option K) :
    Except Longitudinal.Err (Nat → Nat → Nat → Option K) :=
  match o.residuals_ with
  | .error e => .error e
  | .ok R => match o.adjacency with
    | none => .error .attribute
    | some A => .ok (fun t =>
        if 1 ≤ t ∧ t < T then fill p (some 0) (fun i j => hsic (longColumn p n A R t i) (longColumn p n A R t j))
        else fun _ _ => none)

/-- lingam/multi_group_direct_lingam.py:260-268, lingam/multi_group_rcd.py:242-255: one table per data set; `zip` stops at the
shorter list, so a data set without a matrix keeps the zeros of line 260 (242). -/
def tables (zero : Nat → Nat → Option K)
    (f : (Nat × (Nat → Nat → K)) → (Nat → Nat → Option K) → (Nat → Nat → Option K)) :
    List (Nat × (Nat → Nat → K)) → List (Nat → Nat → Option K) → List (Nat → Nat → Option K)
  | [], _ => []
  | _ :: Xs, [] => zero :: tables zero f Xs []
  | X :: Xs, B :: Bs => f X B :: tables zero f Xs Bs

/-- lingam/multi_group_direct_lingam.py:240-270: a data set is its number of rows and its values.  (`_check_X_list` refuses fewer
than two data sets; not modelled.) -/
def groupPValues (n : Nat) (Xs : List (Nat × (Nat → Nat → K))) (Bs : List (Nat → Nat → Option K))
    (hsic : List (Option K) → List (Option K) → K) : List (Nat → Nat → Option K) :=
  tables (fun _ _ => some 0) (fun X B => Utils.pValues n X.1 B X.2 hsic) Xs Bs

/-- lingam/multi_group_rcd.py:222-257. -/
def groupRcdPValues (n : Nat) (Xs : List (Nat × (Nat → Nat → K))) (Bs : List (Nat → Nat → Option K))
    (hsic : List (Option K) → List (Option K) → K) : List (Nat → Nat → Option K) :=
  tables (fun _ _ => some 0) (fun X B => Utils.pValuesNan n X.1 B X.2 hsic) Xs Bs

end Verif.ErrorTests
