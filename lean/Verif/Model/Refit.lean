import Verif.Model.GroupData
import Verif.Model.ParceData
import Verif.Model.Ica
import Verif.Model.Var

/-!
What the objects report after `fit`, also when it raises: the attributes are assigned one after the other.
`/repo/lingam/base.py`, `direct_lingam.py`, `multi_group_direct_lingam.py`, `ica_lingam.py`, `bottom_up_parce_lingam.py`,
`var_lingam.py`.
-/
set_option autoImplicit false
namespace Verif.Refit
open Verif.Pairwise (Lin Lars FitErr)
open Verif.GroupData (DataSet)

/-- `causal_order_` and `adjacency_matrix_` (or `adjacency_matrices_`); `none` is Python's `None`.  lingam/base.py:30-32, 161-183. -/
structure Obj (O M : Type) where
  order : Option O := none
  matrix : Option M := none

/-- A matrix with its number of rows and columns, lingam/base.py:143. -/
structure Sized (K : Type) where
  size : Nat
  entry : Nat → Nat → K

/-- Why `fit` raises: the shape of the prior knowledge (lingam/direct_lingam.py:81-84), or another reason. -/
inductive Err (E : Type) where
  | shape
  | other (e : E)

/-- `DirectLiNGAM.fit` for data with `n` columns; `size` is the size of the prior knowledge matrix, if any.  The order is stored
(line 115) before the matrix is estimated and stored (lingam/base.py:158).  lingam/direct_lingam.py:61-116. -/
noncomputable def direct (cfg : Direct.Config) (size : Nat) (lin : ∀ N, Lin N) (lars : ∀ N, Lars N)
    (s : Obj (List Nat) (Sized ℝ)) (x : Nat × DataSet) : Obj (List Nat) (Sized ℝ) × Option (Err FitErr) :=
  if cfg.pk.isSome ∧ x.1 ≠ size then (s, some .shape)
  else match Pairwise.fitOrder cfg x.1 x.2.col with
    | .error e => (s, some (.other (.order e)))
    | .ok o =>
      let s : Obj (List Nat) (Sized ℝ) := { s with order := some o }
      match GroupData.matrix cfg lin lars o x.2 with
      | .error e => (s, some (.other e))
      | .ok B => ({ s with matrix := some ⟨x.1, B⟩ }, none)

/-- The loop over the data sets: each matrix is appended as soon as it is known.
lingam/multi_group_direct_lingam.py:101-104. -/
noncomputable def groupLoop (cfg : Direct.Config) (lin : ∀ N, Lin N) (lars : ∀ N, Lars N) (n : Nat) (o : List Nat) :
    List (Sized ℝ) → List DataSet → List (Sized ℝ) × Option (Err FitErr)
  | acc, [] => (acc, none)
  | acc, d :: ds => match GroupData.matrix cfg lin lars o d with
    | .error e => (acc, some (.other e))
    | .ok B => groupLoop cfg lin lars n o (acc ++ [⟨n, B⟩]) ds

/-- `MultiGroupDirectLiNGAM.fit`, lingam/multi_group_direct_lingam.py:52-105. -/
noncomputable def group (cfg : Direct.Config) (size : Nat) (lin : ∀ N, Lin N) (lars : ∀ N, Lars N)
    (s : Obj (List Nat) (List (Sized ℝ))) (x : Nat × List DataSet) : Obj (List Nat) (List (Sized ℝ)) × Option (Err FitErr) :=
  if cfg.pk.isSome ∧ x.1 ≠ size then (s, some .shape)
  else match GroupData.fitOrder cfg x.1 x.2 with
    | .error e => (s, some (.other (.order e)))
    | .ok o =>
      let r := groupLoop cfg lin lars x.1 o [] x.2
      (⟨some o, some r.1⟩, r.2)

/-- `ICALiNGAM.fit`; `W n d` is what FastICA returns for the data.  If no order is found, `None` is stored and
`_estimate_adjacency_matrix` raises.  Only the failures of `LassoLarsIC` are modelled, not the coefficients it returns.
lingam/ica_lingam.py:37-73, lingam/base.py:142-158. -/
def ica (as : Boot.Argsort) (asg : Ica.Assign) (W : Nat → DataSet → Ica.Mat) (lasso : DataSet → Direct.Lasso ℚ)
    (s : Obj (List Nat) (Sized ℚ)) (x : Nat × DataSet) : Obj (List Nat) (Sized ℚ) × Option (Option Ica.Err) :=
  match asg.run x.1 (W x.1 x.2) with
  | none => (s, some (some .infeasible))
  | some c => match Ica.estimateOrder as x.1 (Ica.bEstimate (Ica.permuteRows x.1 c (W x.1 x.2))) with
    | none => ({ s with order := none }, some (some .noOrder))
    | some o =>
      let s : Obj (List Nat) (Sized ℚ) := { s with order := some o }
      if (List.range' 1 (o.length - 1)).any (fun i => decide (x.2.rows ≤ i + 1)) then (s, some none)
      else ({ s with matrix := some ⟨x.1, Direct.estimateAdj none (lasso x.2) o⟩ }, none)

/-- Why `BottomUpParceLiNGAM.fit` raises: lingam/bottom_up_parce_lingam.py:113-127, 212, 380. -/
inductive ParceErr where
  | shape
  | search (e : Parce.Err)
  | tooFewRows

/-- `LassoLarsIC` raises: there are not more rows than coefficients, one of them the intercept.
lingam/bottom_up_parce_lingam.py:370-380, lingam/utils/__init__.py:777. -/
def parceTooFew (pk : Option Direct.PK) (rows : Nat) (o : Parce.Order) : Bool :=
  (List.range' 1 (o.items.length - 1)).any (fun i => match o.items[i]? with
    | some [t] => decide ((Direct.predictors pk (o.items.take i).flatten t).length ≠ 0 ∧
        rows ≤ (Direct.predictors pk (o.items.take i).flatten t).length + 1)
    | _ => false)

/-- `BottomUpParceLiNGAM.fit`: `causal_order_` is reset at the start (line 106), `adjacency_matrix_` is not (line 107 resets an
attribute that is not used); `run` is the search and the estimation (`Verif.Parce.fit`).
lingam/bottom_up_parce_lingam.py:92-142, 349-394. -/
def parce {F : Type} (pk : Option Direct.PK) (size : Nat)
    (run : Nat → DataSet → Except Parce.Err (Parce.Order × (Nat → Nat → Option F)))
    (s : Obj Parce.Order (Sized (Option F))) (x : Nat × DataSet) : Obj Parce.Order (Sized (Option F)) × Option ParceErr :=
  let s : Obj Parce.Order (Sized (Option F)) := { s with order := none }
  if pk.isSome ∧ x.1 ≠ size then (s, some .shape)
  else match run x.1 x.2 with
    | .error e => (s, some (.search e))
    | .ok (o, B) =>
      let s : Obj Parce.Order (Sized (Option F)) := { s with order := some o }
      if parceTooFew pk x.2.rows o then (s, some .tooFewRows)
      else ({ s with matrix := some ⟨x.1, B⟩ }, none)

/-- `VARLiNGAM.fit`: order and matrices are reset at the start, everything else is stored at the end.
lingam/var_lingam.py:81-82, 108-113. -/
def var {K : Type} [Field K] [LinearOrder K] (E : Var.Env K) (o : Var.Obj K) (X : Var.Data K) : Var.Obj K × Option Paths.Err :=
  let o : Var.Obj K := { o with causalOrder := none, adjacency := none }
  match Var.fit E o X with
  | .error e => (o, some e)
  | .ok o' => (o', none)

/-- The object after a series of calls, each of which may raise. -/
def history {S D E : Type} (step : S → D → S × Option E) (s : S) (xs : List D) : S := xs.foldl (fun s x => (step s x).1) s

end Verif.Refit
