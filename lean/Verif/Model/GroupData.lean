import Verif.Model.AdaptiveLasso

/-!
Model of `MultiGroupDirectLiNGAM.fit` (`/repo/lingam/multi_group_direct_lingam.py`) over the reals and down to the data.  The
evidence of one data set is `Pairwise.statistic`, the regressions are those of `Verif.Model.AdaptiveLasso`.
-/
set_option autoImplicit false
namespace Verif.GroupData
open Verif.Pairwise (Col Lin Lars FitErr statistic sumNan pick predict)

/-- A data set after `_check_X_list`, lingam/multi_group_direct_lingam.py:272-290. -/
structure DataSet where
  rows : Nat
  col : Nat → Fin rows → ℝ

/-- A working copy of a data set, lingam/multi_group_direct_lingam.py:83. -/
structure Work where
  rows : Nat
  col : Nat → Col rows

/-- `np.copy(X)`, lingam/multi_group_direct_lingam.py:83. -/
def DataSet.copy (d : DataSet) : Work := ⟨d.rows, fun j => some (d.col j)⟩

/-- `total_size`, lingam/multi_group_direct_lingam.py:298-300. -/
def totalSize (gs : List Work) : Nat := (gs.map Work.rows).sum

/-- `MG` for candidate `i`, lingam/multi_group_direct_lingam.py:303-314. -/
noncomputable def evidence (gs : List Work) (U Uc Vj : List Nat) (i : Nat) : Option ℝ :=
  sumNan (gs.map (fun g => (statistic g.col U Uc Vj i).map (fun m => m * (g.rows / totalSize gs))))

/-- `_search_causal_order`, lingam/multi_group_direct_lingam.py:292-316. -/
noncomputable def searchOrder (cfg : Direct.Config) (po : List (Nat × Nat)) (gs : List Work) (U : List Nat) : Option Nat :=
  let (Uc, Vj) := Direct.searchCandidate cfg po U
  match Uc with
  | [c] => some c
  | Uc => pick (fun i => (evidence gs U Uc Vj i).map (fun m => -1 * m)) Uc

/-- Removing the effect of `m` in one data set, lingam/multi_group_direct_lingam.py:86-91. -/
noncomputable def Work.remove (U : List Nat) (m : Nat) (g : Work) : Work := ⟨g.rows, Pairwise.removeEffect g.col U m⟩

/-- The loop of `fit`, lingam/multi_group_direct_lingam.py:84-97. -/
noncomputable def orderLoop (cfg : Direct.Config) : Nat → List Work → List Nat → List Nat → List (Nat × Nat) →
    Except Direct.Err (List Nat)
  | 0, _, K, _, _ => .ok K
  | r + 1, gs, K, U, po =>
    match searchOrder cfg po gs U with
    | none => .error .emptyArgmax
    | some m =>
      orderLoop cfg r (gs.map (Work.remove U m)) (K ++ [m]) (U.filter (fun i => decide (i ≠ m)))
        (if cfg.pk.isSome && !cfg.soft then po.filter (fun p => decide (p.1 ≠ m)) else po)

/-- The common order, lingam/multi_group_direct_lingam.py:66-99. -/
noncomputable def fitOrder (cfg : Direct.Config) (n : Nat) (ds : List DataSet) : Except Direct.Err (List Nat) :=
  match cfg.pk with
  | none => orderLoop cfg n (ds.map DataSet.copy) [] (List.range n) []
  | some pk =>
    if cfg.soft then orderLoop cfg n (ds.map DataSet.copy) [] (List.range n) []
    else match Direct.extractPartialOrders n pk with
      | .error e => .error e
      | .ok po => orderLoop cfg n (ds.map DataSet.copy) [] (List.range n) po

/-- `_estimate_adjacency_matrix` for one data set, lingam/base.py:123-159, lingam/utils/__init__.py:750-788. -/
noncomputable def matrix (cfg : Direct.Config) (lin : ∀ N, Lin N) (lars : ∀ N, Lars N) (order : List Nat) (d : DataSet) :
    Except FitErr (Nat → Nat → ℝ) :=
  if (List.range' 1 (order.length - 1)).any (fun i =>
    let m := (Direct.predictors cfg.pk (order.take i) (order.getD i 0)).length
    decide (m ≠ 0 ∧ d.rows ≤ m + 1)) then .error .tooFewRows
  else .ok (Direct.estimateAdj cfg.pk (fun ps t p => predict (lin d.rows) (lars d.rows) d.col ps t (ps.idxOf p)) order)

/-- The matrices of all data sets, lingam/multi_group_direct_lingam.py:101-104. -/
noncomputable def matrices (cfg : Direct.Config) (lin : ∀ N, Lin N) (lars : ∀ N, Lars N) (order : List Nat) :
    List DataSet → Except FitErr (List (Nat → Nat → ℝ))
  | [] => .ok []
  | d :: ds => match matrix cfg lin lars order d with
    | .error e => .error e
    | .ok B => match matrices cfg lin lars order ds with
      | .error e => .error e
      | .ok Bs => .ok (B :: Bs)

/-- `fit`, lingam/multi_group_direct_lingam.py:52-105. -/
noncomputable def fit (cfg : Direct.Config) (lin : ∀ N, Lin N) (lars : ∀ N, Lars N) (n : Nat) (ds : List DataSet) :
    Except FitErr (List Nat × List (Nat → Nat → ℝ)) :=
  match fitOrder cfg n ds with
  | .error e => .error (.order e)
  | .ok order => match matrices cfg lin lars order ds with
    | .error e => .error e
    | .ok Bs => .ok (order, Bs)

end Verif.GroupData
