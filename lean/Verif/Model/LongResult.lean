import Verif.Model.Bootstrap
import Verif.Model.Longitudinal

/-!
Model of `LongitudinalBootstrapResult` (`/repo/lingam/longitudinal_lingam.py:487-876`).

A sample is a four-dimensional array `A[t, lag, to, from]` with `T` time points, `L + 1` lags and `p` variables; NaN is
`none`. The bodies of the loops repeat `/repo/lingam/bootstrap.py` line for line on the concatenated matrix of each time
point, so its model is reused. The only textual difference there is that NaN is not replaced by zero before comparing; with
a non-negative threshold neither `|NaN| > thr` nor `|0| > thr` holds.
-/
set_option autoImplicit false
namespace Verif.LongResult
open Verif.Boot (Mat Argsort Err Counts Dag Effects PathTable checkParams)

/-- lingam/longitudinal_lingam.py:499 (entries of `_adjacency_matrices`). -/
abbrev Stack := Nat → Nat → Nat → Nat → Option ℚ

/-- lingam/longitudinal_lingam.py:574, 664: `np.concatenate([*m[t]], axis=1)`: the lag matrices of time `t` side by side. -/
def concatAt (p t : Nat) (m : Stack) : Mat := fun i c => m t (c / p) i (c % p)

/-- lingam/longitudinal_lingam.py:571-614, 660-697: the loop over the time points, one dictionary each; the first error
propagates. -/
def eachTime {α : Type} (f : Nat → Except Err α) : List Nat → Except Err (List α)
  | [] => .ok []
  | t :: ts => match f t with
    | .error e => .error e
    | .ok a => match eachTime f ts with
      | .error e => .error e
      | .ok l => .ok (a :: l)

/-- lingam/longitudinal_lingam.py:527-614 `get_causal_direction_counts`. -/
def directionCounts (as : Argsort) (T p L : Nat) (ms : List Stack) (k : Option Int) (thr : Option ℚ) (split : Bool) :
    Except Err (List Counts) :=
  match checkParams k thr with                                                               -- 555-568
  | .error e => .error e
  | .ok _ => eachTime (fun t => Boot.directionCounts as p (p * (L + 1)) (ms.map (concatAt p t)) k thr split) (List.range T)

/-- lingam/longitudinal_lingam.py:616-697 `get_directed_acyclic_graph_counts`. -/
def dagCounts (as : Argsort) (T p L : Nat) (ms : List Stack) (k : Option Int) (thr : Option ℚ) (split : Bool) :
    Except Err (List (List Dag × List Nat)) :=
  match checkParams k thr with                                                               -- 644-657
  | .error e => .error e
  | .ok _ => eachTime (fun t => Boot.dagCounts as p (p * (L + 1)) (ms.map (concatAt p t)) k thr split) (List.range T)

/-- lingam/longitudinal_lingam.py:699-726 `get_probabilities`. `ms = []` raises (IndexError at line 721). -/
def probabilities (ms : List Stack) (thr : Option ℚ) : Except Err (Nat → Nat → Nat → Nat → ℚ) :=
  match checkParams none thr with                                                            -- 714-719
  | .error e => .error e
  | .ok (_, thr) =>
    if ms = [] then .error .valueError
    else
      let prob := ms.foldl (fun (prob : Nat → Nat → Nat → Nat → ℚ) A => fun t l i j =>        -- 721-723
        prob t l i j + (if Boot.exceeds thr (A t l i j) then 1 else 0)) (fun _ _ _ _ => 0)
      .ok (fun t l i j => prob t l i j / ms.length)                                           -- 724

/-- lingam/longitudinal_lingam.py:728-786 `get_total_causal_effects`; the total effects are `(T * p) × (T * p)` matrices
(233-236) and the code is that of lingam/bootstrap.py:332-370. -/
def totalCausalEffects (as : Argsort) (T p : Nat) (ts : List Mat) (thr : Option ℚ) : Except Err Effects :=
  Boot.totalCausalEffects as (T * p) ts thr

/-- lingam/longitudinal_lingam.py:788-876 `get_paths`: checks (814-823), expansion of each sample (829-846), then the
collection and aggregation of lingam/bootstrap.py:403-432. -/
def getPaths (as : Argsort) (p L : Nat) (ms : List Stack) (src dst srcT dstT : Nat) (thr : Option ℚ) :
    Option (Except Err PathTable) :=
  match checkParams none thr with
  | .error e => some (.error e)
  | .ok _ =>
    if dstT < srcT then some (.error .valueError)
    else if dstT = srcT ∧ dst = src then some (.error .valueError)
    else Boot.getPaths as (p * (dstT - srcT + 1)) (ms.map (Longitudinal.expansion p L srcT (dstT - srcT + 1))) src
      (p * (dstT - srcT) + dst) thr

end Verif.LongResult
