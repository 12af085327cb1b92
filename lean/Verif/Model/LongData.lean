import Verif.Model.Longitudinal
import Verif.Model.AdaptiveLasso

/-!
Model of `LongitudinalLiNGAM.fit` (`/repo/lingam/longitudinal_lingam.py`) over the reals and down to the data: the regressions on
the earlier time points, and `DirectLiNGAM` with its pairwise measure and its adaptive Lasso (`Verif.Model.AdaptiveLasso`).
-/
set_option autoImplicit false
namespace Verif.LongData
open Finset
open Verif.Longitudinal (Panel Obj stacked lagged pkFull allData splitAdj orderAt)
open Verif.Pairwise (Lin Lars FitErr fitLasso)

/-- lingam/longitudinal_lingam.py:155, 415, 429: scikit-learn for `N` rows: `LinearRegression` and the Lasso path. -/
structure Lib where
  lin : ∀ N, Lin N
  lars : ∀ N, Lars N

/-- lingam/longitudinal_lingam.py:77-89, 115-118, 429-430: why `fit` fails. -/
inductive Err
  | value
  | direct (e : FitErr)

/-- `reg.coef_` for time `t` (lingam/longitudinal_lingam.py:411-417): target `i`, column `c` of the stacked earlier values. -/
noncomputable def coef (lib : Lib) (L : Nat) (X : Panel ℝ) (t i c : Nat) : ℝ :=
  lib.lin X.n ((List.range (X.p * L)).map (fun c (s : Fin X.n) => stacked L X t c s)) (fun s => X.val t s i) c

/-- `N_t[t] = X_t[t] - reg.coef_ @ X` (lingam/longitudinal_lingam.py:420). -/
noncomputable def resid (lib : Lib) (L : Nat) (X : Panel ℝ) (t i s : Nat) : ℝ :=
  X.val t s i - ∑ c ∈ range (X.p * L), coef lib L X t i c * stacked L X t c s

/-- `DirectLiNGAM(measure="pwling").fit` for `n` columns `D` and `N` rows (lingam/longitudinal_lingam.py:154-155, 429-430). -/
noncomputable def direct (lib : Lib) (pk : Option (Nat → Nat → Int)) (n N : Nat) (D : Nat → Nat → ℝ) :
    Except FitErr (List Nat × (Nat → Nat → ℝ)) :=
  fitLasso ⟨pk, false, .pwling⟩ (lib.lin N) (lib.lars N) n (fun j (r : Fin N) => if j < n then D j r else 0)

/-- lingam/longitudinal_lingam.py:424-433, the loop over `t`. -/
noncomputable def instants (lib : Lib) (L : Nat) (X : Panel ℝ) : List Nat → Except FitErr (List (List Nat × (Nat → Nat → ℝ)))
  | [] => .ok []
  | t :: ts => match direct lib none X.p X.n (resid lib L X t) with
    | .error e => .error e
    | .ok r => match instants lib L X ts with
      | .error e => .error e
      | .ok rs => .ok (r :: rs)

/-- lingam/longitudinal_lingam.py:94-112, 419, 431-443, without prior knowledge. -/
noncomputable def fitPlain (lib : Lib) (o : Obj ℝ) (X : Panel ℝ) : Except Err (Obj ℝ) :=
  if o.nLags = 0 then .error .value
  else match instants lib o.nLags X (List.range' o.nLags (X.T - o.nLags)) with
  | .error e => .error (.direct e)
  | .ok rs =>
    let B := fun t => (rs.getD (t - o.nLags) ([], fun _ _ => 0)).2
    .ok { o with
      adjacency := some (fun t l i j =>
        if o.nLags ≤ t ∧ t < X.T then
          (if l = 0 then some (B t i j)
           else if l ≤ o.nLags then
             (if t - (l - 1) ≠ 0 then some (lagged X.p (B t) (fun k j => coef lib o.nLags X t k (X.p * (l - 1) + j)) i j)
              else none)
           else none)
        else none)
      residuals := some (fun t s i => if o.nLags ≤ t ∧ t < X.T then some (resid lib o.nLags X t i s) else none)
      orders := some (List.replicate o.nLags (List.replicate X.p none) ++ rs.map (fun r => r.1.map some)) }

/-- lingam/longitudinal_lingam.py:113-190, with prior knowledge of the right shape. -/
noncomputable def fitPrior (lib : Lib) (o : Obj ℝ) (A : Nat → Nat → Nat → Nat → Int) (X : Panel ℝ) : Except Err (Obj ℝ) :=
  match direct lib (some (pkFull X.p o.nLags A)) (X.T * X.p) X.n (fun c s => allData X s c) with
  | .error e => .error (.direct e)
  | .ok (order, B) => .ok { o with
      adjacency := some (splitAdj X.p o.nLags X.T B)
      orders := some ((List.range X.T).map (fun t =>
        if t < o.nLags then List.replicate X.p none else (orderAt X.p order t).map some)) }

/-- lingam/longitudinal_lingam.py:60-192 `fit`. -/
noncomputable def fit (lib : Lib) (o : Obj ℝ) (X : Panel ℝ) : Except Err (Obj ℝ) :=
  if X.T < 2 then .error .value
  else match o.pk with
    | none => fitPlain lib o X
    | some A => fitPrior lib o A X

end Verif.LongData
