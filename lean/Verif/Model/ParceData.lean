import Verif.Model.Parce
import Verif.Model.RcdData
import Verif.Model.AdaptiveLasso

/-!
Model of the tests and regressions of `lingam/bottom_up_parce_lingam.py` (with `regressor=None`) as functions of the data,
over the real numbers.  Column `j` of the data is `X j`, with `N` rows.  Library routines are oracles (`RcdData.Lib`; here
`ols` stands for the solution of the normal equations by `np.linalg.pinv`).  A p-value or F-correlation NaN is not modelled:
it counts as 0.
-/
set_option autoImplicit false
namespace Verif.ParceData
open Finset RcdData

variable {N : Nat}

/-- `X - np.tile(np.mean(X, axis=0), …)`.  lingam/bottom_up_parce_lingam.py:124. -/
noncomputable def centre (X : Nat → Fin N → ℝ) : Nat → Fin N → ℝ := fun j r => X j r - mean (X j)

/-- Statistic and p-value of `hsic_test_gamma`.  lingam/bottom_up_parce_lingam.py:310, 313. -/
noncomputable def hsicPair (L : Lib N) (a b : Fin N → ℝ) : ℝ × ℝ :=
  match Hsic.test L.gammaSf (Mlhsicr.col a) (Mlhsicr.col b) with
  | .ok (s, p) => (s.getD 0, p.getD 0)
  | .error _ => (0, 0)

/-- One term of Fisher's statistic.  lingam/bottom_up_parce_lingam.py:314. -/
noncomputable def fisherTerm (p : ℝ) : WithTop ℝ := if p = 0 then ⊤ else ((-2 * Real.log p : ℝ) : WithTop ℝ)

/-- `_fisher_hsic_test` without the early exit: the statistic and the p-value.  `chi2 df x` is `chi2.cdf`, which is 1 at
infinity.  lingam/bottom_up_parce_lingam.py:304-320. -/
noncomputable def fisherHsic (L : Lib N) (chi2 : Nat → ℝ → ℝ) (Z : List (Fin N → ℝ)) (R : Fin N → ℝ) : WithTop ℝ × ℝ :=
  match Z with
  | [z] => (((hsicPair L z R).1 : ℝ), (hsicPair L z R).2)
  | Z =>
    match (Z.map (fun z => fisherTerm (hsicPair L z R).2)).sum with
    | ⊤ => (⊤, 0)
    | (s : ℝ) => ((s : ℝ), 1 - chi2 (2 * Z.length) s)

/-- `_f_correlation`.  lingam/bottom_up_parce_lingam.py:322-335. -/
noncomputable def maxFcorr (L : Lib N) (Z : List (Fin N → ℝ)) (R : Fin N → ℝ) : ℝ :=
  match Z with
  | [z] => (FCorr.fcorr L.R z R).getD 0
  | Z => Z.foldl (fun m z => if m < (FCorr.fcorr L.R z R).getD 0 then (FCorr.fcorr L.R z R).getD 0 else m) 0

/-- `np.setdiff1d(U, j)` for an increasing `U`.  lingam/bottom_up_parce_lingam.py:236, 248. -/
def rest (U : List Nat) (j : Nat) : List Nat := U.filter (fun i => decide (i ≠ j))

/-- The configuration of the search for the data `X`.  lingam/bottom_up_parce_lingam.py:227-302. -/
noncomputable def cfgOf (L : Lib N) (chi2 : Nat → ℝ → ℝ) (pk : Option Direct.PK) (fc : Bool) (alpha indCorr : ℝ)
    (X : Nat → Fin N → ℝ) : Parce.Cfg ℝ where
  pk := pk
  fc := fc
  alpha := alpha
  indCorr := indCorr
  single := fun U m =>
    if fc then maxFcorr L ((rest U m).map (centre X)) (resid L (centre X) m (rest U m))
    else (fisherHsic L chi2 ((rest U m).map (centre X)) (resid L (centre X) m (rest U m))).2
  hsic := fun Uc j => fisherHsic L chi2 ((rest Uc j).map (centre X)) (resid L (centre X) j (rest Uc j))
  fcorr := fun Uc j => maxFcorr L ((rest Uc j).map (centre X)) (resid L (centre X) j (rest Uc j))

/-- `fit` for the data `X` with `n` columns.  lingam/bottom_up_parce_lingam.py:92-142, 349-394. -/
noncomputable def fit (L : Lib N) (lin : Pairwise.Lin N) (lars : Pairwise.Lars N) (chi2 : Nat → ℝ → ℝ) (pk : Option Direct.PK)
    (fc : Bool) (alpha indCorr : ℝ) (n fuel : Nat) (X : Nat → Fin N → ℝ) :
    Option (Except Parce.Err (Parce.Order × (Nat → Nat → Option ℝ))) :=
  Parce.fit (cfgOf L chi2 pk fc alpha indCorr X)
    (fun ps t p => Pairwise.predict lin lars (centre X) ps t (ps.idxOf p)) n fuel

end Verif.ParceData
