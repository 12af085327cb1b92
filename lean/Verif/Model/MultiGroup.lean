import Verif.Model.DirectLingam
import Verif.Model.Rcd
import Verif.Model.Camuv
import Verif.Model.Bootstrap

/-!
Model of `lingam/multi_group_direct_lingam.py`, `lingam/multi_group_rcd.py` and `lingam/multi_group_camuv.py`: the
aggregation over data sets.  The searches themselves are those of the single-group models.  The statistics computed on one
data set are oracles; the logarithm and the survival function of the chi-square distribution are oracles too.
Statistics are numbers (a NaN p-value is not modelled).  Type checks of `X_list` are not modelled.
-/
set_option autoImplicit false
namespace Verif.MultiGroup

/-! ### DirectLiNGAM -/

/-- One data set: number of rows, the sum `M` of `_search_causal_order` for a candidate (arguments: removed variables,
`U`, `Uc`, `Vj`, candidate), and its regressions.  lingam/multi_group_direct_lingam.py:305-313, 101-104. -/
structure Data (K : Type) where
  size : Nat
  M : Direct.Score
  lasso : Direct.Lasso K

variable {K : Type} [Field K]

/-- Value of a data set taken alone, lingam/direct_lingam.py:235. -/
def single (g : Data K) : Direct.Score := fun A U Uc Vj i => (g.M A U Uc Vj i).map (fun x => -x)

/-- `-1.0 * MG` with `MG = Σ M * (len(X) / total_size)`.  lingam/multi_group_direct_lingam.py:298-315. -/
def groupScore (gs : List (Data K)) : Direct.Score := fun A U Uc Vj i =>
  if gs.any (fun g => (g.M A U Uc Vj i).isNone) then none
  else some (-((gs.map (fun g => ((g.M A U Uc Vj i).getD 0) * ((g.size : ℚ) / ((gs.map Data.size).sum : ℚ)))).sum))

/-- The causal order of `fit`; the measure is always the default `pwling`.  lingam/multi_group_direct_lingam.py:52-99. -/
def fitOrder (pk : Option Direct.PK) (soft : Bool) (gs : List (Data K)) (n : Nat) : Except Direct.Err (List Nat) :=
  Direct.fitOrder ⟨pk, soft, .pwling⟩ (groupScore gs) n

/-- `fit`: the order and one adjacency matrix for each data set.  lingam/multi_group_direct_lingam.py:52-105. -/
def fit (pk : Option Direct.PK) (soft : Bool) (gs : List (Data K)) (n : Nat) :
    Except Direct.Err (List Nat × List (Nat → Nat → K)) :=
  match fitOrder pk soft gs n with
  | .error e => .error e
  | .ok order => .ok (order, gs.map (fun g => Direct.estimateAdj pk g.lasso order))

/-! ### Fisher's method -/

/-- lingam/multi_group_rcd.py:360-362, 375-377, 401-403; lingam/multi_group_camuv.py:182-183: Oracles for `np.log` and
`chi2.sf(stat, df)`; `none` is an infinite statistic. -/
structure Fisher where
  lg : ℚ → ℚ
  sf : Nat → Option ℚ → ℚ

/-- The combined p-value: `chi2.sf(Σ -2 log p, 2 k)`, the statistic is infinite when some `p` is 0.
lingam/multi_group_rcd.py:357-363, 372-378, 396-403; lingam/multi_group_camuv.py:179-183. -/
def fisherP (F : Fisher) (ps : List ℚ) : ℚ :=
  F.sf (2 * ps.length) (if ps.any (fun p => decide (p = 0)) then none else some ((ps.map (fun p => -2 * F.lg p)).sum))

/-! ### RCD -/

/-- lingam/multi_group_rcd.py:354-416, 566-581: The statistics of one data set: Shapiro and Pearson p-values, and for
the residual of `x` on `l` (all taken as
residuals on `H`) against `y` the HSIC p-value or F-correlation, with OLS or with MLHSICR; regression coefficients. -/
structure RcdData where
  shapiro : Finset Nat → Nat → ℚ
  pearson : Finset Nat → Nat → Finset Nat → Nat → ℚ
  ols : Finset Nat → Nat → List Nat → Nat → ℚ
  mlhsicr : Finset Nat → Nat → List Nat → Nat → ℚ
  coef : Rcd.Coef

/-- Constructor parameters, lingam/multi_group_rcd.py:32-93. -/
structure RcdCfg where
  hsic : Bool
  shapiroAlpha : ℚ
  corAlpha : ℚ
  indAlpha : ℚ
  indCorr : ℚ
  useMlhsicr : Bool
  F : Fisher

/-- `_is_independent` given the values of all data sets.  With `fcorr` the code computes the maximum but compares the
value of the *last* data set (line 414).  lingam/multi_group_rcd.py:394-416. -/
def rcdIndependent (c : RcdCfg) (vals : List ℚ) : Bool :=
  if c.hsic then decide (c.indAlpha < fisherP c.F vals)
  else decide (vals.getLast?.getD 0 < c.indCorr)

/-- `_is_non_gaussianity`, `_is_correlated`, `_is_parent` and `_is_independent_of_resid` for all data sets together.
lingam/multi_group_rcd.py:354-381, 394-449, 564-613. -/
def rcdTests (c : RcdCfg) (gs : List RcdData) : Rcd.Tests where
  nonGauss := fun H x => !decide (c.shapiroAlpha < fisherP c.F (gs.map (fun g => g.shapiro H x)))
  corr := fun A a B b => decide (fisherP c.F (gs.map (fun g => g.pearson A a B b)) < c.corAlpha)
  indep := fun H x l =>
    l.all (fun y => rcdIndependent c (gs.map (fun g => g.ols H x l y))) ||
    (decide (l.length ≠ 1) && c.useMlhsicr && l.all (fun y => rcdIndependent c (gs.map (fun g => g.mlhsicr H x l y))))

/-- `fit`: ancestors and one adjacency matrix for each data set.  lingam/multi_group_rcd.py:95-128. -/
def rcdFit (c : RcdCfg) (gs : List RcdData) (n maxNum fuel : Nat) :
    Option (Rcd.Anc × List (Nat → Nat → Option ℚ)) :=
  match Rcd.extractAncestors (rcdTests c gs) n maxNum fuel with
  | none => none
  | some M =>
    let P := Rcd.extractParents (rcdTests c gs) n M
    let C := Rcd.extractConfounded (rcdTests c gs) n P
    some (M, gs.map (fun g => Rcd.adjacency g.coef n P C))

/-- `estimate_total_effect2`: one effect for each matrix, returning early (with the effects so far) at a matrix whose
row of the source contains NaN.  `tot` is `calculate_total_effect`.  lingam/multi_group_rcd.py:199-220. -/
def rcdTotals (tot : (Nat → Nat → Option ℚ) → Nat → Nat → Option ℚ) (n src dst : Nat) :
    List (Nat → Nat → Option ℚ) → List (Option ℚ)
  | [] => []
  | B :: Bs => if (List.range n).any (fun j => (B src j).isNone) then [] else tot B src dst :: rcdTotals tot n src dst Bs

/-- The entry written for data set `i` by `bootstrap`: initially 0, overwritten only if the list of effects is long
enough.  lingam/multi_group_rcd.py:285-310. -/
def rcdRecorded (tot : (Nat → Nat → Option ℚ) → Nat → Nat → Option ℚ) (n src dst : Nat)
    (Bs : List (Nat → Nat → Option ℚ)) (i : Nat) : Option ℚ :=
  ((rcdTotals tot n src dst Bs)[i]?).getD (some 0)

/-! ### CAM-UV -/

/-- lingam/multi_group_camuv.py:170-200: One data set: HSIC p-value or F-correlation for given residuals. -/
abbrev CamData := Nat → Finset Nat → List (Nat × Finset Nat) → ℚ

/-- The running maximum of `_is_independent_by` with `fcorr`.  lingam/multi_group_camuv.py:186-190. -/
def maxCorr (vals : List ℚ) : ℚ := vals.foldl (fun m v => if m < v then v else m) 0

/-- The value and the rest of the configuration for all data sets together.  lingam/multi_group_camuv.py:175-194. -/
def camCfg (F : Fisher) (hsic : Bool) (alpha indCorr : ℚ) (prior : Option (List (Nat × Nat))) (iter : List Nat → List Nat)
    (gs : List CamData) : Camuv.Cfg :=
  ⟨hsic, alpha, indCorr, prior, fun a A l =>
    some (if hsic then fisherP F (gs.map (fun g => g a A l)) else maxCorr (gs.map (fun g => g a A l))), iter⟩

end Verif.MultiGroup
