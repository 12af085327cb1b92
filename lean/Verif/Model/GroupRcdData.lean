import Verif.Model.ParceData

/-!
Model of the tests of `lingam/multi_group_rcd.py` as functions of the data, over the real numbers.  There are `k` data sets;
data set `i` has `N i` rows and its column `j` is `X i j`.  What is called from libraries is `L i` for data set `i`
(`Model/RcdData.lean`), and `sf df x` is `chi2.sf`.  NaN is `none`.  The check of the list (at least two data sets with the same
number of columns) is in `Model/Inputs.lean`.
-/
set_option autoImplicit false
namespace Verif.GroupRcd
open Finset RcdData

variable {k : Nat} {N : Fin k → Nat}

/-- `fisher_stat`: the sum of the terms of all data sets; infinite if some p-value is 0, NaN if some p-value is NaN.
lingam/multi_group_rcd.py:357-360, 372-375, 396-401, 566-579, 601-606. -/
noncomputable def fisherStat (ps : Fin k → Option ℝ) : Option (WithTop ℝ) :=
  if ∃ i, ps i = none then none else some (∑ i, ParceData.fisherTerm ((ps i).getD 1))

/-- `chi2.sf(fisher_stat, df=2 * self._k)`.  lingam/multi_group_rcd.py:362, 377, 403, 581, 608. -/
noncomputable def fisherP (sf : Nat → WithTop ℝ → ℝ) (ps : Fin k → Option ℝ) : Option ℝ := (fisherStat ps).map (sf (2 * k))

/-- The p-value of `hsic_test_gamma`, with the default `bw_method`; fewer than four rows, for which the code raises an error, count
as NaN.  lingam/multi_group_rcd.py:398-400. -/
noncomputable def hsicP {N : Nat} (L : Lib N) (a b : Fin N → ℝ) : Option ℝ :=
  match Hsic.test L.gammaSf (Mlhsicr.col a) (Mlhsicr.col b) with
  | .ok (_, p) => p
  | .error _ => none

/-- The value of the last data set; NaN if there is none.  lingam/multi_group_rcd.py:407-414 (`f_corr` after the loop). -/
def lastOf (vs : Fin k → Option ℝ) : Option ℝ := if h : 0 < k then vs ⟨k - 1, by omega⟩ else none

/-- `_is_independent` for the columns `a i` and `b i` of the data sets; a comparison with NaN is false.
lingam/multi_group_rcd.py:394-416. -/
noncomputable def isIndependent (L : ∀ i, Lib (N i)) (sf : Nat → WithTop ℝ → ℝ) (c : Cfg) (a b : ∀ i, Fin (N i) → ℝ) : Bool :=
  if c.hsic then
    match fisherP sf (fun i => hsicP (L i) (a i) (b i)) with
    | some p => decide (c.indAlpha < p)
    | none => false
  else
    match lastOf (fun i => FCorr.fcorr (L i).R (a i) (b i)) with
    | some v => decide (v < c.indCorr)
    | none => false

/-- `_is_independent_of_resid`.  lingam/multi_group_rcd.py:418-448. -/
noncomputable def isIndependentOfResid (L : ∀ i, Lib (N i)) (sf : Nat → WithTop ℝ → ℝ) (c : Cfg) (Y : ∀ i, Nat → Fin (N i) → ℝ)
    (x : Nat) (l : List Nat) : Bool :=
  if l.all (fun y => isIndependent L sf c (fun i => resid (L i) (Y i) x l) (fun i => Y i y)) then true
  else if l.length = 1 ∨ c.mlhsicr = false then false
  else l.all (fun y => isIndependent L sf c (fun i => residMlhsicr (L i) (Y i) x l) (fun i => Y i y))

/-- The combined p-value of the correlation of `a` without `A` and `b` without `B`.
lingam/multi_group_rcd.py:372-377, 566-581, 601-608. -/
noncomputable def corrP (L : ∀ i, Lib (N i)) (sf : Nat → WithTop ℝ → ℝ) (n : Nat) (X : ∀ i, Nat → Fin (N i) → ℝ)
    (A : Finset Nat) (a : Nat) (B : Finset Nat) (b : Nat) : Option ℝ :=
  fisherP sf (fun i => pearsonP (L i) (without (L i) n (X i) A a) (without (L i) n (X i) B b))

/-- The tests of the search for ancestors.  A combined p-value that is NaN is not at least `cor_alpha`, so the variables count as
correlated.  lingam/multi_group_rcd.py:342-379, 418-448. -/
noncomputable def testsA (L : ∀ i, Lib (N i)) (sf : Nat → WithTop ℝ → ℝ) (c : Cfg) (n : Nat) (X : ∀ i, Nat → Fin (N i) → ℝ) : Rcd.Tests where
  nonGauss := fun H x =>
    match fisherP sf (fun i => some ((L i).shapiro (without (L i) n (X i) H x))) with
    | some p => !decide (c.shapiroAlpha < p)
    | none => true
  corr := fun A a B b =>
    match corrP L sf n X A a B b with
    | some p => !decide (c.corAlpha ≤ p)
    | none => true
  indep := fun H x l => isIndependentOfResid L sf c (fun i => without (L i) n (X i) H) x l

/-- The tests for parents and for confounded pairs.  A combined p-value that is NaN is not below `cor_alpha`, so the variables do not
count as correlated.  lingam/multi_group_rcd.py:564-583, 594-613. -/
noncomputable def testsP (L : ∀ i, Lib (N i)) (sf : Nat → WithTop ℝ → ℝ) (c : Cfg) (n : Nat) (X : ∀ i, Nat → Fin (N i) → ℝ) : Rcd.Tests where
  nonGauss := (testsA L sf c n X).nonGauss
  corr := fun A a B b =>
    match corrP L sf n X A a B b with
    | some p => decide (p < c.corAlpha)
    | none => false
  indep := (testsA L sf c n X).indep

/-- `fit` on the data sets `X` with `n` columns each: the ancestors, and an adjacency matrix for each data set.
lingam/multi_group_rcd.py:95-128, 552-562, 615-638. -/
noncomputable def fit (L : ∀ i, Lib (N i)) (sf : Nat → WithTop ℝ → ℝ) (c : Cfg) (n maxNum fuel : Nat) (X : ∀ i, Nat → Fin (N i) → ℝ) :
    Option (Rcd.Anc × (Fin k → Nat → Nat → Option ℝ)) :=
  match Rcd.extractAncestors (testsA L sf c n X) n maxNum fuel with
  | none => none
  | some M =>
    let P := Rcd.extractParents (testsP L sf c n X) n M
    let C := Rcd.extractConfounded (testsP L sf c n X) n P
    some (M, fun i => Rcd.adjacency (coef (L i) (X i)) n P C)

end Verif.GroupRcd
