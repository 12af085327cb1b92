import Verif.Model.CamuvData
import Verif.Model.GroupRcdData

/-!
Model of `lingam/multi_group_camuv.py` with HSIC as a function of the data, over the real numbers.  There are `k` data sets; data set `i` has `N i`
rows and its column `j` is `X i j`.  What is called from libraries is `L i` for data set `i` (`Model/CamuvData.lean`; the residuals are computed by the
same code), and `sf df x` is `chi2.sf`.  NaN is `none`.  The exception of HSIC for fewer than four rows is not modelled: such a test counts as failed.
-/
set_option autoImplicit false
namespace Verif.GroupCamuv

variable {k : Nat} {N : Fin k → Nat}

/-- The combined p-value for the residuals of `a` on `A` against the residuals listed in `l`, taken in every data set.
lingam/multi_group_camuv.py:157-165, 179-185, 300-311. -/
noncomputable def value (L : ∀ i, CamuvData.Lib (N i)) (sf : Nat → WithTop ℝ → ℝ) (n : Nat) (X : ∀ i, Nat → Fin (N i) → ℝ) (a : Nat) (A : Finset Nat)
    (l : List (Nat × Finset Nat)) : Option ℝ :=
  GroupRcd.fisherP sf fun i => CamuvData.value (L i) n (X i) a A l

/-- The object for the data: HSIC; a set of small integers is iterated in increasing order.  lingam/multi_group_camuv.py:30-74, 291. -/
noncomputable def cfg (L : ∀ i, CamuvData.Lib (N i)) (sf : Nat → WithTop ℝ → ℝ) (alpha : ℝ) (prior : Option (List (Nat × Nat))) (n : Nat)
    (X : ∀ i, Nat → Fin (N i) → ℝ) : Camuv.Cfg ℝ where
  hsic := true
  alpha := alpha
  indCorr := 0
  prior := prior
  val := value L sf n X
  iter := id

/-- `fit` with HSIC; the parents and the matrix.  lingam/multi_group_camuv.py:76-122. -/
noncomputable def fit (L : ∀ i, CamuvData.Lib (N i)) (sf : Nat → WithTop ℝ → ℝ) (alpha : ℝ) (prior : Option (List (Nat × Nat))) (n m fuel : Nat)
    (X : ∀ i, Nat → Fin (N i) → ℝ) : Option (Rcd.Anc × (Nat → Nat → Option ℚ)) :=
  Camuv.fit (cfg L sf alpha prior n X) n m fuel

end Verif.GroupCamuv
