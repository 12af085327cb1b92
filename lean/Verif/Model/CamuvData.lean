import Verif.Model.Camuv
import Verif.Model.RcdData

/-!
Model of `lingam/camuv.py` with HSIC as a function of the data, over the real numbers.  Column `j` of the data is `X j`, with `N` rows.
`LinearGAM` and the survival function of the gamma distribution are oracles.  The exception of HSIC for fewer than four rows is not modelled:
such a test counts as failed.
-/
set_option autoImplicit false
namespace Verif.CamuvData

variable {N : Nat}

/-- What is called from libraries: `gam q Z y` is `LinearGAM().fit(Z, y).predict(Z)` for the regressors `Z 0, …, Z (q - 1)`, `gammaSf` is `gamma.sf`.
lingam/camuv.py:135-136, 150. -/
structure Lib (N : Nat) where
  gam : (q : Nat) → (Fin q → Fin N → ℝ) → (Fin N → ℝ) → Fin N → ℝ
  gammaSf : ℝ → ℝ → ℝ → ℝ

/-- `_get_residual`.  lingam/camuv.py:129-137. -/
noncomputable def residual (L : Lib N) (n : Nat) (X : Nat → Fin N → ℝ) (a : Nat) (A : Finset Nat) : Fin N → ℝ :=
  if A = ∅ then X a
  else fun r => X a r - L.gam (RcdData.listOf n A).length (RcdData.cols X (RcdData.listOf n A)) (X a) r

/-- The p-value of `hsic_test_gamma` for the residual of `a` on `A` against the residuals listed in `l`; `none` is NaN.
lingam/camuv.py:147-151, 250-253. -/
noncomputable def value (L : Lib N) (n : Nat) (X : Nat → Fin N → ℝ) (a : Nat) (A : Finset Nat) (l : List (Nat × Finset Nat)) : Option ℝ :=
  match Hsic.test L.gammaSf (Mlhsicr.col (residual L n X a A)) (fun r (k : Fin l.length) => residual L n X (l.get k).1 (l.get k).2 r) with
  | .ok (_, p) => p
  | .error _ => none

/-- The object for the data: HSIC, no prior knowledge; a set of small integers is iterated in increasing order.
lingam/camuv.py:28-72, 241. -/
noncomputable def cfg (L : Lib N) (alpha : ℝ) (n : Nat) (X : Nat → Fin N → ℝ) : Camuv.Cfg ℝ where
  hsic := true
  alpha := alpha
  indCorr := 0
  prior := none
  val := value L n X
  iter := id

/-- `fit` with HSIC; the parents and the matrix.  lingam/camuv.py:74-115. -/
noncomputable def fit (L : Lib N) (alpha : ℝ) (n m fuel : Nat) (X : Nat → Fin N → ℝ) : Option (Rcd.Anc × (Nat → Nat → Option ℚ)) :=
  Camuv.fit (cfg L alpha n X) n m fuel

end Verif.CamuvData
