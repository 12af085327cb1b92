import Verif.Model.Resit
import Verif.Model.Mlhsicr

/-!
Model of `lingam/resit.py` as a function of the data, over the real numbers.  Column `j` of the data is `X j`, with `N` rows.  The
regressor (`fit` and `predict` on the same rows) and the survival function of the gamma distribution are oracles.  The exception for fewer
than four rows is not modelled: the statistic counts as NaN.
-/
set_option autoImplicit false
namespace Verif.ResitData

variable {N : Nat}

/-- `X[:, predictors]`.  lingam/resit.py:105-107, 126-131. -/
def rowsOf (X : Nat → Fin N → ℝ) (l : List Nat) : Hsic.Dat N l.length := fun r k => X (l.get k) r

/-- The residual of column `k` on the columns `l`; `reg q Z y` are the values of `predict` after `fit`.  lingam/resit.py:105-107,
126-131. -/
def residual (reg : (q : Nat) → (Fin N → Fin q → ℝ) → (Fin N → ℝ) → Fin N → ℝ) (X : Nat → Fin N → ℝ) (k : Nat) (l : List Nat) :
    Fin N → ℝ := fun r => X k r - reg l.length (rowsOf X l) (X k) r

/-- `hsic_test_gamma(residual, X[:, predictors])`: statistic and p-value.  lingam/resit.py:109, 133. -/
noncomputable def testOf (sf : ℝ → ℝ → ℝ → ℝ) (reg : (q : Nat) → (Fin N → Fin q → ℝ) → (Fin N → ℝ) → Fin N → ℝ)
    (X : Nat → Fin N → ℝ) (k : Nat) (l : List Nat) : Option ℝ × Option ℝ :=
  match Hsic.test sf (Mlhsicr.col (residual reg X k l)) (rowsOf X l) with
  | .ok r => r
  | .error _ => (none, none)

/-- The statistic of `k` among the variables `S`.  lingam/resit.py:102-110. -/
noncomputable def stat (sf : ℝ → ℝ → ℝ → ℝ) (reg : (q : Nat) → (Fin N → Fin q → ℝ) → (Fin N → ℝ) → Fin N → ℝ) (X : Nat → Fin N → ℝ)
    (S : List Nat) (k : Nat) : Option ℝ := (testOf sf reg X k (S.filter (fun i => decide (i ≠ k)))).1

/-- The p-value of `t` and the predictors `ps`.  lingam/resit.py:126-133. -/
noncomputable def pval (sf : ℝ → ℝ → ℝ → ℝ) (reg : (q : Nat) → (Fin N → Fin q → ℝ) → (Fin N → ℝ) → Fin N → ℝ) (X : Nat → Fin N → ℝ)
    (t : Nat) (ps : List Nat) : Option ℝ := (testOf sf reg X t ps).2

/-- `fit` for the data `X` with `n` columns.  lingam/resit.py:56-88. -/
noncomputable def fit (sf : ℝ → ℝ → ℝ → ℝ) (reg : (q : Nat) → (Fin N → Fin q → ℝ) → (Fin N → ℝ) → Fin N → ℝ) (alpha : ℝ) (n : Nat)
    (X : Nat → Fin N → ℝ) : Option (List Nat × (Nat → Nat → ℚ)) :=
  Resit.fit (stat sf reg X) (pval sf reg X) alpha n

end Verif.ResitData
