import Mathlib.Analysis.SpecialFunctions.Log.Basic
import Mathlib.Analysis.SpecialFunctions.Exp
import Mathlib.Analysis.Complex.Trigonometric
import Verif.Model.Lim

/-!
Model of the objective functions of `lingam/lim.py` and `lingam/lina.py` and of the gradients returned next to
them, over the real numbers.  `X s k` is the value of variable `k` in sample `s`.  The score "mixed_dag"
(regressions inside) is not modelled here.
-/
set_option autoImplicit false
namespace Verif.Lim

/-- `X @ W` (lingam/lim.py:98, lingam/lina.py:111, 505), one entry. -/
noncomputable def pred (d : Nat) (X W : Mat ℝ) (s j : Nat) : ℝ := ∑ k ∈ Finset.range d, X s k * W k j

/-- lingam/lim.py:101-142: `X.T @ A` for an `n × d` matrix `A`, one entry. -/
noncomputable def xT (n : Nat) (X A : Mat ℝ) (i j : Nat) : ℝ := ∑ s ∈ Finset.range n, X s i * A s j

/-- lingam/lim.py:100-118; lingam/lina.py:114-121, 508-515: `.sum()` of an `n × d` matrix. -/
noncomputable def total (n d : Nat) (A : Mat ℝ) : ℝ := ∑ s ∈ Finset.range n, ∑ j ∈ Finset.range d, A s j

/-- lingam/lim.py:12, 101, 129; lingam/lina.py:8: `scipy.special.expit`. -/
noncomputable def sigmoid (x : ℝ) : ℝ := 1 / (1 + Real.exp (-x))

/-- lingam/lim.py:100, 117; lingam/lina.py:117, 511: `np.logaddexp(0, x)`. -/
noncomputable def logaddexp0 (x : ℝ) : ℝ := Real.log (Real.exp 0 + Real.exp x)

/-- lingam/lim.py:97-145; lingam/lina.py:108-130, 503-523: A loss with the gradient returned with it. -/
structure LossG where
  loss : Mat ℝ → ℝ
  grad : Mat ℝ → Mat ℝ

/-- lingam/lim.py:99-101 and lingam/lina.py:116-118, 510-512: "logistic". -/
noncomputable def logisticLoss (n d : Nat) (X : Mat ℝ) : LossG where
  loss W := 1 / n * total n d (fun s j => logaddexp0 (pred d X W s j) - X s j * pred d X W s j)
  grad W := fun i j => 1 / n * xT n X (fun s j => sigmoid (pred d X W s j) - X s j) i j

/-- lingam/lina.py:112-115, 506-509: "l2". -/
noncomputable def l2Loss (n d : Nat) (X : Mat ℝ) : LossG where
  loss W := 1 / 2 / n * total n d (fun s j => (X s j - pred d X W s j) ^ 2)
  grad W := fun i j => -1 / n * xT n X (fun s j => X s j - pred d X W s j) i j

/-- lingam/lina.py:119-122, 513-516: "poisson" of LiNA and MDLiNA. -/
noncomputable def linaPoisson (n d : Nat) (X : Mat ℝ) : LossG where
  loss W := 1 / n * total n d (fun s j => Real.exp (pred d X W s j) - X s j * pred d X W s j)
  grad W := fun i j => 1 / n * xT n X (fun s j => Real.exp (pred d X W s j) - X s j) i j

/-- lingam/lina.py:123-126, 517-520: "laplace" of LiNA and MDLiNA, `- np.sum(-np.log(np.cosh(R)))` with `D = - f.T @ np.tanh(R)`. -/
noncomputable def linaLaplace (n d : Nat) (X : Mat ℝ) : LossG where
  loss W := - total n d (fun s j => - Real.log (Real.cosh (X s j - pred d X W s j)))
  grad W := fun i j => - xT n X (fun s j => Real.tanh (X s j - pred d X W s j)) i j

/-- lingam/lim.py:102-108: "poisson" of LiM, `-np.sum(X.T @ M) + np.exp(M).sum()` plus a constant (`logFact`, the sum
of the log factorials of the data), with `G_loss = 1/n (-X.T @ X + X.T @ np.exp(M))`. -/
noncomputable def limPoisson (n d : Nat) (X : Mat ℝ) (logFact : ℝ) : LossG where
  loss W := 1 / n * (-(∑ i ∈ Finset.range d, ∑ j ∈ Finset.range d, xT n X (pred d X W) i j) +
    total n d (fun s j => Real.exp (pred d X W s j)) + logFact)
  grad W := fun i j => 1 / n * (- xT n X X i j + xT n X (fun s j => Real.exp (pred d X W s j)) i j)

/-- lingam/lim.py:109-112: "laplace" of LiM, with `G_loss = 1/n X.T @ np.tanh(R)`. -/
noncomputable def limLaplace (n d : Nat) (X : Mat ℝ) : LossG where
  loss W := -1 / n * total n d (fun s j => - Real.log (Real.cosh (X s j - pred d X W s j)))
  grad W := fun i j => 1 / n * xT n X (fun s j => Real.tanh (X s j - pred d X W s j)) i j

/-- lingam/lim.py:113-131: "mixed" (the default).  `con j` says that variable `j` is continuous (`dis_con[0, j] == 1`).
The masks `W_dis`, `W_con` (lines 121-128) have ones in the rows and columns of the discrete resp. continuous
variables. -/
noncomputable def mixedLoss (n d : Nat) (X : Mat ℝ) (con : Nat → Bool) : LossG where
  loss W := -1 / n * (total n d (fun s j => (logaddexp0 (pred d X W s j) - X s j * pred d X W s j) *
        (if con j then 0 else 1)) +
      total n d (fun s j => - Real.log (Real.cosh (X s j - pred d X W s j)) * (if con j then 1 else 0)))
  grad W := fun i j => 1 / n *
    (xT n X (fun s j => sigmoid (pred d X W s j) - X s j) i j * (if !con i || !con j then 1 else 0) +
      - xT n X (fun s j => Real.tanh (X s j - pred d X W s j)) i j * (if con i || con j then 1 else 0))

/-- lingam/lim.py:258-263, lingam/lina.py:144-151, 536-541 `_func`: the augmented Lagrangian over the doubled variables. -/
noncomputable def objective (d : Nat) (l : LossG) (rho alpha lambda1 : ℝ) (w : Dbl ℝ) : ℝ :=
  l.loss (adj w) + 1 / 2 * rho * hVal d (adj w) * hVal d (adj w) + alpha * hVal d (adj w) +
    lambda1 * ((∑ i ∈ Finset.range d, ∑ j ∈ Finset.range d, w.1 i j) +
      ∑ i ∈ Finset.range d, ∑ j ∈ Finset.range d, w.2 i j)

/-- lingam/lim.py:265-268, lingam/lina.py:152-154, 542-544: the gradient returned by `_func`. -/
noncomputable def objectiveGrad (d : Nat) (l : LossG) (rho alpha lambda1 : ℝ) (w : Dbl ℝ) : Dbl ℝ :=
  (fun i j => (l.grad (adj w) i j + (rho * hVal d (adj w) + alpha) * hGrad d (adj w) i j) + lambda1,
   fun i j => -(l.grad (adj w) i j + (rho * hVal d (adj w) + alpha) * hGrad d (adj w) i j) + lambda1)

end Verif.Lim
