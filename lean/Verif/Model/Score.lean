import Mathlib.Analysis.SpecialFunctions.Log.Basic
import Mathlib.Analysis.SpecialFunctions.Sqrt
import Mathlib.Algebra.BigOperators.Fin
import Mathlib.Algebra.Order.Round

/-!
Model, over the reals, of the likelihood of continuous variables (`/repo/lingam/utils/__init__.py`) and of the graph score
used by the second phase of LiM (`/repo/lingam/lim.py`).  `none` is NaN.  The regressions are parameters.
-/
set_option autoImplicit false
namespace Verif.Score

variable {N : Nat}

/-- `np.mean`, lingam/utils/__init__.py:931 (inside `np.var`), lingam/lim.py:237. -/
noncomputable def mean (x : Fin N → ℝ) : ℝ := (∑ r, x r) / N

/-- `X[i] - np.dot(b_i, X)`, lingam/utils/__init__.py:929. -/
noncomputable def disturbance (d : Nat) (x : Nat → Fin N → ℝ) (i : Nat) (b : Nat → ℝ) (r : Fin N) : ℝ :=
  x i r - ∑ j ∈ Finset.range d, b j * x j r

/-- lingam/utils/__init__.py:910-933 `variance_i`. -/
noncomputable def varianceI (d : Nat) (x : Nat → Fin N → ℝ) (i : Nat) (b : Nat → ℝ) : ℝ :=
  mean (fun r => (disturbance d x i b r - mean (disturbance d x i b)) ^ 2)

/-- lingam/utils/__init__.py:892-907 `log_p_super_gaussian` for one value. -/
noncomputable def logP (s : ℝ) : ℝ := -√2 * |s| + -(35 / 100)

/-- lingam/utils/__init__.py:860-889 `likelihood_i`.  For variance zero the first summand is NaN or minus infinity and the second
one infinite, so the result is NaN. -/
noncomputable def likelihoodI (d : Nat) (x : Nat → Fin N → ℝ) (i : Nat) (b : Nat → ℝ) (b0 : ℝ) : Option ℝ :=
  if varianceI d x i b = 0 then none
  else some (∑ r, logP ((disturbance d x i b r - b0) / √(varianceI d x i b)) - N * Real.log √(varianceI d x i b))

/-! ### The score of a graph -/

/-- The numerical routines: logistic regression with its log loss, the Poisson coefficient and least squares.
lingam/lim.py:172-183, 202-207, 228-235. -/
structure Routines (N : Nat) where
  logLoss : List (Fin N → ℝ) → (Fin N → ℝ) → ℝ
  beta : (Fin N → ℝ) → (Fin N → ℝ) → ℝ
  linear : List (Fin N → ℝ) → (Fin N → ℝ) → List ℝ × ℝ

/-- `dag.predecessors(i)` of `nx.DiGraph(W)`, rows are sources, in increasing order.  lingam/lim.py:133, 156. -/
noncomputable def parents (d : Nat) (W : Nat → Nat → ℝ) (i : Nat) : List Nat :=
  open Classical in (List.range d).filter (fun j => decide (W j i ≠ 0))

/-- `dag.number_of_edges()`, lingam/lim.py:150. -/
noncomputable def edges (d : Nat) (W : Nat → Nat → ℝ) : Nat := ((List.range d).map (fun i => (parents d W i).length)).sum

/-- The likelihood of a variable without parents by its frequency table.  lingam/lim.py:162-168, 191-197. -/
noncomputable def frequency (y : Fin N → ℝ) : ℝ :=
  open Classical in ∑ v ∈ Finset.univ.image y,
    ((Finset.univ.filter (fun r => y r = v)).card : ℝ) * (Real.log (Finset.univ.filter (fun r => y r = v)).card - Real.log N)

/-- Python's `round`: ties to even.  lingam/lim.py:273. -/
noncomputable def pyRound (y : ℝ) : ℤ :=
  if Int.fract y < 1 / 2 then ⌊y⌋ else if 1 / 2 < Int.fract y then ⌊y⌋ + 1 else if Even ⌊y⌋ then ⌊y⌋ else ⌊y⌋ + 1

/-- `_factorial`, lingam/lim.py:271-277. -/
noncomputable def factorial (y : ℝ) : ℝ := (Nat.factorial (pyRound y).toNat : ℝ)

/-- The Poisson summand of one parent.  lingam/lim.py:202-213. -/
noncomputable def poissonOf (R : Routines N) (p y : Fin N → ℝ) : ℝ :=
  -(∑ r, y r * p r * R.beta p y) + ∑ r, Real.exp (p r * R.beta p y) + ∑ r, Real.log (factorial (y r))

/-- The loop over the parents of a count variable: the summand is overwritten, and added once after the loop.
lingam/lim.py:201-214. -/
noncomputable def poissonTerm (R : Routines N) (ps : List (Fin N → ℝ)) (y : Fin N → ℝ) : ℝ :=
  ps.foldl (fun _ p => poissonOf R p y) 0

/-- `b_i`: the coefficients at the positions of the parents.  lingam/lim.py:225, 232-233. -/
def spread (ps : List Nat) (cs : List ℝ) (j : Nat) : ℝ := ((ps.zip cs).lookup j).getD 0

/-- The summand of one variable.  lingam/lim.py:155-241. -/
noncomputable def localScore (R : Routines N) (discrete : Nat → Bool) (poisson : Bool) (d : Nat) (x : Nat → Fin N → ℝ)
    (ps : List Nat) (i : Nat) : Option ℝ :=
  if discrete i then
    if ps = [] then some (frequency (x i))
    else if poisson then some (poissonTerm R (ps.map x) (x i))
    else some (-(R.logLoss (ps.map x) (x i)))
  else if ps = [] then likelihoodI d x i (fun _ => 0) (mean (x i))
  else likelihoodI d x i (spread ps (R.linear (ps.map x) (x i)).1) (R.linear (ps.map x) (x i)).2

/-- Sum in which one NaN makes the result NaN, lingam/lim.py:153-242. -/
def sumNan : List (Option ℝ) → Option ℝ
  | [] => some 0
  | none :: _ => none
  | some a :: l => (sumNan l).map (a + ·)

/-- `_bic_scoring`, lingam/lim.py:147-242. -/
noncomputable def score (R : Routines N) (discrete : Nat → Bool) (poisson : Bool) (d : Nat) (x : Nat → Fin N → ℝ)
    (W : Nat → Nat → ℝ) : Option ℝ :=
  (sumNan ((List.range d).map (fun i => localScore R discrete poisson d x (parents d W i) i))).map
    (· - Real.log N / 2 * ((edges d W + d : Nat) : ℝ))

end Verif.Score
