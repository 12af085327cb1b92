import Verif.Model.DirectLingam
import Verif.Model.Numpy
import Verif.Spec.Lsem

/-!
Model of `HighDimDirectLiNGAM` (`/repo/lingam/high_dim_direct_lingam.py`).  Data are columns of rationals, exact arithmetic.
The pseudo inverse, the Lasso and the iteration order of Python sets are oracles.
-/
set_option autoImplicit false
namespace Verif.HighDim
open Finset

variable {N : Nat}

/-- `np.mean`, lingam/high_dim_direct_lingam.py:117. -/
def mean (x : Fin N → ℚ) : ℚ := (∑ r, x r) / N

/-- `_calc_tau` for a (residual of the) possible parent and another variable; also the two values inside `_calc_taus`.
lingam/high_dim_direct_lingam.py:116-117, 130-142. -/
def moment (K : Nat) (pa ch : Fin N → ℚ) : ℚ :=
  |mean (fun r => pa r ^ (K - 1) * ch r) * mean (fun r => pa r ^ 2) - mean (fun r => pa r ^ K) * mean (fun r => pa r * ch r)|

/-- Coefficients `pinv(yty[cond, cond]) @ yty[cond, pa]` by conditioning set, variable and predictor.
lingam/high_dim_direct_lingam.py:127. -/
abbrev Coef := List Nat → Nat → Nat → ℚ

/-- The residual of variable `pa` on the variables `cond`, lingam/high_dim_direct_lingam.py:127-128. -/
def resid (coef : Coef) (Y : Nat → Fin N → ℚ) (cond : List Nat) (pa : Nat) : Fin N → ℚ :=
  fun r => Y pa r - (cond.map (fun c => coef cond pa c * Y c r)).sum

/-- A dependence statistic by conditioning set, possible parent and other variable.
lingam/high_dim_direct_lingam.py:116-144. -/
abbrev Tau := List Nat → Nat → Nat → ℚ

/-- The statistic of the code; without conditioning set there is no regression.
lingam/high_dim_direct_lingam.py:116-144. -/
def dataTau (K : Nat) (coef : Coef) (Y : Nat → Fin N → ℚ) : Tau := fun cond pa ch => moment K (resid coef Y cond pa) (Y ch)

/-- The parameters `J` and `alpha`, and the order in which Python lists the elements of a set.
lingam/high_dim_direct_lingam.py:44-46, 157-160. -/
structure Config where
  J : Nat
  alpha : ℚ
  enum : List Nat → List Nat

/-- The variables of the `while` loop, lingam/high_dim_direct_lingam.py:68-76. -/
structure State where
  theta : List Nat
  psi : List Nat
  prune : Nat → Nat → ℚ
  cut : ℚ

/-- The possible parents of `v`: variables already ordered whose statistic is above the cut-off, and always the last
one.  lingam/high_dim_direct_lingam.py:81-82. -/
def condSet (s : State) (last : Nat) (v : Nat) : List Nat :=
  s.theta.filter (fun u => decide (s.cut < s.prune v u) || decide (u = last))

/-- The first combination of possible parents other than the last one.  The loop over the combinations returns in its
first iteration (line 144), so the others are never looked at.  lingam/high_dim_direct_lingam.py:124-125, 144, 155-161. -/
def subset (c : Config) (s : State) (last v : Nat) : List Nat :=
  let cs := condSet s last v
  let rest := c.enum (cs.filter (fun u => decide (u ≠ last)))
  if rest.length = 1 then rest else rest.take (min c.J cs.length - 1)

/-- `_get_prune_stats` and `_calc_taus` for variable `v`: statistics for the remaining variables and for the possible
parents outside the combination (which include the last root although it is conditioned on).
lingam/high_dim_direct_lingam.py:119-173. -/
def stats (c : Config) (tau : Tau) (s : State) (v u : Nat) : ℚ :=
  match s.theta.getLast? with
  | none => if u ∈ s.psi ∧ u ≠ v then tau [] v u else 100000
  | some last =>
    let sub := subset c s last v
    if (u ∈ s.psi ∧ u ≠ v) ∨ (u ∈ condSet s last v ∧ u ∉ sub) then min 10000000000 (tau (last :: sub) v u) else 10000000000

/-- The update of the table of statistics, lingam/high_dim_direct_lingam.py:90-91. -/
def update (c : Config) (tau : Tau) (s : State) (v u : Nat) : ℚ :=
  if v = u then 0 else if v ∈ s.psi then min (s.prune v u) (stats c tau s v u) else s.prune v u

/-- `np.max` over one row of the table restricted to the remaining variables; the diagonal entry is 0.
lingam/high_dim_direct_lingam.py:93. -/
def maxTau (prune : Nat → Nat → ℚ) (psi : List Nat) (v : Nat) : ℚ := (psi.map (prune v)).foldl max 0

/-- One iteration of the `while` loop.  lingam/high_dim_direct_lingam.py:79-100. -/
def step (c : Config) (tau : Tau) (s : State) : State :=
  let prune := update c tau s
  let taus := s.psi.map (maxTau prune s.psi)
  match argmin (taus.map some) with
  | none => s
  | some i =>
    let r := s.psi.getD i 0
    ⟨s.theta ++ [r], s.psi.filter (fun u => decide (u ≠ r)), prune, max s.cut (taus.getD i 0 * c.alpha)⟩

/-- The `while` loop; `none` is out of fuel.  lingam/high_dim_direct_lingam.py:78-102. -/
def loop (c : Config) (tau : Tau) : Nat → State → Option (List Nat)
  | 0, s => if s.psi.length ≤ 1 then some (s.theta ++ s.psi) else none
  | fuel + 1, s => if s.psi.length ≤ 1 then some (s.theta ++ s.psi) else loop c tau fuel (step c tau s)

/-- The state before the loop, lingam/high_dim_direct_lingam.py:68-76. -/
def init (p : Nat) : State := ⟨[], List.range p, fun v u => if v = u then 0 else 100000, 0⟩

/-- The causal order, lingam/high_dim_direct_lingam.py:68-102. -/
def order (c : Config) (tau : Tau) (p : Nat) : Option (List Nat) := loop c tau p (init p)

/-- `fit`: the order and, unless switched off, the adjacency matrix.  Both ways of estimating the matrix (lines 175-202,
and lingam/base.py:123-159 without prior knowledge) regress each variable on all earlier ones; they differ in the Lasso.
lingam/high_dim_direct_lingam.py:49-114. -/
def fit (c : Config) (K : Nat) (coef : Coef) (lassoIC lassoCV : Direct.Lasso ℚ) (estimateAdj : Bool) (p : Nat)
    (Y : Nat → Fin N → ℚ) : Option (List Nat × Option (Nat → Nat → ℚ)) :=
  match order c (dataTau K coef Y) p with
  | none => none
  | some o =>
    some (o, if estimateAdj then some (Direct.estimateAdj none (if N ≤ p then lassoCV else lassoIC) o) else none)

end Verif.HighDim
