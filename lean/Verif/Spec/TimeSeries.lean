import Mathlib.Algebra.Order.Field.Basic
import Mathlib.Algebra.BigOperators.Group.Finset.Basic
import Mathlib.Algebra.BigOperators.Intervals

/-!
Specification vocabulary for time series models.  Nothing here refers to the model of the code.
`B k` is the coefficient matrix of lag `k` (row = target, column = source).
-/
set_option autoImplicit false
namespace Verif

variable {K : Type} [Field K]

/-- The structural equations at time `t`: `x_t = B_0 x_t + B_1 x_{t-1} + … + B_p x_{t-p} + e`. -/
def StructEq (n p : Nat) (B : Nat → Nat → Nat → K) (x : Nat → Nat → K) (t : Nat) (e : Nat → K) : Prop :=
  ∀ i, i < n → x t i = (∑ k ∈ Finset.range (p + 1), ∑ j ∈ Finset.range n, B k i j * x (t - k) j) + e i

/-- The reduced-form (VAR) innovation at time `t` for coefficient matrices `M 1, …, M p`:
`x_t - M_1 x_{t-1} - … - M_p x_{t-p}`. -/
def innovation (n p : Nat) (M : Nat → Nat → Nat → K) (x : Nat → Nat → K) (t i : Nat) : K :=
  x t i - ∑ k ∈ Finset.range p, ∑ j ∈ Finset.range n, M (k + 1) i j * x (t - (k + 1)) j

/-- The graph unrolled over `p + 1` time points: node `n * k + i` is variable `i` at lag `k`; the edge from
lag `c / n` to lag `r / n` carries the coefficient of lag `c / n - r / n`. -/
def unroll (n : Nat) (B : Nat → Nat → Nat → K) (r c : Nat) : K :=
  if r / n ≤ c / n then B (c / n - r / n) (r % n) (c % n) else 0

/-- The VARMA equation at time `t`: `x_t = φ_1 x_{t-1} + … + φ_p x_{t-p} + u_t + θ_1 u_{t-1} + … + θ_q u_{t-q}`. -/
def VarmaEq (n p q : Nat) (φ θ : Nat → Nat → Nat → K) (x u : Nat → Nat → K) (t : Nat) : Prop :=
  ∀ i, i < n → x t i = (∑ k ∈ Finset.range p, ∑ j ∈ Finset.range n, φ (k + 1) i j * x (t - (k + 1)) j) + u t i +
    ∑ k ∈ Finset.range q, ∑ j ∈ Finset.range n, θ (k + 1) i j * u (t - (k + 1)) j

/-- The structural VARMA equation: `x_t = Ψ_0 x_t + … + Ψ_p x_{t-p} + e_t + Ω_1 e_{t-1} + … + Ω_q e_{t-q}`. -/
def StructVarmaEq (n p q : Nat) (Ψ Ω : Nat → Nat → Nat → K) (x e : Nat → Nat → K) (t : Nat) : Prop :=
  ∀ i, i < n → x t i = (∑ k ∈ Finset.range (p + 1), ∑ j ∈ Finset.range n, Ψ k i j * x (t - k) j) + e t i +
    ∑ k ∈ Finset.range q, ∑ j ∈ Finset.range n, Ω (k + 1) i j * e (t - (k + 1)) j

/-- The graph of a longitudinal model: node `p * t + i` is variable `i` at time point `t`; the edge from time
`c / p` to time `r / p` carries `A (r / p) lag`, the coefficients of that time point for that lag (at most `L`). -/
def unrollT (p L : Nat) (A : Nat → Nat → Nat → Nat → K) (r c : Nat) : K :=
  if c / p ≤ r / p ∧ r / p - c / p ≤ L then A (r / p) (r / p - c / p) (r % p) (c % p) else 0

end Verif
