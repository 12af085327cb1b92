import Verif.Spec.Independent
import Verif.Spec.Graph

/-!
Vocabulary for samples that come from an additive noise model: every variable is a function of its causes plus an error, and the errors
of the sample are exactly independent.  Nothing here refers to the model of the code.
-/
set_option autoImplicit false
namespace Verif
open Finset

variable {N : Nat}

/-- The causes (`E a b`: `a` is a cause of `b`) form an acyclic graph, and every error is exactly independent of all the others together. -/
structure IndependentErrors (n : Nat) (E : Nat → Nat → Prop) (e : Nat → Fin N → ℝ) : Prop where
  acyclic : Acyclic E
  bound : ∀ a b, E a b → a < n ∧ b < n
  indep : ∀ i, i < n → SampleIndependent (e i) (fun r (j : {j : Fin n // j.val ≠ i}) => e j.1.val r)

/-- Every variable is some function of its causes plus its error. -/
def FunctionalModel (n : Nat) (E : Nat → Nat → Prop) (X e : Nat → Fin N → ℝ) : Prop :=
  ∀ i, i < n → ∃ g : (Nat → ℝ) → ℝ, (∀ u v : Nat → ℝ, (∀ j, E j i → u j = v j) → g u = g v) ∧
    ∀ r, X i r = g (fun j => X j r) + e i r

/-- Every variable is a linear combination of the others plus its error. -/
def LinearNoise (n : Nat) (B : Nat → Nat → ℝ) (X e : Nat → Fin N → ℝ) : Prop :=
  ∀ i, i < n → ∀ r, X i r = ∑ j ∈ range n, B i j * X j r + e i r

/-- A sample is not constant over the first 100 rows. -/
def VariesEarly (v : Fin N → ℝ) : Prop := ∃ i j : Fin N, i.val < 100 ∧ j.val < 100 ∧ v i ≠ v j

/-- A set of variables that contains the causes of its members. -/
def ClosedSet (n : Nat) (E : Nat → Nat → Prop) (S : List Nat) : Prop :=
  S.Nodup ∧ (∀ u ∈ S, u < n) ∧ ∀ a b, E a b → b ∈ S → a ∈ S

/-- A regression: values of the regressors (one row per observation), target, and the fitted values. -/
abbrev Regression (N : Nat) := (q : Nat) → (Fin N → Fin q → ℝ) → (Fin N → ℝ) → Fin N → ℝ

/-- The regression finds the functions of a class (up to a constant) if the error is exactly independent of the regressors. -/
def Learns (reg : Regression N) (C : (q : Nat) → ((Fin q → ℝ) → ℝ) → Prop) : Prop :=
  ∀ (q : Nat) (Z : Fin N → Fin q → ℝ) (y : Fin N → ℝ) (g : (Fin q → ℝ) → ℝ) (ε : Fin N → ℝ), C q g → (∀ r, y r = g (Z r) + ε r) →
    SampleIndependent ε Z → ∀ r, y r - reg q Z y r = ε r - (∑ s, ε s) / N

/-- Linear least squares with an intercept. -/
def IsLinearFit (reg : Regression N) : Prop :=
  ∀ (q : Nat) (Z : Fin N → Fin q → ℝ) (y : Fin N → ℝ), ∃ (b : ℝ) (c : Fin q → ℝ), (∀ r, reg q Z y r = b + ∑ k, c k * Z r k) ∧
    ∀ (b' : ℝ) (c' : Fin q → ℝ), ∑ r, (y r - (b + ∑ k, c k * Z r k)) ^ 2 ≤ ∑ r, (y r - (b' + ∑ k, c' k * Z r k)) ^ 2

/-- The mean of the target over all observations with the same values of the regressors (a fully grown regression tree). -/
def IsGroupMean (reg : Regression N) : Prop :=
  ∀ (q : Nat) (Z : Fin N → Fin q → ℝ) (y : Fin N → ℝ) (r : Fin N),
    reg q Z y r * ∑ s, (if Z s = Z r then 1 else 0) = ∑ s, if Z s = Z r then y s else 0

end Verif
