import Verif.Spec.PerfectTests

/-!
Several populations over the same variables, and what it means that the statistical tests taken over all of them give
the right answer.  Only the interface `Rcd.Tests` of the model is used.
-/
set_option autoImplicit false
namespace Verif.MultiGroup
open Finset

/-- One population: direct effects `B`, coefficients `X` of the variables on their own errors, variances of the errors. -/
structure Pop where
  B : Nat → Nat → ℚ
  X : Nat → Nat → ℚ
  σ : Nat → ℚ

/-- A linear model over `n` variables with independent non-Gaussian errors and no hidden cause. -/
def Pop.Valid (n : Nat) (g : Pop) : Prop := SourceModel n n g.B (fun _ _ => 0) g.X ∧ ∀ k, k < n → 0 < g.σ k

/-- `j` has a total effect on `i` in at least one population. -/
def Affects (n : Nat) (gs : List Pop) (j i : Nat) : Prop := j < n ∧ i < n ∧ j ≠ i ∧ ∃ g ∈ gs, g.X i j ≠ 0

/-- The populations are linear models, an ancestor has an effect in some population, and effects compose. -/
structure CommonOrder (n : Nat) (gs : List Pop) : Prop where
  valid : ∀ g ∈ gs, g.Valid n
  anc : ∀ g ∈ gs, ∀ i j, TrueAncestor n g.B j i → Affects n gs j i
  trans : ∀ a b c, Affects n gs a b → Affects n gs b c → Affects n gs a c

/-- The tests answer correctly about all populations together.
* residuals that are not zero are reported as non-Gaussian;
* two residuals are reported as correlated iff they are correlated in some population;
* the residual of `x` on `l` is reported as independent of all of them iff it is so in every population. -/
structure PooledTests (n : Nat) (gs : List Pop) (t : Rcd.Tests) : Prop where
  nonGauss : ∀ H x, H ⊆ range n → x < n → x ∉ H → t.nonGauss H x = true
  corr : ∀ P a Q b, P ⊆ range n → Q ⊆ range n → a < n → b < n →
    (t.corr P a Q b = true ↔ ∃ g ∈ gs,
      ∃ r s, IsResidual n g.σ g.X P (g.X a) r ∧ IsResidual n g.σ g.X Q (g.X b) s ∧ popCov n g.σ r s ≠ 0)
  indep : ∀ H x l, H ⊆ range n → x < n → (∀ u ∈ l, u < n) →
    (t.indep H x l = true ↔ ∀ g ∈ gs,
      ∃ y r, (∀ u, u = x ∨ u ∈ l → IsResidual n g.σ g.X H (g.X u) (y u)) ∧ IsResidual n g.σ y l.toFinset (y x) r ∧
        ∀ u ∈ l, ShareNoSource n r (y u))

end Verif.MultiGroup
