import Verif.Spec.CamGroups
import Verif.Spec.PerfectTests

/-!
What it means that the tests of MultiGroupRCD give the right answer about several populations with hidden causes.
-/
set_option autoImplicit false
namespace Verif.MultiGroup
open Finset

/-- The tests answer correctly about all populations together.
* two residuals are reported as correlated iff they are correlated in some population;
* the residual of `x` on `l` is reported as independent of all of them iff it is so in every population.
Nothing is asked of the test for normality. -/
structure HiddenPooledTests (n : Nat) (gs : List Camuv.Pop) (t : Rcd.Tests) : Prop where
  corr : ∀ P a Q b, P ⊆ range n → Q ⊆ range n → a < n → b < n →
    (t.corr P a Q b = true ↔ ∃ g ∈ gs,
      ∃ r s, IsResidual g.m g.σ g.X P (g.X a) r ∧ IsResidual g.m g.σ g.X Q (g.X b) s ∧ popCov g.m g.σ r s ≠ 0)
  indep : ∀ H x l, H ⊆ range n → x < n → (∀ u ∈ l, u < n) →
    (t.indep H x l = true ↔ ∀ g ∈ gs,
      ∃ y r, (∀ u, u = x ∨ u ∈ l → IsResidual g.m g.σ g.X H (g.X u) (y u)) ∧ IsResidual g.m g.σ y l.toFinset (y x) r ∧
        ∀ u ∈ l, ShareNoSource g.m r (y u))

end Verif.MultiGroup
