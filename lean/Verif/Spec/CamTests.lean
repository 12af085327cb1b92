import Verif.Spec.Population
import Verif.Model.Camuv
import Mathlib.Data.Finset.Range

/-!
What it means that the independence measure of CAM-UV gives the right answer about a linear model with independent
non-Gaussian sources (`SourceModel`).  CAM-UV removes the influence of variables with a generalised additive fit; here the
fit is the best linear one, which is what a consistent additive fit gives in the linear special case of its model.
-/
set_option autoImplicit false
namespace Verif.Camuv
open Finset

/-- Every independence test answers correctly: the residual of `a` on `A` is reported as independent of the listed
residuals iff it shares no source with any of them. The thresholds are in the range where the starting value of the search
for the best child does not matter, and a Python set is iterated in some order. -/
structure RightTests (n m : Nat) (σ : Nat → ℚ) (X : Nat → Nat → ℚ) (c : Cfg) : Prop where
  iter : ∀ l, (c.iter l).Perm l
  alpha : c.hsic = true → 0 ≤ c.alpha
  corr : c.hsic = false → c.indCorr ≤ 1
  indep : ∀ a A l, a < n → A ⊆ range n → (∀ q ∈ l, q.1 < n ∧ q.2 ⊆ range n) →
    (isInd c (c.val a A l) = true ↔ ∃ r, IsResidual m σ X A (X a) r ∧
      ∀ q ∈ l, ∃ y, IsResidual m σ X q.2 (X q.1) y ∧ ShareNoSource m r y)

/-- There is a directed path from `j` to `i` on which no variable belongs to `S` (except possibly `i`). -/
def AvoidingPath (n : Nat) (B : Nat → Nat → ℚ) (S : Finset Nat) (j i : Nat) : Prop :=
  Relation.TransGen (fun a b => Edge n B 0 a b ∧ a ∉ S) j i

/-- No accidental cancellation for variable `i`: regressing `i` on some of its ancestors removes the own error of `j` only
if every path from `j` to `i` is interrupted by the regressors. -/
def NoAccident (n m : Nat) (σ : Nat → ℚ) (B X : Nat → Nat → ℚ) (i : Nat) : Prop :=
  ∀ S j r, (∀ s ∈ S, TrueAncestor n B s i) → AvoidingPath n B S j i → IsResidual m σ X S (X i) r → r j ≠ 0

end Verif.Camuv
