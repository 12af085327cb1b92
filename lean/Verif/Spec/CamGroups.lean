import Verif.Spec.CamTests

/-!
Several populations with hidden causes over the same variables, and what it means that the independence measure of
MultiGroupCAMUV gives the right answer about all of them together.
-/
set_option autoImplicit false
namespace Verif.Camuv
open Finset

/-- One population: number of sources, direct effects, effects of the hidden sources, coefficients on the sources and their
variances. -/
structure Pop where
  m : Nat
  B : Nat → Nat → ℚ
  L : Nat → Nat → ℚ
  X : Nat → Nat → ℚ
  σ : Nat → ℚ

/-- A linear model over `n` variables with independent non-Gaussian sources. -/
def Pop.Valid (n : Nat) (g : Pop) : Prop := SourceModel n g.m g.B g.L g.X ∧ ∀ k, k < g.m → 0 < g.σ k

/-- `j` is a direct cause of `i` in at least one population. -/
def GroupEdge (n : Nat) (gs : List Pop) (j i : Nat) : Prop := ∃ g ∈ gs, Edge n g.B 0 j i

/-- `j` is a cause of `i`, possibly along edges of different populations. -/
def GroupAncestor (n : Nat) (gs : List Pop) (j i : Nat) : Prop := Relation.TransGen (GroupEdge n gs) j i

/-- The populations are linear models with a common causal order. -/
structure CommonOrder (n : Nat) (gs : List Pop) : Prop where
  valid : ∀ g ∈ gs, g.Valid n
  acyclic : Acyclic (GroupEdge n gs)

/-- In no population a hidden source acts on `i` or on one of its causes. -/
def CleanAbove (n : Nat) (gs : List Pop) (i : Nat) : Prop :=
  ∀ g ∈ gs, ∀ a, (a = i ∨ GroupAncestor n gs a i) → ∀ k, n ≤ k → k < g.m → g.L a k = 0

/-- The test over all data sets answers correctly: the residual of `a` on `A` is reported as independent of the listed
residuals iff it shares no source with any of them in any population. -/
structure PooledRight (n : Nat) (gs : List Pop) (c : Cfg) : Prop where
  iter : ∀ l, (c.iter l).Perm l
  alpha : c.hsic = true → 0 ≤ c.alpha
  corr : c.hsic = false → c.indCorr ≤ 1
  indep : ∀ a A l, a < n → A ⊆ range n → (∀ q ∈ l, q.1 < n ∧ q.2 ⊆ range n) →
    (isInd c (c.val a A l) = true ↔ ∀ g ∈ gs, ∃ r, IsResidual g.m g.σ g.X A (g.X a) r ∧
      ∀ q ∈ l, ∃ y, IsResidual g.m g.σ g.X q.2 (g.X q.1) y ∧ ShareNoSource g.m r y)

/-- A path from `j` to `i` along edges of the populations on which no variable belongs to `S` (except possibly `i`). -/
def GroupAvoiding (n : Nat) (gs : List Pop) (S : Finset Nat) (j i : Nat) : Prop :=
  Relation.TransGen (fun a b => GroupEdge n gs a b ∧ a ∉ S) j i

/-- No cancellation in all populations at once: if a path from `j` to `i` avoids `S`, then in some population the residual
of `i` on `S` contains the own error of `j`. -/
def GroupFaithful (n : Nat) (gs : List Pop) (i : Nat) : Prop :=
  ∀ S j, (∀ s ∈ S, GroupAncestor n gs s i) → GroupAvoiding n gs S j i →
    ∃ g ∈ gs, ∀ r, IsResidual g.m g.σ g.X S (g.X i) r → r j ≠ 0

end Verif.Camuv
