import Verif.Spec.Population
import Verif.Model.Parce
import Mathlib.Data.Finset.Range

/-!
What it means that the independence tests of BottomUpParceLiNGAM give the right answer about a linear model with
independent non-Gaussian sources (`SourceModel`, hidden causes allowed), and which variables such tests can resolve.
-/
set_option autoImplicit false
namespace Verif.Parce
open Finset

/-- The independence test is passed by a value: p-value at least `alpha/(n-1)`, or F-correlation below the threshold. -/
def Passed (c : Cfg) (n : Nat) (e : ℚ) : Prop :=
  if c.fc then e < c.indCorr else c.alpha / ((n : ℚ) - 1) ≤ e

/-- The least squares residual of variable `j` on the other variables of `S` is independent of each of them. -/
def IndepOfOthers (m : Nat) (σ : Nat → ℚ) (X : Nat → Nat → ℚ) (S : Finset Nat) (j : Nat) : Prop :=
  ∃ r, IsResidual m σ X (S.erase j) (X j) r ∧ ∀ u ∈ S.erase j, ShareNoSource m r (X u)

/-- All tests answer correctly about the variables `X` (coefficients on `m` independent non-Gaussian sources with
variances `σ`): a candidate passes iff its residual is independent of its regressors, the compared statistic is smaller
for independent candidates, and not all statistics are infinite (C61 shows what happens otherwise). -/
structure RightTests (n m : Nat) (σ : Nat → ℚ) (X : Nat → Nat → ℚ) (c : Cfg) : Prop where
  single : ∀ U x, U.Nodup → (∀ u ∈ U, u < n) → x ∈ U →
    (Passed c n (c.single U x) ↔ IndepOfOthers m σ X U.toFinset x)
  fcorr : c.fc = true → ∀ Uc j, Uc.Nodup → (∀ u ∈ Uc, u < n) → j ∈ Uc →
    (Passed c n (c.fcorr Uc j) ↔ IndepOfOthers m σ X Uc.toFinset j)
  hsic : c.fc = false → ∀ Uc j, Uc.Nodup → (∀ u ∈ Uc, u < n) → j ∈ Uc →
    (Passed c n (c.hsic Uc j).2 ↔ IndepOfOthers m σ X Uc.toFinset j)
  stat : c.fc = false → ∀ Uc i j, Uc.Nodup → (∀ u ∈ Uc, u < n) → i ∈ Uc → j ∈ Uc →
    IndepOfOthers m σ X Uc.toFinset i → ¬ IndepOfOthers m σ X Uc.toFinset j → (c.hsic Uc i).1 < (c.hsic Uc j).1
  finite : c.fc = false → ∀ Uc : List Nat, 2 ≤ Uc.length → ∃ j ∈ Uc, (c.hsic Uc j).1 ≠ ⊤

/-- The regressions of the last step return population least squares coefficients. -/
def RightCoef (n m : Nat) (σ : Nat → ℚ) (X : Nat → Nat → ℚ) (lasso : Direct.Lasso ℚ) : Prop :=
  ∀ ps x, ps.Nodup → (∀ p ∈ ps, p < n) → x < n → ∃ r, IsRegression m σ X ps.toFinset (X x) (lasso ps x) r

/-- `j` is a cause of `u`, or a hidden cause of `j` also has an effect on `u`. -/
def Touches (n m : Nat) (B L X : Nat → Nat → ℚ) (j u : Nat) : Prop :=
  u < n ∧ (TrueAncestor n B j u ∨ ∃ k, n ≤ k ∧ k < m ∧ L j k ≠ 0 ∧ X u k ≠ 0)

/-- Every member of `V` is a cause of another member or has a hidden cause that affects another member. -/
def Entangled (n m : Nat) (B L X : Nat → Nat → ℚ) (V : List Nat) : Prop :=
  ∀ j ∈ V, j < n ∧ ∃ u ∈ V, u ≠ j ∧ Touches n m B L X j u

/-- The prior knowledge matrix says only true things about the model: 1 = there is a directed path, 0 = there is none. -/
def TruePrior (n : Nat) (B : Nat → Nat → ℚ) (pk : Direct.PK) : Prop :=
  ∀ i j, i < n → j < n → (pk i j = 1 → TrueAncestor n B j i) ∧ (pk i j = 0 → ¬ TrueAncestor n B j i)

end Verif.Parce
