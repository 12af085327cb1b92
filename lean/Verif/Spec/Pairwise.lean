import Mathlib.Analysis.SpecialFunctions.Log.Basic
import Mathlib.Analysis.SpecialFunctions.Sqrt
import Mathlib.Analysis.SpecialFunctions.Trigonometric.Basic
import Mathlib.Algebra.BigOperators.Fin

/-! Vocabulary for the pairwise comparison of variables.  Nothing here refers to the model of the code. -/
set_option autoImplicit false
namespace Verif

variable {N : Nat}

/-- Hyvärinen's approximation of the differential entropy of a standardised sample. -/
noncomputable def approxEntropy (z : Fin N → ℝ) : ℝ :=
  (1 + Real.log (2 * Real.pi)) / 2 - 79.047 * ((∑ r, Real.log (Real.cosh (z r))) / N - 0.37457) ^ 2 -
    7.4129 * ((∑ r, z r * Real.exp (-(z r) ^ 2 / 2)) / N) ^ 2

/-- A sample with mean zero and variance one. -/
def IsStandard (z : Fin N → ℝ) : Prop := ∑ r, z r = 0 ∧ ∑ r, (z r) ^ 2 = N

/-- Difference of the mutual informations of the two directions, for standardised samples with correlation `ρ`: positive if
the first is the better cause. -/
noncomputable def directionScore (ρ : ℝ) (z w : Fin N → ℝ) : ℝ :=
  (approxEntropy w + approxEntropy (fun r => (z r - ρ * w r) / √(1 - ρ ^ 2))) -
    (approxEntropy z + approxEntropy (fun r => (w r - ρ * z r) / √(1 - ρ ^ 2)))

/-- The constant and the columns below `n` are linearly independent. -/
def Identified (n : Nat) (X : Nat → Fin N → ℝ) : Prop :=
  ∀ (b : Nat → ℝ) (b0 : ℝ), (∀ r, b0 + ∑ j ∈ Finset.range n, b j * X j r = 0) → ∀ j, j < n → b j = 0

/-- Mean of a sample. -/
noncomputable def sampleMean (x : Fin N → ℝ) : ℝ := (∑ r, x r) / N

/-- Standardised sample. -/
noncomputable def zscore (x : Fin N → ℝ) : Fin N → ℝ := fun r => (x r - sampleMean x) / √((∑ q, (x q - sampleMean x) ^ 2) / N)

/-- Correlation of two samples. -/
noncomputable def correlation (x y : Fin N → ℝ) : ℝ := (∑ r, zscore x r * zscore y r) / N

/-- Evidence against variable `i` as a source among the variables `U`: squared differences for all variables that are
better causes of `i` than `i` is of them. -/
noncomputable def penalty (X : Nat → Fin N → ℝ) (U : List Nat) (i : Nat) : ℝ :=
  ((U.filter (fun j => decide (j ≠ i))).map (fun j =>
    (min 0 (directionScore (correlation (X i) (X j)) (zscore (X i)) (zscore (X j)))) ^ 2)).sum

/-- `y` is `x` without its linear dependence on `m`. -/
def IsSlopeResidual (x m y : Fin N → ℝ) : Prop := (∃ c, ∀ r, y r = x r - c * m r) ∧ ∑ r, y r * (m r - sampleMean m) = 0

/-- The variables `U` are listed so that each has the smallest penalty among those that remain, after removing from these
the linear dependence on the earlier ones; `R` says what smallest means (`≤` or `<`). -/
inductive PairwiseOrder (R : ℝ → ℝ → Prop) : (Nat → Fin N → ℝ) → List Nat → List Nat → Prop
  | nil (X : Nat → Fin N → ℝ) : PairwiseOrder R X [] []
  | cons {X X' : Nat → Fin N → ℝ} {U l : List Nat} {m : Nat} (hm : m ∈ U)
      (best : ∀ i ∈ U, i ≠ m → R (penalty X U m) (penalty X U i))
      (res : ∀ i ∈ U, i ≠ m → IsSlopeResidual (X i) (X m) (X' i))
      (rest : PairwiseOrder R X' (U.filter (fun i => decide (i ≠ m))) l) : PairwiseOrder R X U (m :: l)

end Verif
