import Verif.Spec.Pairwise
import Mathlib.MeasureTheory.Integral.Bochner.Basic
import Mathlib.Probability.IdentDistrib
import Mathlib.Probability.Independence.Basic

/-! Vocabulary for ever larger samples from one distribution.  Nothing here refers to the model of the code. -/
set_option autoImplicit false
namespace Verif
open MeasureTheory ProbabilityTheory

variable {Ω : Type*} [MeasurableSpace Ω] (P : Measure Ω)

/-- Mean of a random variable. -/
noncomputable def meanOf (y : Ω → ℝ) : ℝ := ∫ ω, y ω ∂P

/-- Covariance of two random variables. -/
noncomputable def covOf (x y : Ω → ℝ) : ℝ := ∫ ω, (x ω - meanOf P x) * (y ω - meanOf P y) ∂P

/-- Standardised random variable. -/
noncomputable def zOf (y : Ω → ℝ) : Ω → ℝ := fun ω => (y ω - meanOf P y) / √(covOf P y y)

/-- Correlation of two random variables. -/
noncomputable def corrOf (x y : Ω → ℝ) : ℝ := ∫ ω, zOf P x ω * zOf P y ω ∂P

/-- Hyvärinen's approximation of the differential entropy of a standardised random variable. -/
noncomputable def entropyOf (z : Ω → ℝ) : ℝ :=
  (1 + Real.log (2 * Real.pi)) / 2 - 79.047 * ((∫ ω, Real.log (Real.cosh (z ω)) ∂P) - 0.37457) ^ 2 -
    7.4129 * (∫ ω, z ω * Real.exp (-(z ω) ^ 2 / 2) ∂P) ^ 2

/-- Difference of the mutual informations of the two directions, for standardised random variables with correlation `ρ`. -/
noncomputable def directionOf (ρ : ℝ) (z w : Ω → ℝ) : ℝ :=
  (entropyOf P w + entropyOf P (fun ω => (z ω - ρ * w ω) / √(1 - ρ ^ 2))) -
    (entropyOf P z + entropyOf P (fun ω => (w ω - ρ * z ω) / √(1 - ρ ^ 2)))

/-- Evidence against variable `i` as a source among the variables `U`. -/
noncomputable def penaltyOf (Y : Nat → Ω → ℝ) (U : List Nat) (i : Nat) : ℝ :=
  ((U.filter (fun j => decide (j ≠ i))).map (fun j =>
    (min 0 (directionOf P (corrOf P (Y i) (Y j)) (zOf P (Y i)) (zOf P (Y j)))) ^ 2)).sum

/-- The variables `U` are listed so that each has the smallest penalty among those that remain, without a tie, after
removing from these the linear dependence on the earlier ones. -/
inductive PopulationOrder : (Nat → Ω → ℝ) → List Nat → List Nat → Prop
  | nil (Y : Nat → Ω → ℝ) : PopulationOrder Y [] []
  | cons {Y Y' : Nat → Ω → ℝ} {U l : List Nat} {m : Nat} (hm : m ∈ U)
      (best : ∀ i ∈ U, i ≠ m → penaltyOf P Y U m < penaltyOf P Y U i)
      (res : ∀ i ∈ U, i ≠ m → Y' i = fun ω => Y i ω - covOf P (Y i) (Y m) / covOf P (Y m) (Y m) * Y m ω)
      (rest : PopulationOrder Y' (U.filter (fun i => decide (i ≠ m))) l) : PopulationOrder Y U (m :: l)

/-- `B` has the coefficients of the regressions of each variable on those before it in the order `o`: what these leave is
uncorrelated with those variables, and all other entries are 0. -/
structure PopulationMatrix (Y : Nat → Ω → ℝ) (o : List Nat) (B : Nat → Nat → ℝ) : Prop where
  row : ∀ pre t post, o = pre ++ t :: post → ∀ p ∈ pre, covOf P (fun ω => Y t ω - (pre.map (fun q => B t q * Y q ω)).sum) (Y p) = 0
  zero : ∀ i j, (¬ ∃ pre post, o = pre ++ i :: post ∧ j ∈ pre) → B i j = 0

/-- A linear model: each variable is a linear function of those before it in the order `o` plus a disturbance, and the
disturbances are uncorrelated. -/
structure LinearModel (Y : Nat → Ω → ℝ) (o : List Nat) (B : Nat → Nat → ℝ) (e : Nat → Ω → ℝ) : Prop where
  eq : ∀ pre t post, o = pre ++ t :: post → ∀ ω, Y t ω = (pre.map (fun q => B t q * Y q ω)).sum + e t ω
  zero : ∀ i j, (¬ ∃ pre post, o = pre ++ i :: post ∧ j ∈ pre) → B i j = 0
  uncorrelated : ∀ s ∈ o, ∀ t ∈ o, s ≠ t → covOf P (e s) (e t) = 0

/-- The variables below `n` have finite variances and no linear combination of them is constant. -/
structure Regular (n : Nat) (Y : Nat → Ω → ℝ) : Prop where
  square : ∀ j, j < n → Integrable (fun ω => Y j ω ^ 2) P
  free : ∀ (b : Nat → ℝ) (b0 : ℝ), (∀ᵐ ω ∂P, b0 + ∑ j ∈ Finset.range n, b j * Y j ω = 0) → ∀ j, j < n → b j = 0

/-- Independent rows with the same distribution; `R r ω j` is the value of variable `j` in row `r`. -/
structure IidRows (R : Nat → Ω → Nat → ℝ) : Prop where
  measurable : ∀ r, Measurable (R r)
  indep : ∀ r s, r ≠ s → IndepFun (R r) (R s) P
  same : ∀ r, IdentDistrib (R r) (R 0) P P

/-- `o` lists the variables below `n` and is a causal order of `B`: causes come before their effects. -/
def CausalOrder (n : Nat) (B : Nat → Nat → ℝ) (o : List Nat) : Prop :=
  o.Perm (List.range n) ∧ ∀ i j, B i j ≠ 0 → ∃ pre post, o = pre ++ i :: post ∧ j ∈ pre

/-- `T i` is the total effect of variable `src` on variable `i`: 1 on itself, and otherwise what its effects on the direct causes
of `i` pass on. -/
def TotalEffectOf (n : Nat) (B : Nat → Nat → ℝ) (src : Nat) (T : Nat → ℝ) : Prop :=
  ∀ i, i < n → T i = (if i = src then 1 else 0) + ∑ j ∈ Finset.range n, B i j * T j

/-- The data consisting of the first `N` rows. -/
def sampleOf (R : Nat → Ω → Nat → ℝ) (ω : Ω) (N : Nat) : Nat → Fin N → ℝ := fun j r => R r ω j

end Verif
