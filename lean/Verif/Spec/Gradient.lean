import Mathlib.Analysis.Calculus.Deriv.Basic
import Mathlib.Data.Matrix.Basic

/-! Specification: directional derivatives of functions of a `d × d` real matrix. -/
set_option autoImplicit false
namespace Verif

/-- `G` is the gradient of `F` at `W`: the derivative of `F` along every direction `E` is `∑ G i j * E i j`. -/
def IsGrad (d : Nat) (F : (Nat → Nat → ℝ) → ℝ) (G W : Nat → Nat → ℝ) : Prop :=
  ∀ E : Nat → Nat → ℝ, HasDerivAt (fun t : ℝ => F (fun i j => W i j + t * E i j))
    (∑ i ∈ Finset.range d, ∑ j ∈ Finset.range d, G i j * E i j) 0

/-- The same for a function of a pair of matrices. -/
def IsGrad2 (d : Nat) (F : (Nat → Nat → ℝ) × (Nat → Nat → ℝ) → ℝ) (G w : (Nat → Nat → ℝ) × (Nat → Nat → ℝ)) : Prop :=
  ∀ v : (Nat → Nat → ℝ) × (Nat → Nat → ℝ),
    HasDerivAt (fun t : ℝ => F (fun i j => w.1 i j + t * v.1 i j, fun i j => w.2 i j + t * v.2 i j))
      ((∑ i ∈ Finset.range d, ∑ j ∈ Finset.range d, G.1 i j * v.1 i j) +
        ∑ i ∈ Finset.range d, ∑ j ∈ Finset.range d, G.2 i j * v.2 i j) 0

/-- `G` is the gradient of the function `F` of a rectangular matrix at `W`. -/
def IsGradM {a b : Nat} (F : Matrix (Fin a) (Fin b) ℝ → ℝ) (G W : Matrix (Fin a) (Fin b) ℝ) : Prop :=
  ∀ E : Matrix (Fin a) (Fin b) ℝ, HasDerivAt (fun t : ℝ => F (W + t • E)) (∑ i, ∑ j, G i j * E i j) 0

end Verif
