import Mathlib.Analysis.InnerProductSpace.PiL2
import Mathlib.Analysis.InnerProductSpace.Projection.Minimal
import Verif.Spec.NoiseModel

/-! A linear least squares fit exists for every sample: `IsLinearFit` is not an empty condition. -/
set_option autoImplicit false
set_option linter.unusedSectionVars false
namespace Verif
open Finset

variable {N : Nat}

/-- The best linear approximation exists. -/
theorem exists_best_fit (q : Nat) (Z : Fin N → Fin q → ℝ) (y : Fin N → ℝ) : ∃ (b : ℝ) (c : Fin q → ℝ),
    ∀ (b' : ℝ) (c' : Fin q → ℝ), ∑ r, (y r - (b + ∑ k, c k * Z r k)) ^ 2 ≤ ∑ r, (y r - (b' + ∑ k, c' k * Z r k)) ^ 2 := by
  let L : (ℝ × (Fin q → ℝ)) →ₗ[ℝ] EuclideanSpace ℝ (Fin N) :=
    { toFun := fun p => WithLp.toLp 2 (fun r => p.1 + ∑ k, p.2 k * Z r k)
      map_add' := by
        intro p p'
        ext r
        simp only [Prod.fst_add, Prod.snd_add, Pi.add_apply, add_mul, sum_add_distrib, PiLp.add_apply]
        ring
      map_smul' := by
        intro t p
        ext r
        simp only [Prod.smul_fst, Prod.smul_snd, Pi.smul_apply, smul_eq_mul, RingHom.id_apply, PiLp.smul_apply, mul_add, mul_sum, mul_assoc] }
  obtain ⟨v, ⟨⟨b, c⟩, rfl⟩, hv⟩ := Submodule.exists_norm_eq_iInf_of_complete_subspace (K := LinearMap.range L) (𝕜 := ℝ)
    (Submodule.complete_of_finiteDimensional _) (WithLp.toLp 2 y)
  refine ⟨b, c, fun b' c' => ?_⟩
  have h1 : ‖(WithLp.toLp 2 y : EuclideanSpace ℝ (Fin N)) - L (b, c)‖ ≤ ‖(WithLp.toLp 2 y : EuclideanSpace ℝ (Fin N)) - L (b', c')‖ := by
    rw [hv]
    have hbdd : BddBelow (Set.range fun w : ((LinearMap.range L : Submodule ℝ (EuclideanSpace ℝ (Fin N))) : Set (EuclideanSpace ℝ (Fin N))) =>
        ‖(WithLp.toLp 2 y : EuclideanSpace ℝ (Fin N)) - w‖) := ⟨0, by rintro _ ⟨w, rfl⟩; exact norm_nonneg _⟩
    exact ciInf_le hbdd ⟨L (b', c'), LinearMap.mem_range_self L (b', c')⟩
  have h2 := pow_le_pow_left₀ (norm_nonneg _) h1 2
  rw [EuclideanSpace.norm_sq_eq, EuclideanSpace.norm_sq_eq] at h2
  simp only [PiLp.sub_apply, Real.norm_eq_abs, sq_abs] at h2
  exact h2

/-- There is a linear regression with an intercept. -/
theorem exists_linearFit : ∃ reg : Regression N, IsLinearFit reg := by
  choose b c h using fun (q : Nat) (Z : Fin N → Fin q → ℝ) (y : Fin N → ℝ) => exists_best_fit q Z y
  exact ⟨fun q Z y r => b q Z y + ∑ k, c q Z y k * Z r k, fun q Z y => ⟨b q Z y, c q Z y, fun _ => rfl, h q Z y⟩⟩

end Verif
