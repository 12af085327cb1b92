import Verif.Model.KernelMi
import Verif.Proofs.Hsic
import Mathlib.LinearAlgebra.Matrix.SchurComplement
import Mathlib.Analysis.Matrix.Order

/-! Lemmas about the kernel measure of `lingam/direct_lingam.py`. -/
set_option linter.unusedSectionVars false
set_option autoImplicit false
namespace Verif.KernelMi
open Matrix

variable {ι : Type} [Fintype ι] [DecidableEq ι]

theorem prod_eig (A : Matrix ι ι ℝ) :
    ∏ i, (isHermitian_conjTranspose_mul_self A).eigenvalues i = A.det ^ 2 := by
  have h := (isHermitian_conjTranspose_mul_self A).det_eq_prod_eigenvalues
  rw [det_mul, det_conjTranspose] at h
  simp only [star_trivial] at h
  rw [sq, h]
  rfl

theorem singular_pos (A : Matrix ι ι ℝ) (h : A.det ≠ 0) (i : ι) : 0 < singular A i := by
  refine Real.sqrt_pos.2 (lt_of_le_of_ne ((posSemidef_conjTranspose_mul_self A).eigenvalues_nonneg i) ?_)
  intro h0
  have := prod_eig A
  rw [Finset.prod_eq_zero (Finset.mem_univ i) h0.symm] at this
  exact h (pow_eq_zero_iff (two_ne_zero) |>.1 this.symm)

/-- The sum of the logarithms of the singular values is the logarithm of the absolute determinant. -/
theorem sumLog_eq (A : Matrix ι ι ℝ) (h : A.det ≠ 0) : sumLog A = Real.log |A.det| := by
  unfold sumLog
  rw [← Real.log_prod (fun i _ => (singular_pos A h i).ne')]
  congr 1
  have h1 : (∏ i, singular A i) ^ 2 = |A.det| ^ 2 := by
    rw [sq_abs, ← prod_eig, ← Finset.prod_pow]
    exact Finset.prod_congr rfl fun i _ => Real.sq_sqrt ((posSemidef_conjTranspose_mul_self A).eigenvalues_nonneg i)
  exact (pow_left_inj₀ (Finset.prod_nonneg fun i _ => (singular_pos A h i).le) (abs_nonneg _) two_ne_zero).1 h1

/-- `det (1 + P) > 1` for `P ≥ 0` nonzero. -/
theorem one_lt_det_one_add {P : Matrix ι ι ℝ} (hP : P.PosSemidef) (h0 : P ≠ 0) : 1 < (1 + P).det := by
  have hH := hP.isHermitian
  have h1 : (1 + P).det = ∏ i, (1 + hH.eigenvalues i) := by
    have h2 := congrArg (Polynomial.eval (-1)) hH.charpoly_eq
    rw [Matrix.eval_charpoly, Polynomial.eval_prod] at h2
    have h3 : (Matrix.scalar ι (-1 : ℝ) - P) = -(1 + P) := by
      ext i j
      by_cases hij : i = j <;> simp [Matrix.scalar_apply, hij]; ring
    rw [h3, det_neg] at h2
    have h4 : ∏ i, Polynomial.eval (-1) (Polynomial.X - Polynomial.C (hH.eigenvalues i : ℝ)) =
        (-1) ^ Fintype.card ι * ∏ i, (1 + hH.eigenvalues i) := by
      have : ∀ i, Polynomial.eval (-1) (Polynomial.X - Polynomial.C (hH.eigenvalues i : ℝ)) = (-1) * (1 + hH.eigenvalues i) := by
        intro i
        simp
        ring
      simp only [this, Finset.prod_mul_distrib, Finset.prod_const, Finset.card_univ]
    have h5 : (-1 : ℝ) ^ Fintype.card ι ≠ 0 := pow_ne_zero _ (by norm_num)
    exact mul_left_cancel₀ h5 (h2.trans h4)
  obtain ⟨i, hi⟩ : ∃ i, hH.eigenvalues i ≠ 0 := by
    by_contra hcon
    push Not at hcon
    exact h0 (hH.eigenvalues_eq_zero_iff.1 (funext hcon))
  have hnn := fun i => hP.eigenvalues_nonneg i
  rw [h1, ← Finset.mul_prod_erase _ _ (Finset.mem_univ i)]
  have h6 : 1 ≤ ∏ j ∈ Finset.univ.erase i, (1 + hH.eigenvalues j) := by
    have : ∀ j ∈ Finset.univ.erase i, 1 ≤ 1 + hH.eigenvalues j := fun j _ => by linarith [hnn j]
    calc (1 : ℝ) = ∏ j ∈ Finset.univ.erase i, (1 : ℝ) := by simp
      _ ≤ _ := Finset.prod_le_prod (fun _ _ => zero_le_one) this
  have h7 : 0 < hH.eigenvalues i := lt_of_le_of_ne (hnn i) (Ne.symm hi)
  nlinarith

/-- Adding a nonzero positive semidefinite matrix increases the determinant of a positive definite one. -/
theorem det_lt_det_add {M S : Matrix ι ι ℝ} (hM : M.PosDef) (hS : S.PosSemidef) (h0 : S ≠ 0) : M.det < (M + S).det := by
  obtain ⟨R, hR⟩ : ∃ R : Matrix ι ι ℝ, M = Rᴴ * R := by
    open scoped MatrixOrder in
    obtain ⟨R, hR⟩ := CStarAlgebra.nonneg_iff_eq_star_mul_self.1 hM.posSemidef.nonneg
    exact ⟨R, hR⟩
  have hdM := hM.det_pos
  have hdR : IsUnit R.det := by
    rw [isUnit_iff_ne_zero]
    intro h
    rw [hR, det_mul, h, mul_zero] at hdM
    exact lt_irrefl _ hdM
  have hRR : R⁻¹ * R = 1 := nonsing_inv_mul _ hdR
  have hRR' : Rᴴ * (R⁻¹)ᴴ = 1 := by rw [← conjTranspose_mul, hRR, conjTranspose_one]
  have hP : ((R⁻¹)ᴴ * S * R⁻¹).PosSemidef := hS.conjTranspose_mul_mul_same _
  have hsum : M + S = Rᴴ * (1 + (R⁻¹)ᴴ * S * R⁻¹) * R := by
    rw [Matrix.mul_add, Matrix.add_mul, Matrix.mul_one, ← hR]
    congr 1
    calc S = (Rᴴ * (R⁻¹)ᴴ) * S * (R⁻¹ * R) := by rw [hRR, hRR', Matrix.one_mul, Matrix.mul_one]
      _ = _ := by simp only [Matrix.mul_assoc]
  have hP0 : (R⁻¹)ᴴ * S * R⁻¹ ≠ 0 := by
    intro h
    rw [h, add_zero, Matrix.mul_one, ← hR] at hsum
    exact h0 (by simpa using hsum)
  have h1 := one_lt_det_one_add hP hP0
  rw [hsum, det_mul, det_mul, mul_right_comm, ← det_mul, ← hR]
  nlinarith

/-- Fischer's inequality, strict if the off-diagonal block is not zero. -/
theorem fischer {κ : Type} [Fintype κ] [DecidableEq κ] {A : Matrix ι ι ℝ} {B : Matrix ι κ ℝ} {D : Matrix κ κ ℝ}
    (h : (fromBlocks A B Bᴴ D).PosDef) (hB : B ≠ 0) : (fromBlocks A B Bᴴ D).det < A.det * D.det := by
  have hA : A.PosDef := by
    have := h.submatrix (e := Sum.inl) Sum.inl_injective
    have e : (fromBlocks A B Bᴴ D).submatrix Sum.inl Sum.inl = A := rfl
    rwa [e] at this
  have hu := hA.isUnit
  have hdA := hA.det_pos
  let _ := hu.invertible
  have hdet : (fromBlocks A B Bᴴ D).det = A.det * (D - Bᴴ * A⁻¹ * B).det := by
    rw [det_fromBlocks₁₁, invOf_eq_nonsing_inv]
  have hS : (Bᴴ * A⁻¹ * B).PosSemidef := hA.inv.posSemidef.conjTranspose_mul_mul_same B
  have hMs : (D - Bᴴ * A⁻¹ * B).PosSemidef := (PosDef.fromBlocks₁₁ B D hA).1 h.posSemidef
  have hM : (D - Bᴴ * A⁻¹ * B).PosDef := by
    refine hMs.posDef_iff_isUnit.2 ?_
    rw [Matrix.isUnit_iff_isUnit_det, isUnit_iff_ne_zero]
    intro h0
    have := h.det_pos
    rw [hdet, h0, mul_zero] at this
    exact lt_irrefl _ this
  have hS0 : Bᴴ * A⁻¹ * B ≠ 0 := by
    intro h0
    apply hB
    ext i j
    by_contra hij
    have hv : B.col j ≠ 0 := fun hc => hij (by simpa using congrFun hc i)
    have h1 := hA.inv.dotProduct_mulVec_pos hv
    have h2 : dotProduct (star (B.col j)) (A⁻¹ *ᵥ B.col j) = (Bᴴ * A⁻¹ * B) j j := by
      simp only [Matrix.mul_assoc]
      simp [Matrix.mul_apply, dotProduct, mulVec]
    rw [h2, h0] at h1
    exact lt_irrefl _ h1
  have h3 := det_lt_det_add hM hS hS0
  rw [sub_add_cancel] at h3
  rw [hdet]
  exact mul_lt_mul_of_pos_left h3 hdA

end Verif.KernelMi
