import Verif.Proofs.KernelMi
import Mathlib.Data.Matrix.ColumnRowPartitioned

/-!
# The kernel measure of DirectLiNGAM (C166)

`_mutual_information` is computed with singular values of two matrices of twice the sample size.  What kind of number is it?
-/
set_option linter.unusedSectionVars false
set_option autoImplicit false
namespace Verif.KernelMi
open Matrix

/-- The Gaussian kernel matrix of a sample. -/
noncomputable def gaussMatrix {n : Nat} (sigma : ℝ) (x : Fin n → ℝ) : Matrix (Fin n) (Fin n) ℝ :=
  of fun i j => Real.exp (-(x i - x j) ^ 2 / (2 * sigma ^ 2))

/-- The regularised kernel generalised variance of Bach and Jordan (without centring): `det 𝒦_κ / det 𝒟_κ`. -/
noncomputable def generalisedVariance {n : Nat} (kappa sigma : ℝ) (x y : Fin n → ℝ) : ℝ :=
  let T := fun z : Fin n → ℝ => gaussMatrix sigma z + (n * kappa / 2) • (1 : Matrix (Fin n) (Fin n) ℝ)
  (fromBlocks (T x * T x) (gaussMatrix sigma x * gaussMatrix sigma y)
    (gaussMatrix sigma y * gaussMatrix sigma x) (T y * T y)).det / ((T x).det ^ 2 * (T y).det ^ 2)

theorem gram_eq {n : Nat} (sigma : ℝ) (x : Fin n → ℝ) : gram sigma x = gaussMatrix sigma x := by
  ext i j
  simp only [gram, gaussMatrix, of_apply]
  congr 1
  by_cases h : sigma = 0
  · simp [h]
  · field_simp
    ring

theorem gram_psd {n : Nat} (sigma : ℝ) (x : Fin n → ℝ) : (gram sigma x).PosSemidef := by
  have h := (Hsic.psd_iff _).1 (Hsic.psd_rbf (fun i (_ : Fin 1) => x i) sigma)
  have e : gram sigma x = of (Hsic.rbf (fun i (_ : Fin 1) => x i) sigma) := by
    rw [gram_eq]
    ext i j
    simp only [gaussMatrix, of_apply, Hsic.rbf, Hsic.dist_eq]
    congr 1
    simp only [Finset.univ_unique, Finset.sum_const, Finset.card_singleton, one_smul]
    rw [div_div]
  rw [e]
  exact h

theorem gram_mul_ne_zero {n : Nat} (hn : 0 < n) (sigma : ℝ) (x y : Fin n → ℝ) : gram sigma x * gram sigma y ≠ 0 := by
  intro h
  have h1 := congrFun (congrFun h ⟨0, hn⟩) ⟨0, hn⟩
  rw [Matrix.mul_apply] at h1
  have : 0 < ∑ j, gram sigma x ⟨0, hn⟩ j * gram sigma y j ⟨0, hn⟩ :=
    Finset.sum_pos (fun j _ => mul_pos (Real.exp_pos _) (Real.exp_pos _)) ⟨⟨0, hn⟩, Finset.mem_univ _⟩
  exact this.ne' h1

theorem diag_psd {n : Nat} {A B : Matrix (Fin n) (Fin n) ℝ} (hA : A.PosSemidef) (hB : B.PosSemidef) :
    (fromBlocks A 0 0 B).PosSemidef := by
  open scoped MatrixOrder in
  obtain ⟨R, rfl⟩ := CStarAlgebra.nonneg_iff_eq_star_mul_self.1 hA.nonneg
  obtain ⟨S, rfl⟩ := CStarAlgebra.nonneg_iff_eq_star_mul_self.1 hB.nonneg
  have h := posSemidef_conjTranspose_mul_self (fromBlocks R 0 0 S)
  rw [fromBlocks_conjTranspose, fromBlocks_multiply] at h
  simpa [star_eq_conjTranspose] using h

/-- `𝒦_κ` is positive definite. -/
theorem kKappa_posDef {n : Nat} {kappa : ℝ} (hn : 0 < n) (hk : 0 < kappa) {K L : Matrix (Fin n) (Fin n) ℝ} (hK : K.PosSemidef)
    (hL : L.PosSemidef) : (kKappa kappa K L).PosDef := by
  set c : ℝ := n * kappa / 2 with hc
  have hc0 : 0 < c := by have : (0 : ℝ) < n := by exact_mod_cast hn
                         positivity
  have h1 := posSemidef_conjTranspose_mul_self (fromCols K L)
  have h2 : (fromCols K L)ᴴ * fromCols K L = fromBlocks (K * K) (K * L) (L * K) (L * L) := by
    rw [conjTranspose_fromCols_eq_fromRows_conjTranspose, fromRows_mul_fromCols, hK.isHermitian.eq, hL.isHermitian.eq]
  rw [h2] at h1
  have h3 := (diag_psd hK hL).smul (show 0 ≤ 2 * c by positivity)
  have h4 : ((c * c) • (1 : Matrix (Fin n ⊕ Fin n) (Fin n ⊕ Fin n) ℝ)).PosDef := PosDef.one.smul (by positivity)
  have h5 := h4.add_posSemidef (h1.add h3)
  convert h5 using 1
  unfold kKappa reg
  rw [← hc, ← fromBlocks_one, fromBlocks_smul, fromBlocks_smul, fromBlocks_add, fromBlocks_add]
  have e : ∀ M : Matrix (Fin n) (Fin n) ℝ, (M + c • 1) * (M + c • 1) = (c * c) • 1 + (M * M + (2 * c) • M) := by
    intro M
    simp only [Matrix.mul_add, Matrix.add_mul, Matrix.mul_smul, Matrix.smul_mul, Matrix.mul_one, Matrix.one_mul]
    rw [two_mul, add_smul, smul_add, smul_smul]
    abel
  rw [e, e]
  simp

theorem reg_posDef {n : Nat} {kappa : ℝ} (hn : 0 < n) (hk : 0 < kappa) {K : Matrix (Fin n) (Fin n) ℝ} (hK : K.PosSemidef) :
    (reg kappa K).PosDef := by
  have : (0 : ℝ) < n := by exact_mod_cast hn
  have h := (PosDef.one (n := Fin n) (R := ℝ)).smul (show 0 < n * kappa / 2 by positivity)
  unfold reg
  rw [add_comm]
  exact h.add_posSemidef hK

theorem dKappa_det {n : Nat} (kappa : ℝ) (K L : Matrix (Fin n) (Fin n) ℝ) :
    (dKappa kappa K L).det = (reg kappa K).det ^ 2 * (reg kappa L).det ^ 2 := by
  unfold dKappa
  rw [det_fromBlocks_zero₂₁, det_mul, det_mul, sq, sq]

/-- **C166.** No logarithm of zero is taken: all singular values are positive. -/
theorem C166_no_log_of_zero {n : Nat} {kappa : ℝ} (hn : 0 < n) (hk : 0 < kappa) (sigma : ℝ) (x y : Fin n → ℝ)
    (i : Fin n ⊕ Fin n) :
    0 < singular (kKappa kappa (gram sigma x) (gram sigma y)) i ∧ 0 < singular (dKappa kappa (gram sigma x) (gram sigma y)) i := by
  refine ⟨singular_pos _ (kKappa_posDef hn hk (gram_psd _ _) (gram_psd _ _)).det_pos.ne' i, singular_pos _ ?_ i⟩
  rw [dKappa_det]
  have h1 := (reg_posDef hn hk (gram_psd sigma x)).det_pos
  have h2 := (reg_posDef hn hk (gram_psd sigma y)).det_pos
  positivity

/-- **C166.** The value is `-½ log` of the regularised kernel generalised variance. -/
theorem C166_value_partial {n : Nat} {kappa : ℝ} (hn : 0 < n) (hk : 0 < kappa) (sigma : ℝ) (x y : Fin n → ℝ) :
    mutualInformation kappa sigma x y = -1 / 2 * Real.log (generalisedVariance kappa sigma x y) := by
  have h1 := (reg_posDef hn hk (gram_psd sigma x)).det_pos
  have h2 := (reg_posDef hn hk (gram_psd sigma y)).det_pos
  have h3 := (kKappa_posDef hn hk (gram_psd sigma x) (gram_psd sigma y)).det_pos
  unfold mutualInformation
  rw [sumLog_eq _ h3.ne', sumLog_eq _ (by rw [dKappa_det]; positivity), dKappa_det, abs_of_pos h3, abs_of_pos (by positivity),
    ← Real.log_div h3.ne' (by positivity)]
  unfold generalisedVariance
  simp only [← gram_eq]
  rfl

/-- **C166.** The generalised variance is strictly between 0 and 1, so the measure is positive for all samples. -/
theorem C166_positive {n : Nat} {kappa : ℝ} (hn : 0 < n) (hk : 0 < kappa) (sigma : ℝ) (x y : Fin n → ℝ) :
    0 < generalisedVariance kappa sigma x y ∧ generalisedVariance kappa sigma x y < 1 ∧
      0 < mutualInformation kappa sigma x y := by
  have h1 := (reg_posDef hn hk (gram_psd sigma x)).det_pos
  have h2 := (reg_posDef hn hk (gram_psd sigma y)).det_pos
  have hp := kKappa_posDef hn hk (gram_psd sigma x) (gram_psd sigma y)
  have h3 := hp.det_pos
  have hv : generalisedVariance kappa sigma x y = (kKappa kappa (gram sigma x) (gram sigma y)).det /
      ((reg kappa (gram sigma x)).det ^ 2 * (reg kappa (gram sigma y)).det ^ 2) := by
    unfold generalisedVariance
    simp only [← gram_eq]
    rfl
  have hT : (gram sigma y * gram sigma x) = (gram sigma x * gram sigma y)ᴴ := by
    rw [conjTranspose_mul, (gram_psd sigma x).isHermitian.eq, (gram_psd sigma y).isHermitian.eq]
  have hlt : (kKappa kappa (gram sigma x) (gram sigma y)).det <
      (reg kappa (gram sigma x)).det ^ 2 * (reg kappa (gram sigma y)).det ^ 2 := by
    unfold kKappa at hp ⊢
    rw [hT] at hp ⊢
    have := fischer hp (gram_mul_ne_zero hn sigma x y)
    rwa [det_mul, det_mul, ← sq (reg kappa (gram sigma x)).det, ← sq (reg kappa (gram sigma y)).det] at this
  have h4 : 0 < generalisedVariance kappa sigma x y := by rw [hv]; positivity
  have h5 : generalisedVariance kappa sigma x y < 1 := by rw [hv]; exact (div_lt_one (by positivity)).2 hlt
  refine ⟨h4, h5, ?_⟩
  rw [C166_value_partial hn hk]
  have := Real.log_neg h4 h5
  linarith

/-- **C166.** The measure does not depend on the order of the two variables. -/
theorem C166_symmetric {n : Nat} {kappa : ℝ} (hn : 0 < n) (hk : 0 < kappa) (sigma : ℝ) (x y : Fin n → ℝ) :
    mutualInformation kappa sigma x y = mutualInformation kappa sigma y x := by
  rw [C166_value_partial hn hk, C166_value_partial hn hk]
  congr 2
  unfold generalisedVariance
  simp only
  congr 1
  · rw [← det_submatrix_equiv_self (Equiv.sumComm (Fin n) (Fin n))]
    congr 1
    exact fromBlocks_submatrix_sum_swap_sum_swap _ _ _ _
  · exact mul_comm _ _

/-- **C166.** The measure does not depend on the order of the rows, the origins or the orientations of the two variables. -/
theorem C166_invariant {n : Nat} {kappa : ℝ} (hn : 0 < n) (hk : 0 < kappa) (sigma : ℝ) (x y : Fin n → ℝ)
    (π : Equiv.Perm (Fin n)) (a b c d : ℝ) (ha : a = 1 ∨ a = -1) (hc : c = 1 ∨ c = -1) :
    mutualInformation kappa sigma (fun r => a * x (π r) + b) (fun r => c * y (π r) + d) =
      mutualInformation kappa sigma x y := by
  have hg : ∀ (z : Fin n → ℝ) (a b : ℝ), (a = 1 ∨ a = -1) →
      gaussMatrix sigma (fun r => a * z (π r) + b) = (gaussMatrix sigma z).submatrix π π := by
    intro z a b ha
    ext i j
    simp only [gaussMatrix, of_apply, submatrix_apply]
    congr 3
    rcases ha with rfl | rfl <;> ring
  have h1 : ∀ M : Matrix (Fin n) (Fin n) ℝ, M.submatrix π π + (n * kappa / 2) • (1 : Matrix (Fin n) (Fin n) ℝ) =
      (M + (n * kappa / 2) • (1 : Matrix (Fin n) (Fin n) ℝ)).submatrix π π := by
    intro M
    rw [submatrix_add, submatrix_smul]
    simp
  rw [C166_value_partial hn hk, C166_value_partial hn hk]
  congr 2
  unfold generalisedVariance
  simp only [hg x a b ha, hg y c d hc, h1]
  congr 1
  · rw [← det_submatrix_equiv_self (Equiv.sumCongr π π)
      (fromBlocks _ (gaussMatrix sigma x * gaussMatrix sigma y) (gaussMatrix sigma y * gaussMatrix sigma x) _)]
    congr 1
    have e : ∀ M N : Matrix (Fin n) (Fin n) ℝ, M.submatrix π π * N.submatrix π π = (M * N).submatrix π π :=
      fun M N => submatrix_mul_equiv M N π π π
    rw [e, e, e, e]
    ext i j
    rcases i with i | i <;> rcases j with j | j <;> rfl
  · rw [det_submatrix_equiv_self, det_submatrix_equiv_self]

/-- **C166 is violated for constants**: a constant carries no information, yet its measure with any variable (even with another
constant) is positive.  The kernel matrices are not centred. -/
theorem C166_constant_not_zero {n : Nat} {kappa : ℝ} (hn : 0 < n) (hk : 0 < kappa) (sigma a : ℝ) (y : Fin n → ℝ) :
    mutualInformation kappa sigma (fun _ => a) y ≠ 0 := (C166_positive hn hk sigma _ y).2.2.ne'

/-- The parameters the code uses are covered. -/
theorem C166_parameters (n : Nat) : 0 < (params n).1 ∧ 0 < (params n).2 := by
  unfold params
  split <;> constructor <;> norm_num

/-- One row: the value is `-½ log (1 - 1 / (1 + κ/2)⁴)`, whatever the two numbers are. -/
example (kappa sigma x y : ℝ) (hk : 0 < kappa) :
    mutualInformation kappa sigma (fun _ : Fin 1 => x) (fun _ => y) = -1 / 2 * Real.log (1 - 1 / (1 + kappa / 2) ^ 4) := by
  rw [C166_value_partial one_pos hk]
  have e : ∀ z : ℝ, gaussMatrix sigma (fun _ : Fin 1 => z) = 1 := by
    intro z
    ext i j
    rw [Subsingleton.elim i j]
    simp [gaussMatrix]
  congr 2
  unfold generalisedVariance
  simp only [e]
  have e2 : (1 : Matrix (Fin 1) (Fin 1) ℝ) + ((1 : ℕ) * kappa / 2) • (1 : Matrix (Fin 1) (Fin 1) ℝ) = (1 + kappa / 2) • 1 := by
    rw [add_smul, one_smul]; simp
  have hk' : 1 + kappa / 2 ≠ 0 := by positivity
  rw [e2, ← det_submatrix_equiv_self (finSumFinEquiv (m := 1) (n := 1)).symm, det_fin_two]
  have f0 : (finSumFinEquiv (m := 1) (n := 1)).symm 0 = Sum.inl 0 := rfl
  have f1 : (finSumFinEquiv (m := 1) (n := 1)).symm 1 = Sum.inr 0 := rfl
  simp only [submatrix_apply, f0, f1, fromBlocks_apply₁₁, fromBlocks_apply₁₂, fromBlocks_apply₂₁, fromBlocks_apply₂₂]
  simp
  field_simp

end Verif.KernelMi
