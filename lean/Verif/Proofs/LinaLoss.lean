import Verif.Model.LinaLoss
import Verif.Spec.Gradient
import Mathlib.Analysis.Calculus.Deriv.Mul
import Mathlib.Analysis.Calculus.Deriv.Add
import Mathlib.Analysis.Calculus.Deriv.Pi
import Mathlib.Analysis.Calculus.Deriv.Pow
import Mathlib.Analysis.Calculus.FDeriv.Mul
import Mathlib.Analysis.Matrix.Normed
import Mathlib.Analysis.SpecialFunctions.Trigonometric.DerivHyp

/-! Lemmas about the objective of MDLiNA's matrix `H`. -/
set_option autoImplicit false
set_option linter.unusedSectionVars false
namespace Verif.Lina
open Matrix

variable {n q h : Nat}

theorem sum_mul_eq_trace {a b : Nat} (A B : Matrix (Fin a) (Fin b) ℝ) : ∑ i, ∑ j, A i j * B i j = (Bᵀ * A).trace := by
  simp only [Matrix.trace, Matrix.diag, Matrix.mul_apply, Matrix.transpose_apply]
  rw [Finset.sum_comm]
  exact Finset.sum_congr rfl fun j _ => Finset.sum_congr rfl fun i _ => mul_comm _ _

theorem invHH_symm (H : Matrix (Fin q) (Fin h) ℝ) : (invHH H)ᵀ = invHH H := by
  unfold invHH
  rw [Matrix.transpose_nonsing_inv, Matrix.transpose_mul, Matrix.transpose_transpose]

theorem invHH_mul (H : Matrix (Fin q) (Fin h) ℝ) (hd : (Hᵀ * H).det ≠ 0) : invHH H * (Hᵀ * H) = 1 :=
  Matrix.nonsing_inv_mul _ (isUnit_iff_ne_zero.2 hd)

theorem mul_invHH (H : Matrix (Fin q) (Fin h) ℝ) (hd : (Hᵀ * H).det ≠ 0) : (Hᵀ * H) * invHH H = 1 :=
  Matrix.mul_nonsing_inv _ (isUnit_iff_ne_zero.2 hd)

theorem invHH_smul (H : Matrix (Fin q) (Fin h) ℝ) (hd : (Hᵀ * H).det ≠ 0) {c : ℝ} (hc : c ≠ 0) :
    invHH (c • H) = (c⁻¹ * c⁻¹) • invHH H := by
  unfold invHH
  apply Matrix.inv_eq_left_inv
  rw [Matrix.transpose_smul, Matrix.smul_mul, Matrix.mul_smul, Matrix.smul_mul, Matrix.mul_smul, Matrix.mul_smul,
    Matrix.nonsing_inv_mul _ (isUnit_iff_ne_zero.2 hd), smul_smul, smul_smul]
  have : c⁻¹ * c⁻¹ * (c * c) = 1 := by field_simp
  rw [← mul_assoc] at this
  rw [this, one_smul]

theorem rawResid_smul (f : Matrix (Fin n) (Fin q) ℝ) (W : Matrix (Fin h) (Fin h) ℝ) (H : Matrix (Fin q) (Fin h) ℝ)
    (hd : (Hᵀ * H).det ≠ 0) {c : ℝ} (hc : c ≠ 0) : rawResid f W (c • H) = c⁻¹ • rawResid f W H := by
  have h2 : f * (c • H) * invHH (c • H) = c⁻¹ • (f * H * invHH H) := by
    rw [invHH_smul H hd hc, Matrix.mul_smul, Matrix.mul_smul, Matrix.smul_mul, smul_smul]
    congr 1
    field_simp
  unfold rawResid
  rw [h2, Matrix.smul_mul, smul_sub]

theorem reconResid_smul (f : Matrix (Fin n) (Fin q) ℝ) (H : Matrix (Fin q) (Fin h) ℝ)
    (hd : (Hᵀ * H).det ≠ 0) {c : ℝ} (hc : c ≠ 0) : reconResid f (c • H) = reconResid f H := by
  have h2 : f * (c • H) * invHH (c • H) = c⁻¹ • (f * H * invHH H) := by
    rw [invHH_smul H hd hc, Matrix.mul_smul, Matrix.mul_smul, Matrix.smul_mul, smul_smul]
    congr 1
    field_simp
  unfold reconResid
  rw [h2, Matrix.transpose_smul, Matrix.smul_mul, Matrix.mul_smul, smul_smul, inv_mul_cancel₀ hc, one_smul]

theorem colMean_smul (A : Matrix (Fin n) (Fin h) ℝ) (c : ℝ) (j : Fin h) : colMean (c • A) j = c * colMean A j := by
  unfold colMean
  simp only [Matrix.smul_apply, smul_eq_mul]
  rw [← Finset.mul_sum, mul_div_assoc]

theorem colStd_smul (A : Matrix (Fin n) (Fin h) ℝ) {c : ℝ} (hc : 0 < c) (j : Fin h) : colStd (c • A) j = c * colStd A j := by
  unfold colStd
  rw [colMean_smul]
  have : (∑ s, ((c • A) s j - c * colMean A j) ^ 2) / (n : ℝ) = c ^ 2 * ((∑ s, (A s j - colMean A j) ^ 2) / n) := by
    rw [← mul_div_assoc, Finset.mul_sum]
    congr 1
    refine Finset.sum_congr rfl fun s _ => ?_
    simp only [Matrix.smul_apply, smul_eq_mul]
    ring
  rw [this, Real.sqrt_mul (sq_nonneg c), Real.sqrt_sq hc.le]

theorem standardise_smul (A : Matrix (Fin n) (Fin h) ℝ) {c : ℝ} (hc : 0 < c) : standardise (c • A) = standardise A := by
  ext s j
  simp only [standardise, Matrix.of_apply, colMean_smul, colStd_smul A hc, Matrix.smul_apply, smul_eq_mul]
  rw [← mul_sub, mul_div_mul_left _ _ hc.ne']

theorem trace_smul_smul (H : Matrix (Fin q) (Fin h) ℝ) (c : ℝ) : ((c • H)ᵀ * (c • H)).trace = c ^ 2 * (Hᵀ * H).trace := by
  rw [Matrix.transpose_smul, Matrix.smul_mul, Matrix.mul_smul, Matrix.trace_smul, Matrix.trace_smul, smul_eq_mul, smul_eq_mul]
  ring

/-- The value does not change when `H` is multiplied by a positive number, except through the trace term. -/
theorem laplaceValue_smul (f : Matrix (Fin n) (Fin q) ℝ) (W : Matrix (Fin h) (Fin h) ℝ) (H : Matrix (Fin q) (Fin h) ℝ)
    (hd : (Hᵀ * H).det ≠ 0) {c : ℝ} (hc : 0 < c) : laplaceValue f W (c • H) =
      (∑ s, ∑ j, Real.log (Real.cosh (standardise (rawResid f W H) s j))) + ((reconResid f H)ᵀ * reconResid f H).trace +
        (c ^ 2 * (Hᵀ * H).trace - if c ^ 2 * (Hᵀ * H).trace < 10000 then c ^ 2 * (Hᵀ * H).trace else 0) := by
  unfold laplaceValue
  rw [rawResid_smul f W H hd hc.ne', standardise_smul _ (inv_pos.2 hc), reconResid_smul f H hd hc.ne', trace_smul_smul]

/-- The derivative of the value along `H` itself. -/
theorem laplaceValue_radial (f : Matrix (Fin n) (Fin q) ℝ) (W : Matrix (Fin h) (Fin h) ℝ) (H : Matrix (Fin q) (Fin h) ℝ)
    (hd : (Hᵀ * H).det ≠ 0) (ht : (Hᵀ * H).trace ≠ 10000) :
    HasDerivAt (fun t : ℝ => laplaceValue f W (H + t • H)) (if (Hᵀ * H).trace < 10000 then 0 else 2 * (Hᵀ * H).trace) 0 := by
  have hl : ∀ t : ℝ, H + t • H = (1 + t) • H := fun t => by rw [add_smul, one_smul]
  have hcont : Filter.Tendsto (fun t : ℝ => (1 + t) ^ 2 * (Hᵀ * H).trace) (nhds 0) (nhds ((Hᵀ * H).trace)) := by
    have : Continuous (fun t : ℝ => (1 + t) ^ 2 * (Hᵀ * H).trace) := by fun_prop
    have h0 := this.tendsto 0
    simpa using h0
  have hpos : ∀ᶠ t : ℝ in nhds 0, 0 < 1 + t := by
    have : Continuous (fun t : ℝ => 1 + t) := by fun_prop
    exact this.tendsto 0 |>.eventually_const_lt (by norm_num)
  set A := (∑ s, ∑ j, Real.log (Real.cosh (standardise (rawResid f W H) s j))) + ((reconResid f H)ᵀ * reconResid f H).trace
    with hA
  split_ifs with hlt
  · have hev : (fun t : ℝ => laplaceValue f W (H + t • H)) =ᶠ[nhds 0] fun _ => A := by
      filter_upwards [hpos, hcont.eventually_lt_const hlt] with t h1 h2
      rw [hl, laplaceValue_smul f W H hd h1, if_pos h2, sub_self, add_zero]
    exact (hasDerivAt_const (0 : ℝ) A).congr_of_eventuallyEq hev
  · have hgt : 10000 < (Hᵀ * H).trace := lt_of_le_of_ne (not_lt.1 hlt) (Ne.symm ht)
    have hev : (fun t : ℝ => laplaceValue f W (H + t • H)) =ᶠ[nhds 0] fun t => A + (1 + t) ^ 2 * (Hᵀ * H).trace := by
      filter_upwards [hpos, hcont.eventually_const_lt hgt] with t h1 h2
      rw [hl, laplaceValue_smul f W H hd h1, if_neg (not_lt.2 h2.le), sub_zero]
    have h3 : HasDerivAt (fun t : ℝ => A + (1 + t) ^ 2 * (Hᵀ * H).trace) (2 * (Hᵀ * H).trace) 0 := by
      have := ((((hasDerivAt_id (0 : ℝ)).const_add 1).pow 2).mul_const ((Hᵀ * H).trace)).const_add A
      simpa using this
    exact h3.congr_of_eventuallyEq hev

theorem reconGrad_radial (f : Matrix (Fin n) (Fin q) ℝ) (H : Matrix (Fin q) (Fin h) ℝ) (hd : (Hᵀ * H).det ≠ 0) :
    (Hᵀ * reconGrad f H).trace = 0 := by
  unfold reconGrad
  rw [Matrix.mul_add, Matrix.mul_neg, Matrix.mul_smul, Matrix.mul_smul, Matrix.trace_add, Matrix.trace_neg, Matrix.trace_smul,
    Matrix.trace_smul]
  have h1 : Hᵀ * (H * invHH H * (f * H)ᵀ * (f * H) * invHH H) = Hᵀ * (fᵀ * (f * H) * invHH H) := by
    have : Hᵀ * (H * invHH H * (f * H)ᵀ * (f * H) * invHH H) = (Hᵀ * H * invHH H) * ((f * H)ᵀ * (f * H) * invHH H) := by
      simp only [Matrix.mul_assoc]
    rw [this, mul_invHH H hd, Matrix.one_mul, Matrix.transpose_mul]
    simp only [Matrix.mul_assoc]
  rw [h1]
  exact neg_add_cancel _

/-- What the returned matrix gives for the direction `H`. -/
theorem laplaceGrad_radial (f : Matrix (Fin n) (Fin q) ℝ) (W : Matrix (Fin h) (Fin h) ℝ) (H : Matrix (Fin q) (Fin h) ℝ)
    (hd : (Hᵀ * H).det ≠ 0) : ∑ i, ∑ j, laplaceGrad f W H i j * H i j =
      (∑ s, ∑ j, (f * H * invHH H * (1 - W)ᵀ : Matrix (Fin n) (Fin h) ℝ) s j * tanhR f W H s j) +
        if (Hᵀ * H).trace < 10000 then 0 else 2 * (Hᵀ * H).trace := by
  rw [sum_mul_eq_trace, sum_mul_eq_trace]
  set T := tanhR f W H with hT
  unfold laplaceGrad
  rw [← hT]
  rw [Matrix.mul_add, Matrix.mul_add, Matrix.mul_add, Matrix.mul_add, Matrix.trace_add, Matrix.trace_add, Matrix.trace_add,
    Matrix.trace_add, reconGrad_radial f H hd, add_zero]
  have h1 : (Hᵀ * (H * invHH H * invHH H * (f * H)ᵀ * T * (1 - W))).trace = (Hᵀ * (fᵀ * T * (1 - W) * invHH H)).trace := by
    have e1 : Hᵀ * (H * invHH H * invHH H * (f * H)ᵀ * T * (1 - W)) = (Hᵀ * H * invHH H) * (invHH H * ((f * H)ᵀ * T * (1 - W))) := by
      simp only [Matrix.mul_assoc]
    rw [e1, mul_invHH H hd, Matrix.one_mul, Matrix.trace_mul_comm, Matrix.transpose_mul]
    simp only [Matrix.mul_assoc]
  have h2 : (Hᵀ * (H * invHH H * invHH H * (1 - W)ᵀ * Tᵀ * (f * H))).trace = (Tᵀ * (f * H * invHH H * (1 - W)ᵀ)).trace := by
    have e1 : Hᵀ * (H * invHH H * invHH H * (1 - W)ᵀ * Tᵀ * (f * H)) = (Hᵀ * H * invHH H) * ((invHH H * (1 - W)ᵀ) * (Tᵀ * (f * H))) := by
      simp only [Matrix.mul_assoc]
    rw [e1, mul_invHH H hd, Matrix.one_mul, Matrix.trace_mul_comm]
    simp only [Matrix.mul_assoc]
  rw [h1, h2, Matrix.mul_neg, Matrix.trace_neg, neg_add_cancel, zero_add]
  congr 1
  split_ifs
  · simp
  · rw [Matrix.mul_smul, Matrix.trace_smul, smul_eq_mul]

theorem tanh_pos' {x : ℝ} (hx : 0 < x) : 0 < Real.tanh x := by
  rw [Real.tanh_eq_sinh_div_cosh]
  exact div_pos (Real.sinh_pos_iff.2 hx) (Real.cosh_pos x)

theorem tanh_neg' {x : ℝ} (hx : x < 0) : Real.tanh x < 0 := by
  rw [Real.tanh_eq_sinh_div_cosh]
  exact div_neg_of_neg_of_pos (Real.sinh_neg_iff.2 hx) (Real.cosh_pos x)

theorem mul_tanh_div_nonneg (x : ℝ) {s : ℝ} (hs : 0 < s) : 0 ≤ x * Real.tanh (x / s) := by
  rcases lt_trichotomy x 0 with hx | rfl | hx
  · have : Real.tanh (x / s) < 0 := tanh_neg' (div_neg_of_neg_of_pos hx hs)
    exact (mul_pos_of_neg_of_neg hx this).le
  · simp
  · exact (mul_pos hx (tanh_pos' (div_pos hx hs))).le

theorem mul_tanh_div_pos {x : ℝ} (hx : x ≠ 0) {s : ℝ} (hs : 0 < s) : 0 < x * Real.tanh (x / s) := by
  rcases lt_or_gt_of_ne hx with hx | hx
  · exact mul_pos_of_neg_of_neg hx (tanh_neg' (div_neg_of_neg_of_pos hx hs))
  · exact mul_pos hx (tanh_pos' (div_pos hx hs))

theorem centred_mul {f : Matrix (Fin n) (Fin q) ℝ} (hf : ∀ k, ∑ s, f s k = 0) (B : Matrix (Fin q) (Fin h) ℝ) (j : Fin h) :
    colMean (f * B) j = 0 := by
  unfold colMean
  have : ∑ s, (f * B) s j = 0 := by
    simp only [Matrix.mul_apply]
    rw [Finset.sum_comm]
    refine Finset.sum_eq_zero fun k _ => ?_
    rw [← Finset.sum_mul, hf k, zero_mul]
  rw [this, zero_div]

/-- With centred factors and no adjacency matrix yet, the returned matrix gives a positive slope along `H`. -/
theorem radial_pos (hh : 0 < h) {f : Matrix (Fin n) (Fin q) ℝ} (hf : ∀ k, ∑ s, f s k = 0) (H : Matrix (Fin q) (Fin h) ℝ)
    (hstd : ∀ j, colStd (rawResid f 0 H) j ≠ 0) :
    0 < ∑ s, ∑ j, (f * H * invHH H * (1 - (0 : Matrix (Fin h) (Fin h) ℝ))ᵀ : Matrix (Fin n) (Fin h) ℝ) s j * tanhR f 0 H s j := by
  have hR : f * H * invHH H * (1 - (0 : Matrix (Fin h) (Fin h) ℝ))ᵀ = rawResid f 0 H := by
    unfold rawResid
    rw [sub_zero, Matrix.transpose_one, Matrix.mul_one, Matrix.mul_zero, sub_zero]
  have hm : ∀ j, colMean (rawResid f 0 H) j = 0 := fun j => by
    have : rawResid f 0 H = f * (H * invHH H) := by
      unfold rawResid
      rw [Matrix.mul_zero, sub_zero, Matrix.mul_assoc]
    rw [this]
    exact centred_mul hf _ j
  rw [hR]
  set R := rawResid f 0 H with hRdef
  have hpos : ∀ j, 0 < colStd R j := fun j => lt_of_le_of_ne (Real.sqrt_nonneg _) (Ne.symm (hstd j))
  have hT : ∀ s j, tanhR f 0 H s j = Real.tanh (R s j / colStd R j) := fun s j => by
    unfold tanhR
    rw [Matrix.map_apply, ← hRdef]
    simp only [standardise, Matrix.of_apply, hm, sub_zero]
  simp only [hT]
  obtain ⟨s, hs⟩ : ∃ s, R s ⟨0, hh⟩ ≠ 0 := by
    by_contra hno
    push Not at hno
    apply hstd ⟨0, hh⟩
    unfold colStd
    rw [hm]
    simp [hno]
  refine Finset.sum_pos' (fun s _ => Finset.sum_nonneg fun j _ => mul_tanh_div_nonneg _ (hpos j)) ⟨s, Finset.mem_univ _, ?_⟩
  exact Finset.sum_pos' (fun j _ => mul_tanh_div_nonneg _ (hpos j)) ⟨⟨0, hh⟩, Finset.mem_univ _, mul_tanh_div_pos hs (hpos _)⟩

/-! ### The reconstruction error -/

section deriv
attribute [local instance] Matrix.linftyOpNormedRing Matrix.linftyOpNormedAlgebra

theorem inv_hasDerivAt (A : ℝ → Matrix (Fin h) (Fin h) ℝ) (A' : Matrix (Fin h) (Fin h) ℝ) (hA : HasDerivAt A A' 0)
    (hd : (A 0).det ≠ 0) : HasDerivAt (fun t => (A t)⁻¹) (-((A 0)⁻¹ * A' * (A 0)⁻¹)) 0 := by
  have hu : IsUnit (A 0) := (Matrix.isUnit_iff_isUnit_det _).2 (isUnit_iff_ne_zero.2 hd)
  obtain ⟨u, hu⟩ := hu
  have h1 := hasFDerivAt_ringInverse (𝕜 := ℝ) u
  rw [hu] at h1
  have h2 := h1.comp_hasDerivAt (0 : ℝ) hA
  have e : (fun t => (A t)⁻¹) = Ring.inverse ∘ A := by
    funext t
    simp [Matrix.nonsing_inv_eq_ringInverse]
  have e2 : ((u⁻¹ : (Matrix (Fin h) (Fin h) ℝ)ˣ) : Matrix (Fin h) (Fin h) ℝ) = (A 0)⁻¹ := by
    rw [← hu]; simp
  rw [e]
  refine h2.congr_deriv ?_
  simp [e2]

theorem quad_hasDerivAt (A B C : Matrix (Fin h) (Fin h) ℝ) : HasDerivAt (fun t : ℝ => A + t • B + (t * t) • C) B 0 := by
  have h1 : HasDerivAt (fun t : ℝ => A + t • B) B 0 := by
    have := ((hasDerivAt_id (0 : ℝ)).smul_const B).const_add A
    exact this.congr_deriv (one_smul ℝ B)
  have h2 : HasDerivAt (fun t : ℝ => (t * t) • C) 0 0 := by
    have := ((hasDerivAt_id (0 : ℝ)).mul (hasDerivAt_id (0 : ℝ))).smul_const C
    refine this.congr_deriv ?_
    simp
  exact (h1.add h2).congr_deriv (add_zero B)

theorem trace_hasDerivAt (A : ℝ → Matrix (Fin h) (Fin h) ℝ) (A' : Matrix (Fin h) (Fin h) ℝ) (hA : HasDerivAt A A' 0) :
    HasDerivAt (fun t => (A t).trace) A'.trace 0 := by
  have hL := (LinearMap.toContinuousLinearMap (Matrix.traceLinearMap (Fin h) ℝ ℝ)).hasFDerivAt (x := A 0)
  exact hL.comp_hasDerivAt (0 : ℝ) hA

theorem reconTrace (f : Matrix (Fin n) (Fin q) ℝ) (H : Matrix (Fin q) (Fin h) ℝ) (hd : (Hᵀ * H).det ≠ 0) :
    ((reconResid f H)ᵀ * reconResid f H).trace = (fᵀ * f).trace - (invHH H * (Hᵀ * (fᵀ * f) * H)).trace := by
  unfold reconResid
  rw [Matrix.transpose_sub, Matrix.sub_mul, Matrix.mul_sub, Matrix.mul_sub, Matrix.trace_sub, Matrix.trace_sub, Matrix.trace_sub]
  have e1 : (fᵀ * (f * H * invHH H * Hᵀ)).trace = (invHH H * (Hᵀ * (fᵀ * f) * H)).trace := by
    rw [show fᵀ * (f * H * invHH H * Hᵀ) = (fᵀ * f * H) * (invHH H * Hᵀ) by simp only [Matrix.mul_assoc], Matrix.trace_mul_comm]
    simp only [Matrix.mul_assoc]
  have e2 : ((f * H * invHH H * Hᵀ)ᵀ * f).trace = (invHH H * (Hᵀ * (fᵀ * f) * H)).trace := by
    rw [← Matrix.trace_transpose, Matrix.transpose_mul, Matrix.transpose_transpose, e1]
  have e3 : ((f * H * invHH H * Hᵀ)ᵀ * (f * H * invHH H * Hᵀ)).trace = (invHH H * (Hᵀ * (fᵀ * f) * H)).trace := by
    simp only [Matrix.transpose_mul, Matrix.transpose_transpose, invHH_symm]
    rw [show H * (invHH H * (Hᵀ * fᵀ)) * (f * H * invHH H * Hᵀ) = H * ((invHH H * (Hᵀ * (fᵀ * f) * H)) * (invHH H * Hᵀ)) by
      simp only [Matrix.mul_assoc], Matrix.trace_mul_comm,
      show invHH H * (Hᵀ * (fᵀ * f) * H) * (invHH H * Hᵀ) * H = invHH H * (Hᵀ * (fᵀ * f) * H) * (invHH H * (Hᵀ * H)) by
      simp only [Matrix.mul_assoc], invHH_mul H hd, Matrix.mul_one]
  rw [e1, e2, e3]
  ring

theorem recon_isGrad (f : Matrix (Fin n) (Fin q) ℝ) (H : Matrix (Fin q) (Fin h) ℝ) (hd : (Hᵀ * H).det ≠ 0) :
    IsGradM (fun H => ((reconResid f H)ᵀ * reconResid f H).trace) (reconGrad f H) H := by
  intro E
  set Q := fᵀ * f with hQ
  have hQs : Qᵀ = Q := by rw [hQ, Matrix.transpose_mul, Matrix.transpose_transpose]
  set S := fun t : ℝ => Hᵀ * Q * H + t • (Hᵀ * Q * E + Eᵀ * Q * H) + (t * t) • (Eᵀ * Q * E) with hS
  set A := fun t : ℝ => Hᵀ * H + t • (Hᵀ * E + Eᵀ * H) + (t * t) • (Eᵀ * E) with hA
  have eA : ∀ t : ℝ, (H + t • E)ᵀ * (H + t • E) = A t := fun t => by
    simp only [hA, Matrix.transpose_add, Matrix.transpose_smul, Matrix.add_mul, Matrix.mul_add, Matrix.smul_mul, Matrix.mul_smul,
      smul_add, smul_smul]
    abel
  have eS : ∀ t : ℝ, (H + t • E)ᵀ * Q * (H + t • E) = S t := fun t => by
    simp only [hS, Matrix.transpose_add, Matrix.transpose_smul, Matrix.add_mul, Matrix.mul_add, Matrix.smul_mul, Matrix.mul_smul,
      smul_add, smul_smul]
    abel
  have hA0 : A 0 = Hᵀ * H := by simp [hA]
  have hS0 : S 0 = Hᵀ * Q * H := by simp [hS]
  have dA : HasDerivAt A (Hᵀ * E + Eᵀ * H) 0 := quad_hasDerivAt _ _ _
  have dS : HasDerivAt S (Hᵀ * Q * E + Eᵀ * Q * H) 0 := quad_hasDerivAt _ _ _
  have dI := inv_hasDerivAt A _ dA (by rw [hA0]; exact hd)
  have dP := trace_hasDerivAt _ _ (dI.mul dS)
  have hcont : Continuous fun t => (A t).det := by
    have : Continuous A := by
      simp only [hA]
      fun_prop
    exact this.matrix_det
  have hev : ∀ᶠ t : ℝ in nhds 0, (A t).det ≠ 0 := hcont.continuousAt.eventually_ne (by rw [hA0]; exact hd)
  have hfun : (fun t : ℝ => ((reconResid f (H + t • E))ᵀ * reconResid f (H + t • E)).trace) =ᶠ[nhds 0]
      fun t => Q.trace - ((A t)⁻¹ * S t).trace := by
    filter_upwards [hev] with t ht
    rw [reconTrace f _ (by rw [eA]; exact ht), ← eS t, ← eA t]
    rfl
  refine ((dP.const_sub Q.trace).congr_of_eventuallyEq hfun).congr_deriv ?_
  rw [hA0, hS0, sum_mul_eq_trace]
  change -(-(invHH H * (Hᵀ * E + Eᵀ * H) * invHH H) * (Hᵀ * Q * H) + invHH H * (Hᵀ * Q * E + Eᵀ * Q * H)).trace = _
  have hI := invHH_symm H
  set I := invHH H with hIdef
  have c1 : (Eᵀ * reconGrad f H).trace = - (2 * (Eᵀ * (Q * H * I)).trace) + 2 * (Eᵀ * (H * I * (Hᵀ * Q * H) * I)).trace := by
    unfold reconGrad
    rw [← hIdef, Matrix.mul_add, Matrix.mul_neg, Matrix.mul_smul, Matrix.mul_smul, Matrix.trace_add, Matrix.trace_neg, Matrix.trace_smul,
      Matrix.trace_smul, smul_eq_mul, smul_eq_mul, hQ, Matrix.transpose_mul]
    simp only [Matrix.mul_assoc]
  have c2 : (I * (Hᵀ * Q * E)).trace = (Eᵀ * (Q * H * I)).trace := by
    rw [← Matrix.trace_transpose]
    simp only [Matrix.transpose_mul, Matrix.transpose_transpose, hI, hQs, Matrix.mul_assoc]
  have c3 : (I * (Eᵀ * Q * H)).trace = (Eᵀ * (Q * H * I)).trace := by
    rw [Matrix.trace_mul_comm]
    simp only [Matrix.mul_assoc]
  have c4 : (I * (Eᵀ * H) * I * (Hᵀ * Q * H)).trace = (Eᵀ * (H * I * (Hᵀ * Q * H) * I)).trace := by
    rw [show I * (Eᵀ * H) * I * (Hᵀ * Q * H) = I * (Eᵀ * H * I * (Hᵀ * Q * H)) by simp only [Matrix.mul_assoc], Matrix.trace_mul_comm]
    simp only [Matrix.mul_assoc]
  have c5 : (I * (Hᵀ * E) * I * (Hᵀ * Q * H)).trace = (Eᵀ * (H * I * (Hᵀ * Q * H) * I)).trace := by
    rw [← Matrix.trace_transpose]
    simp only [Matrix.transpose_mul, Matrix.transpose_transpose, hI, hQs]
    rw [show Hᵀ * (Q * H) * (I * (Eᵀ * H * I)) = (Hᵀ * (Q * H) * I) * (Eᵀ * (H * I)) by simp only [Matrix.mul_assoc],
      Matrix.trace_mul_comm]
    simp only [Matrix.mul_assoc]
  rw [c1, Matrix.trace_add, Matrix.mul_add, Matrix.mul_add, Matrix.trace_add, c2, c3, Matrix.neg_mul, Matrix.add_mul, Matrix.add_mul,
    Matrix.trace_neg, Matrix.trace_add, c4, c5]
  ring

end deriv

end Verif.Lina
