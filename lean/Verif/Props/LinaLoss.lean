import Verif.Proofs.LinaLoss
import Mathlib.LinearAlgebra.Matrix.Notation
import Mathlib.Tactic.FinCases

/-!
C171, C172, C173: the objective which MDLiNA minimises for the links of the shared factors.
-/
set_option autoImplicit false
set_option linter.unusedSectionVars false
namespace Verif.Lina
open Matrix

variable {n q h : Nat}

/-! ### C171: the matrix returned with the loss is not its gradient -/

/-- **C171.** The part of the returned matrix that belongs to the reconstruction error of the factors is the gradient of that error. -/
theorem C171_reconstruction_partial (f : Matrix (Fin n) (Fin q) ℝ) (H : Matrix (Fin q) (Fin h) ℝ) (hd : (Hᵀ * H).det ≠ 0) :
    IsGradM (fun H => ((reconResid f H)ᵀ * reconResid f H).trace) (reconGrad f H) H := recon_isGrad f H hd

/-- **C171, violated.** In the first round (no adjacency matrix yet, `W0 = 0`), for centred factors: wherever the loss is defined
(full rank, no constant residual) and not at the jump of its trace term, the returned matrix is not the gradient of the loss. -/
theorem C171_not_gradient (hh : 0 < h) (f : Matrix (Fin n) (Fin q) ℝ) (hf : ∀ k, ∑ s, f s k = 0) (H : Matrix (Fin q) (Fin h) ℝ)
    (hd : (Hᵀ * H).det ≠ 0) (hstd : ∀ j, colStd (rawResid f 0 H) j ≠ 0) (ht : (Hᵀ * H).trace ≠ 10000) :
    ¬ IsGradM (laplaceValue f 0) (laplaceGrad f 0 H) H := by
  intro hg
  have h1 := (hg H).unique (laplaceValue_radial f 0 H hd ht)
  rw [laplaceGrad_radial f 0 H hd] at h1
  have := radial_pos hh hf H hstd
  linarith

/-- **C171.** For every adjacency matrix the loss does not change along `H` (below the jump): scaling `H` changes nothing. -/
theorem C171_scale_free (f : Matrix (Fin n) (Fin q) ℝ) (W : Matrix (Fin h) (Fin h) ℝ) (H : Matrix (Fin q) (Fin h) ℝ)
    (hd : (Hᵀ * H).det ≠ 0) (c : ℝ) (hc : 0 < c) (h1 : (Hᵀ * H).trace < 10000) (h2 : c ^ 2 * (Hᵀ * H).trace < 10000) :
    laplaceValue f W (c • H) = laplaceValue f W H := by
  have e1 := laplaceValue_smul f W H hd hc
  have e2 := laplaceValue_smul f W H hd one_pos
  rw [one_smul] at e2
  rw [e1, e2, if_pos h2, one_pow, one_mul, if_pos h1, sub_self, sub_self]

/-- Two samples of two factors, one shared factor. -/
def exF : Matrix (Fin 2) (Fin 2) ℝ := !![1, 1; -1, -1]
/-- The shared factor is the sum of the two. -/
def exH : Matrix (Fin 2) (Fin 1) ℝ := !![1; 1]

theorem exH_gram : exHᵀ * exH = !![2] := by
  ext i j
  fin_cases i; fin_cases j
  norm_num [exH, Matrix.mul_apply, Fin.sum_univ_two, Matrix.transpose_apply]

theorem exH_det : (exHᵀ * exH).det ≠ 0 := by
  rw [exH_gram]
  simp

theorem exH_inv : invHH exH = !![1 / 2] := by
  unfold invHH
  rw [exH_gram]
  apply Matrix.inv_eq_left_inv
  ext i j
  fin_cases i; fin_cases j
  norm_num [Matrix.mul_apply]

theorem ex_raw : rawResid exF 0 exH = !![1; -1] := by
  unfold rawResid
  rw [Matrix.mul_zero, sub_zero, exH_inv]
  ext i j
  fin_cases i <;> fin_cases j <;> norm_num [exF, exH, Matrix.mul_apply, Fin.sum_univ_two]

/-- The hypotheses of `C171_not_gradient` hold for these factors. -/
example : ¬ IsGradM (laplaceValue exF 0) (laplaceGrad exF 0 exH) exH := by
  refine C171_not_gradient one_pos exF (fun k => ?_) exH exH_det (fun j => ?_) ?_
  · fin_cases k <;> simp [exF, Fin.sum_univ_two]
  · rw [ex_raw]
    fin_cases j
    norm_num [colStd, colMean, Fin.sum_univ_two]
  · rw [exH_gram]
    norm_num [Matrix.trace]

example : IsGradM (fun H => ((reconResid exF H)ᵀ * reconResid exF H).trace) (reconGrad exF exH) exH :=
  C171_reconstruction_partial exF exH exH_det

example : laplaceValue exF 0 ((3 : ℝ) • exH) = laplaceValue exF 0 exH :=
  C171_scale_free exF 0 exH exH_det 3 (by norm_num) (by rw [exH_gram]; norm_num [Matrix.trace]) (by rw [exH_gram]; norm_num [Matrix.trace])

/-! ### C172: the penalised objective has no minimum -/

theorem log_cosh_nonneg (x : ℝ) : 0 ≤ Real.log (Real.cosh x) := Real.log_nonneg (Real.one_le_cosh x)

theorem trace_gram_nonneg {a b : Nat} (A : Matrix (Fin a) (Fin b) ℝ) : 0 ≤ (Aᵀ * A).trace := by
  simp only [Matrix.trace, Matrix.diag, Matrix.mul_apply, Matrix.transpose_apply]
  exact Finset.sum_nonneg fun i _ => Finset.sum_nonneg fun j _ => mul_self_nonneg _

/-- **C172.** Without penalty the objective is bounded below by zero. -/
theorem C172_no_penalty_partial (f : Matrix (Fin n) (Fin q) ℝ) (W : Matrix (Fin h) (Fin h) ℝ) (u v : Matrix (Fin q) (Fin h) ℝ) :
    0 ≤ hObjective 0 f W u v := by
  unfold hObjective laplaceValue
  rw [zero_mul, add_zero]
  refine add_nonneg (add_nonneg (Finset.sum_nonneg fun _ _ => Finset.sum_nonneg fun _ _ => log_cosh_nonneg _)
    (trace_gram_nonneg _)) ?_
  have := trace_gram_nonneg (adjH u v)
  split_ifs <;> linarith

/-- **C172.** With nonnegative halves, the penalty is at least the L1 norm of the links, and equals it for the positive and negative parts. -/
theorem C172_l1_partial (lambda1 : ℝ) (hl : 0 ≤ lambda1) (f : Matrix (Fin n) (Fin q) ℝ) (W : Matrix (Fin h) (Fin h) ℝ) :
    (∀ u v : Matrix (Fin q) (Fin h) ℝ, (∀ i j, 0 ≤ u i j) → (∀ i j, 0 ≤ v i j) →
      laplaceValue f W (u - v) + lambda1 * ∑ i, ∑ j, |(u - v) i j| ≤ hObjective lambda1 f W u v) ∧
    ∀ H : Matrix (Fin q) (Fin h) ℝ, hObjective lambda1 f W (Matrix.of fun i j => max (H i j) 0) (Matrix.of fun i j => max (-H i j) 0) =
      laplaceValue f W H + lambda1 * ∑ i, ∑ j, |H i j| := by
  constructor
  · intro u v hu hv
    unfold hObjective adjH
    refine add_le_add_right (mul_le_mul_of_nonneg_left ?_ hl) _
    rw [← Finset.sum_add_distrib]
    refine Finset.sum_le_sum fun i _ => ?_
    rw [← Finset.sum_add_distrib]
    refine Finset.sum_le_sum fun j _ => ?_
    rw [Matrix.sub_apply, abs_le]
    have := hu i j
    have := hv i j
    constructor <;> linarith
  · intro H
    have h1 : adjH (Matrix.of fun i j => max (H i j) 0) (Matrix.of fun i j => max (-H i j) 0) = H := by
      ext i j
      simp only [adjH, Matrix.sub_apply, Matrix.of_apply]
      rcases le_total (H i j) 0 with hx | hx
      · rw [max_eq_right hx, max_eq_left (by linarith)]; ring
      · rw [max_eq_left hx, max_eq_right (by linarith)]; ring
    unfold hObjective
    rw [h1, ← Finset.sum_add_distrib]
    congr 2
    refine Finset.sum_congr rfl fun i _ => ?_
    rw [← Finset.sum_add_distrib]
    refine Finset.sum_congr rfl fun j _ => ?_
    simp only [Matrix.of_apply]
    rcases le_total (H i j) 0 with hx | hx
    · rw [max_eq_right hx, max_eq_left (by linarith), abs_of_nonpos hx]; ring
    · rw [max_eq_left hx, max_eq_right (by linarith), abs_of_nonneg hx]; ring

/-- **C172, violated.** With a positive penalty (the default is 0.1), the objective given to the unconstrained optimiser is unbounded
below, and this with the links fixed to any matrix: the search has no best solution. -/
theorem C172_unbounded (hq : 0 < q) (hh : 0 < h) (lambda1 : ℝ) (hl : 0 < lambda1) (f : Matrix (Fin n) (Fin q) ℝ)
    (W : Matrix (Fin h) (Fin h) ℝ) (H : Matrix (Fin q) (Fin h) ℝ) (bound : ℝ) :
    ∃ u v : Matrix (Fin q) (Fin h) ℝ, u - v = H ∧ hObjective lambda1 f W u v < bound := by
  set c : ℝ := lambda1 * ∑ i, ∑ j, H i j with hc
  have hN : (0 : ℝ) < 2 * lambda1 * (q * h) := by positivity
  obtain ⟨x, hx⟩ : ∃ x : ℝ, laplaceValue f W H + c + 2 * lambda1 * (q * h) * x < bound := by
    refine ⟨(bound - 1 - laplaceValue f W H - c) / (2 * lambda1 * (q * h)), ?_⟩
    rw [mul_div_cancel₀ _ hN.ne']
    linarith
  refine ⟨Matrix.of fun i j => H i j + x, Matrix.of fun _ _ => x, ?_, ?_⟩
  · ext i j
    simp
  · have h1 : adjH (Matrix.of fun i j => H i j + x) (Matrix.of fun _ _ => x) = H := by
      ext i j
      simp [adjH]
    unfold hObjective
    rw [h1]
    have h2 : (∑ i : Fin q, ∑ j : Fin h, (Matrix.of fun i j => H i j + x) i j) = (∑ i, ∑ j, H i j) + q * h * x := by
      simp only [Matrix.of_apply, Finset.sum_add_distrib, Finset.sum_const, Finset.card_univ, Fintype.card_fin, nsmul_eq_mul]
      ring
    have h3 : (∑ _i : Fin q, ∑ _j : Fin h, (Matrix.of fun (_ : Fin q) (_ : Fin h) => x) _i _j) = q * h * x := by
      simp only [Matrix.of_apply, Finset.sum_const, Finset.card_univ, Fintype.card_fin, nsmul_eq_mul]
      ring
    rw [h2, h3]
    calc _ = laplaceValue f W H + c + 2 * lambda1 * (q * h) * x := by rw [hc]; ring
      _ < bound := hx

/-- **C172, violated.** The gradient given to the optimiser is nowhere small: for every link one of its two components is at least the
penalty in absolute value, so that a rule which waits for a small gradient never applies. -/
theorem C172_never_stationary (lambda1 : ℝ) (f : Matrix (Fin n) (Fin q) ℝ) (W : Matrix (Fin h) (Fin h) ℝ)
    (u v : Matrix (Fin q) (Fin h) ℝ) (i : Fin q) (j : Fin h) :
    lambda1 ≤ |(hObjectiveGrad lambda1 f W u v).1 i j| ∨ lambda1 ≤ |(hObjectiveGrad lambda1 f W u v).2 i j| := by
  simp only [hObjectiveGrad, Matrix.of_apply]
  rcases le_total 0 (laplaceGrad f W (adjH u v) i j) with hx | hx
  · exact Or.inl (le_trans (by linarith) (le_abs_self _))
  · exact Or.inr (le_trans (by linarith) (le_abs_self _))

example : ∃ u v, u - v = exH ∧ hObjective (1 / 10) exF 0 u v < -1000000 :=
  C172_unbounded two_pos one_pos (1 / 10) (by norm_num) exF 0 exH (-1000000)

/-! ### C173: loss types -/

/-- **C173.** With at least two shared factors and more factors than shared factors, every loss type other than "laplace" makes the first
evaluation of the objective raise, whatever the data, the start and the number of passes. -/
theorem C173_only_laplace (lossType : String) (hne : lossType ≠ "laplace") (hh : 2 ≤ h) (hq : h < q) (maxIter : Nat)
    (f : Matrix (Fin n) (Fin q) ℝ) (W : Matrix (Fin h) (Fin h) ℝ) (u v : Matrix (Fin q) (Fin h) ℝ) :
    ∃ e, firstEvaluation lossType maxIter f W u v = .error e := by
  unfold firstEvaluation hLoss
  split_ifs with h1 h2 h3 h4
  · exact ⟨_, rfl⟩
  · exact ⟨_, rfl⟩
  · omega
  · exact ⟨_, rfl⟩
  · exact ⟨_, rfl⟩

/-- **C173.** With one shared factor, "l2" returns a matrix of the wrong shape (as many columns as factors). -/
theorem C173_l2_one_factor (hq : 1 < q) (f : Matrix (Fin n) (Fin q) ℝ) (W : Matrix (Fin 1) (Fin 1) ℝ) (H : Matrix (Fin q) (Fin 1) ℝ)
    (hd : (Hᵀ * H).det ≠ 0) : ∃ o, hLoss "l2" f W H = .ok o ∧ o.cols = q ∧ o.cols ≠ 1 := by
  unfold hLoss
  rw [if_neg hd, if_pos rfl, if_pos (Or.inr (Or.inr rfl))]
  refine ⟨_, rfl, ?_, ?_⟩
  · simp only [l2Cols]
    rw [if_neg (by omega)]
  · simp only [l2Cols]
    rw [if_neg (by omega)]
    omega

/-- **C173.** "laplace" is evaluated wherever `H` has full column rank. -/
theorem C173_laplace (maxIter : Nat) (hm : 0 < maxIter) (f : Matrix (Fin n) (Fin q) ℝ) (W : Matrix (Fin h) (Fin h) ℝ)
    (u v : Matrix (Fin q) (Fin h) ℝ) (hd : ((u - v)ᵀ * (u - v)).det ≠ 0) :
    ∃ o, firstEvaluation "laplace" maxIter f W u v = .ok o ∧ o.value = laplaceValue f W (u - v) ∧ o.cols = h := by
  unfold firstEvaluation hLoss adjH
  rw [if_neg hm.ne', if_neg hd, if_neg (by decide), if_pos rfl]
  exact ⟨_, rfl, rfl, rfl⟩

/-- Three shared factors in two domains (the defaults) with "logistic". -/
example (f : Matrix (Fin 5) (Fin 6) ℝ) (u v : Matrix (Fin 6) (Fin 3) ℝ) : ∃ e, firstEvaluation "logistic" 100 f 0 u v = .error e :=
  C173_only_laplace "logistic" (by decide) (by norm_num) (by norm_num) 100 f 0 u v

example : ∃ o, hLoss "l2" exF 0 exH = .ok o ∧ o.cols = 2 ∧ o.cols ≠ 1 := C173_l2_one_factor (by norm_num) exF 0 exH exH_det

example : ∃ o, firstEvaluation "laplace" 100 exF 0 exH 0 = .ok o ∧ o.value = laplaceValue exF 0 (exH - 0) ∧ o.cols = 1 :=
  C173_laplace 100 (by norm_num) exF 0 exH 0 (by rw [sub_zero]; exact exH_det)

end Verif.Lina
