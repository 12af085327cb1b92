import Verif.Proofs.ConsistencyMatrix
import Mathlib.Probability.Moments.Variance
import Mathlib.MeasureTheory.Function.ConvergenceInMeasure

/-! Regressions on variables that have nothing to do with the target, used by `Props/Unrelated.lean`. -/
set_option linter.unusedSectionVars false
set_option autoImplicit false
namespace Verif.Consistency
open Finset MeasureTheory ProbabilityTheory Filter Topology

/-- A regression leaves the smallest sum of squares. -/
theorem least_rss {N : Nat} {cols : List (Fin N → ℝ)} {y : Fin N → ℝ} {b0 : ℝ} {w : Nat → ℝ} (h : SolvesRegression cols y b0 w) (c0 : ℝ)
    (u : Nat → ℝ) : ∑ r, unexplained cols y b0 w r ^ 2 ≤ ∑ r, unexplained cols y c0 u r ^ 2 := by
  have hz := Pairwise.sum_unexplained_mul cols h.1 h.2 (c0 - b0) (fun k => u k - w k)
  set f : Fin N → ℝ := fun r => c0 - b0 + ∑ k ∈ range cols.length, (u k - w k) * cols.getD k 0 r with hf
  have e : ∀ r, unexplained cols y c0 u r = unexplained cols y b0 w r - f r := by
    intro r
    rw [hf]
    unfold unexplained
    simp only [sub_mul, sum_sub_distrib]
    ring
  have e2 : ∑ r, unexplained cols y c0 u r ^ 2 = ∑ r, unexplained cols y b0 w r ^ 2 - 2 * ∑ r, unexplained cols y b0 w r * f r + ∑ r, f r ^ 2 := by
    rw [mul_sum, ← sum_sub_distrib, ← sum_add_distrib]
    exact sum_congr rfl fun r _ => by rw [e]; ring
  rw [e2, hz]
  have : 0 ≤ ∑ r, f r ^ 2 := sum_nonneg fun r _ => sq_nonneg _
  linarith

variable {Ω : Type*} [MeasurableSpace Ω] {P : Measure Ω} [IsProbabilityMeasure P] {R : Nat → Ω → Nat → ℝ} {n : Nat}

/-- Distance of the averages of the products of two entries from their expectations. -/
noncomputable def gap (n : Nat) (P : Measure Ω) (R : Nat → Ω → Nat → ℝ) (N : Nat) (ω : Ω) : ℝ :=
  ∑ k ∈ range (n + 1), ∑ l ∈ range (n + 1),
    |(∑ r : Fin N, ext n (R r ω) k * ext n (R r ω) l) / N - ∫ x, ext n (R 0 x) k * ext n (R 0 x) l ∂P|

theorem gap_measurable (hR : IidRows P R) (N : Nat) : Measurable (gap n P R N) := by
  have hext : ∀ (r k : Nat), Measurable (fun ω => ext n (R r ω) k) := by
    intro r k
    unfold ext
    split_ifs
    · exact (measurable_pi_apply k).comp (hR.measurable r)
    · exact measurable_const
  unfold gap
  refine Finset.measurable_sum _ fun k _ => Finset.measurable_sum _ fun l _ => ?_
  have h1 : Measurable (fun ω => ∑ r : Fin N, ext n (R r ω) k * ext n (R r ω) l) :=
    Finset.measurable_sum _ fun r _ => (hext r k).mul (hext r l)
  exact _root_.continuous_abs.measurable.comp ((h1.div_const _).sub_const _)

theorem gap_tendsto {ω : Ω} (hω : Good n P R ω) : Tendsto (fun N => gap n P R N ω) atTop (𝓝 0) := by
  unfold gap
  have e : (0 : ℝ) = ∑ k ∈ range (n + 1), ∑ l ∈ range (n + 1), |(∫ x, ext n (R 0 x) k * ext n (R 0 x) l ∂P) - ∫ x, ext n (R 0 x) k * ext n (R 0 x) l ∂P| := by
    simp
  rw [e]
  exact tendsto_finsetSum _ fun k _ => tendsto_finsetSum _ fun l _ => ((hω k l).sub tendsto_const_nhds).abs

/-- The averages are as close as wanted with probability tending to 1. -/
theorem gap_prob (hR : IidRows P R) (h2 : ∀ j, j < n → Integrable (fun ω => R 0 ω j ^ 2) P) {η : ℝ} (hη : 0 < η) :
    Tendsto (fun N => P {ω | η ≤ gap n P R N ω}) atTop (𝓝 0) := by
  have h := tendstoInMeasure_of_tendsto_ae (μ := P) (f := fun N => gap n P R N) (g := fun _ => (0 : ℝ))
    (fun N => (gap_measurable hR N).aestronglyMeasurable) (by
      filter_upwards [ae_good hR h2] with ω hω using gap_tendsto hω)
  rw [tendstoInMeasure_iff_dist] at h
  refine tendsto_of_tendsto_of_tendsto_of_le_of_le tendsto_const_nhds (h η hη) (fun _ => bot_le) fun N => measure_mono fun ω hω => ?_
  have hω : η ≤ gap n P R N ω := hω
  show η ≤ dist (gap n P R N ω) 0
  rw [Real.dist_eq, sub_zero]
  exact hω.trans (le_abs_self _)

/-- If the averages are close enough, the averages of the squares of the forms are bounded below. -/
theorem form_bound_gap (hR : IidRows P R) (hreg : Regular P n (fun j ω => R 0 ω j)) :
    ∃ c, 0 < c ∧ ∀ (N : Nat) (ω : Ω), gap n P R N ω < c → ∀ d : Nat → ℝ,
      c * size n d ^ 2 ≤ (∑ r : Fin N, form n d (R r ω) * form n d (R r ω)) / N := by
  have h2 := hreg.square
  obtain ⟨c, hc, h⟩ := form_bound hR hreg
  refine ⟨c / 2, by positivity, fun N ω hN d => ?_⟩
  have e : (∑ r : Fin N, form n d (R r ω) * form n d (R r ω)) / N = (∫ x, form n d (R 0 x) * form n d (R 0 x) ∂P) +
      ∑ k ∈ range (n + 1), ∑ l ∈ range (n + 1), d k * d l *
        ((∑ r : Fin N, ext n (R r ω) k * ext n (R r ω) l) / N - ∫ x, ext n (R 0 x) k * ext n (R 0 x) l ∂P) := by
    rw [integral_form_mul hR h2]
    simp only [form_mul]
    rw [sum_comm, sum_div, ← sum_add_distrib]
    refine sum_congr rfl fun k _ => ?_
    rw [sum_comm, sum_div, ← sum_add_distrib]
    refine sum_congr rfl fun l _ => ?_
    rw [← mul_sum, mul_div_assoc]; ring
  have hb : |∑ k ∈ range (n + 1), ∑ l ∈ range (n + 1), d k * d l *
        ((∑ r : Fin N, ext n (R r ω) k * ext n (R r ω) l) / N - ∫ x, ext n (R 0 x) k * ext n (R 0 x) l ∂P)| ≤ size n d ^ 2 * (c / 2) := by
    refine (abs_sum_le_sum_abs _ _).trans ?_
    refine le_trans ?_ (mul_le_mul_of_nonneg_left hN.le (sq_nonneg (size n d)))
    unfold gap
    rw [mul_sum]
    refine sum_le_sum fun k hk => (abs_sum_le_sum_abs _ _).trans ?_
    rw [mul_sum]
    refine sum_le_sum fun l hl => ?_
    rw [abs_mul, abs_mul, sq]
    refine mul_le_mul_of_nonneg_right ?_ (abs_nonneg _)
    exact mul_le_mul (le_size d (by have := mem_range.1 hk; omega)) (le_size d (by have := mem_range.1 hl; omega)) (abs_nonneg _) (size_nonneg n d)
  rw [e]
  have := h d
  have := (abs_le.1 hb).1
  nlinarith

/-- How much a regression on the variables in `S` explains of the target, bounded by the averages of the products of the target,
less a constant, with these variables. -/
theorem explained_le {N : Nat} (hN : N ≠ 0) {ω : Ω} {c : ℝ} (hc : 0 < c)
    (hq : ∀ d : Nat → ℝ, c * size n d ^ 2 ≤ (∑ r : Fin N, form n d (R r ω) * form n d (R r ω)) / N) {S : List Nat} (hnd : S.Nodup)
    (hlt : ∀ q ∈ S, q < n) (t : Nat) (μ γ : ℝ)
    (hγ : ∀ l, l ∈ S ∨ l = n → |(∑ r : Fin N, (R r ω t - μ) * ext n (R r ω) l) / N| ≤ γ) (hγ0 : 0 ≤ γ) (b0 : ℝ) (w : Nat → ℝ) :
    (∑ r : Fin N, (R r ω t - μ) ^ 2) - N * (((n + 1) * γ) ^ 2 / c) ≤
      ∑ r, unexplained (S.map (sampleOf R ω N)) (sampleOf R ω N t) b0 w r ^ 2 := by
  have hN' : (0 : ℝ) < N := by positivity
  simp only [unexplained_form hnd hlt]
  set d : Nat → ℝ := coefs n S (b0 - μ) w with hd
  have hform : ∀ r : Fin N, R r ω t - form n (coefs n S b0 w) (R r ω) = (R r ω t - μ) - form n d (R r ω) := by
    intro r
    rw [form_split, form_split, hd]
    have e : ∑ k ∈ range n, coefs n S b0 w k * R r ω k = ∑ k ∈ range n, coefs n S (b0 - μ) w k * R r ω k := by
      refine sum_congr rfl fun k hk => ?_
      have hk := mem_range.1 hk
      have hkn : k ≠ n := by omega
      unfold coefs
      simp only [hkn, if_false]
    rw [e]
    unfold coefs
    simp only [if_true]
    ring
  simp only [hform]
  have e2 : ∑ r : Fin N, (R r ω t - μ - form n d (R r ω)) ^ 2 = ∑ r : Fin N, (R r ω t - μ) ^ 2 -
      2 * ∑ r : Fin N, (R r ω t - μ) * form n d (R r ω) + ∑ r : Fin N, form n d (R r ω) * form n d (R r ω) := by
    rw [mul_sum, ← sum_sub_distrib, ← sum_add_distrib]
    exact sum_congr rfl fun r _ => by ring
  have e3 : (∑ r : Fin N, (R r ω t - μ) * form n d (R r ω)) / N =
      ∑ l ∈ range (n + 1), d l * ((∑ r : Fin N, (R r ω t - μ) * ext n (R r ω) l) / N) := by
    unfold form
    simp only [mul_sum]
    rw [sum_comm, sum_div]
    refine sum_congr rfl fun l _ => ?_
    rw [← mul_div_assoc, mul_sum]
    congr 1
    exact sum_congr rfl fun r _ => by ring
  have h1 : (∑ r : Fin N, (R r ω t - μ) * form n d (R r ω)) / N ≤ size n d * ((n + 1) * γ) := by
    rw [e3]
    have : size n d * ((n + 1) * γ) = ∑ _l ∈ range (n + 1), size n d * γ := by
      rw [sum_const, card_range, nsmul_eq_mul]; push_cast; ring
    rw [this]
    refine sum_le_sum fun l hl => ?_
    have hl := mem_range.1 hl
    by_cases hlS : l ∈ S ∨ l = n
    · refine (le_abs_self _).trans ?_
      rw [abs_mul]
      exact mul_le_mul (le_size d (by omega)) (hγ l hlS) (abs_nonneg _) (size_nonneg n d)
    · have h0 : d l = 0 := by
        rw [hd]
        unfold coefs
        rw [if_neg fun h => hlS (Or.inr h), if_neg fun h => hlS (Or.inl h)]
      rw [h0, zero_mul]
      exact mul_nonneg (size_nonneg n d) hγ0
  have h2 := hq d
  rw [div_le_iff₀ hN'] at h1
  rw [le_div_iff₀ hN'] at h2
  rw [e2]
  set g := (n + 1) * γ
  set s := size n d
  have h3 : 0 ≤ N * (c * s ^ 2 - 2 * s * g + g ^ 2 / c) := by
    refine mul_nonneg hN'.le ?_
    have : c * s ^ 2 - 2 * s * g + g ^ 2 / c = (c * s - g) ^ 2 / c := by field_simp; ring
    rw [this]; positivity
  nlinarith

/-- Chebyshev's inequality for the average of a function of the rows with expectation 0. -/
theorem average_prob (hR : IidRows P R) {g : (Nat → ℝ) → ℝ} (hg : Measurable g) (hL : MemLp (fun ω => g (R 0 ω)) 2 P)
    (h0 : ∫ ω, g (R 0 ω) ∂P = 0) {s : ℝ} (hs : 0 < s) {N : Nat} (hN : N ≠ 0) :
    P {ω | s ≤ |(∑ r : Fin N, g (R r ω)) / N|} ≤ ENNReal.ofReal (variance (fun ω => g (R 0 ω)) P / (N * s ^ 2)) := by
  have hN' : (0 : ℝ) < N := by positivity
  have hid : ∀ r, IdentDistrib (fun ω => g (R r ω)) (fun ω => g (R 0 ω)) P P := fun r => (hR.same r).comp hg
  have hLr : ∀ r, MemLp (fun ω => g (R r ω)) 2 P := fun r => (hid r).symm.memLp_iff.1 hL
  set Z : Fin N → Ω → ℝ := fun r ω => g (R r ω) with hZ
  have hsum : MemLp (∑ r, Z r) 2 P := memLp_finsetSum' _ fun r _ => hLr r
  have hmean : ∫ ω, (∑ r, Z r) ω ∂P = 0 := by
    simp only [Finset.sum_apply]
    have e : ∫ ω, ∑ r, Z r ω ∂P = ∑ r, ∫ ω, Z r ω ∂P := integral_finsetSum _ fun r _ => (hLr r).integrable (by norm_num)
    rw [e]
    refine sum_eq_zero fun r _ => ?_
    rw [hZ]
    exact ((hid r).integral_eq).trans h0
  have hvar : variance (∑ r, Z r) P = N * variance (fun ω => g (R 0 ω)) P := by
    have e : variance (∑ r, Z r) P = ∑ r, variance (Z r) P := IndepFun.variance_sum (fun r _ => hLr r)
      (fun r _ q _ hrq => (hR.indep r q fun h => hrq (Fin.ext h)).comp hg hg)
    rw [e]
    have : ∀ r ∈ (univ : Finset (Fin N)), variance (Z r) P = variance (fun ω => g (R 0 ω)) P := fun r _ => (hid r).variance_eq
    rw [sum_congr rfl this]
    simp
  have h := meas_ge_le_variance_div_sq hsum (c := N * s) (by positivity)
  rw [hvar, hmean] at h
  refine (measure_mono ?_).trans (h.trans (ENNReal.ofReal_le_ofReal (le_of_eq ?_)))
  · intro ω hω
    have hω : s ≤ |(∑ r : Fin N, g (R r ω)) / N| := hω
    show N * s ≤ |(∑ r, Z r) ω - 0|
    rw [sub_zero, Finset.sum_apply, mul_comm, ← le_div_iff₀ hN']
    rwa [abs_div, abs_of_pos hN'] at hω
  · field_simp

/-- The average of a function of the rows with expectation 0 is below any multiple of the square root of `log N / N` with probability
tending to 1. -/
theorem average_small (hR : IidRows P R) {g : (Nat → ℝ) → ℝ} (hg : Measurable g) (hL : MemLp (fun ω => g (R 0 ω)) 2 P)
    (h0 : ∫ ω, g (R 0 ω) ∂P = 0) {κ : ℝ} (hκ : 0 < κ) :
    Tendsto (fun N : Nat => P {ω | κ * √(Real.log N / N) ≤ |(∑ r : Fin N, g (R r ω)) / N|}) atTop (𝓝 0) := by
  have hlim : Tendsto (fun N : Nat => ENNReal.ofReal (variance (fun ω => g (R 0 ω)) P / (κ ^ 2 * Real.log N))) atTop (𝓝 0) := by
    rw [← ENNReal.ofReal_zero]
    refine (ENNReal.continuous_ofReal.tendsto 0).comp ?_
    exact tendsto_const_nhds.div_atTop ((Real.tendsto_log_atTop.comp tendsto_natCast_atTop_atTop).const_mul_atTop (by positivity))
  refine tendsto_of_tendsto_of_tendsto_of_le_of_le' tendsto_const_nhds hlim (Eventually.of_forall fun _ => bot_le) ?_
  filter_upwards [eventually_gt_atTop 1] with N hN
  have hN1 : (1 : ℝ) < N := by exact_mod_cast hN
  have hlog := Real.log_pos hN1
  have hpos : 0 < Real.log N / N := by positivity
  refine (average_prob hR hg hL h0 (mul_pos hκ (Real.sqrt_pos.2 hpos)) (by omega)).trans (ENNReal.ofReal_le_ofReal (le_of_eq ?_))
  rw [mul_pow, Real.sq_sqrt hpos.le]
  congr 1
  field_simp

end Verif.Consistency
