import Verif.Props.ConsistencyMatrix
import Mathlib.Analysis.SpecialFunctions.Trigonometric.Series

/-!
# A linear non-Gaussian model whose order DirectLiNGAM does not find on large samples (C257)
-/
set_option linter.unusedSectionVars false
set_option autoImplicit false
namespace Verif.Pairwise
open MeasureTheory ProbabilityTheory Filter Topology Consistency

/-! ### Numbers -/

theorem cosh_lower (u : ℝ) (m : Nat) : ∑ k ∈ Finset.range m, u ^ (2 * k) / ((2 * k).factorial : ℝ) ≤ Real.cosh u :=
  sum_le_hasSum _ (fun k _ => by rw [pow_mul]; positivity) (Real.hasSum_cosh u)

theorem sqrt_even {s : ℝ} (hs : 0 ≤ s) (k : Nat) : √s ^ (2 * k) = s ^ k := by rw [pow_mul, Real.sq_sqrt hs]

theorem cosh_sqrt_lower {s : ℝ} (hs : 0 ≤ s) : 1 + s / 2 + s ^ 2 / 24 + s ^ 3 / 720 + s ^ 4 / 40320 ≤ Real.cosh √s := by
  have h := cosh_lower √s 5
  simp only [sqrt_even hs, Finset.sum_range_succ, Finset.sum_range_zero] at h
  norm_num [Nat.factorial] at h
  linarith

theorem le_logcosh {u L : ℝ} (h : Real.exp L ≤ Real.cosh u) : L ≤ Real.log (Real.cosh u) :=
  (Real.le_log_iff_exp_le (Real.cosh_pos u)).2 h

theorem exp_upper {x : ℝ} (h1 : 0 ≤ x) (h2 : x ≤ 1) : Real.exp x ≤ 1 + x + x ^ 2 / 2 + x ^ 3 / 6 + x ^ 4 / 24 + x ^ 5 / 120 + x ^ 6 / 720 + x ^ 7 * 8 / (5040 * 7) := by
  have h := Real.exp_bound' h1 h2 (n := 7) (by norm_num)
  simp only [Finset.sum_range_succ, Finset.sum_range_zero] at h
  norm_num [Nat.factorial] at h
  linarith

theorem exp_lower {x : ℝ} (h1 : 0 ≤ x) : 1 + x + x ^ 2 / 2 + x ^ 3 / 6 + x ^ 4 / 24 + x ^ 5 / 120 + x ^ 6 / 720 ≤ Real.exp x := by
  have h := Real.sum_le_exp_of_nonneg h1 7
  simp only [Finset.sum_range_succ, Finset.sum_range_zero] at h
  norm_num [Nat.factorial] at h
  linarith

theorem log_one_two : (0.508 : ℝ) ≤ Real.log (Real.cosh √1.2) := by
  refine le_logcosh ((exp_upper (by norm_num) (by norm_num)).trans (le_trans ?_ (cosh_sqrt_lower (by norm_num))))
  norm_num

theorem log_four_eight : (1.509 : ℝ) ≤ Real.log (Real.cosh √4.8) := by
  refine le_logcosh (le_trans ?_ (cosh_sqrt_lower (by norm_num)))
  have h := exp_upper (x := 0.503) (by norm_num) (by norm_num)
  have e : Real.exp 1.509 = Real.exp 0.503 ^ 3 := by rw [← Real.exp_nat_mul]; norm_num
  rw [e]
  refine (pow_le_pow_left₀ (Real.exp_pos _).le h 3).trans ?_
  norm_num

theorem log_two_four_lower : (0.897 : ℝ) ≤ Real.log (Real.cosh √2.4) := by
  refine le_logcosh ((exp_upper (by norm_num) (by norm_num)).trans (le_trans ?_ (cosh_sqrt_lower (by norm_num))))
  norm_num

theorem log_two_four_upper : Real.log (Real.cosh √2.4) ≤ 0.901 := by
  refine (Real.log_le_iff_le_exp (Real.cosh_pos _)).2 (le_trans ?_ (exp_lower (by norm_num)))
  have h0 : √2.4 ≤ (1.5492 : ℝ) := by rw [Real.sqrt_le_left (by norm_num)]; norm_num
  have h1 : Real.cosh √2.4 ≤ Real.cosh 1.5492 := Real.cosh_le_cosh.2 (by
    rw [abs_of_nonneg (Real.sqrt_nonneg _), abs_of_nonneg (by norm_num)]; exact h0)
  have e : Real.exp 1.5492 = Real.exp 0.5164 ^ 3 := by rw [← Real.exp_nat_mul]; norm_num
  have h2 : Real.exp 1.5492 ≤ 4.7078 := by
    rw [e]
    refine (pow_le_pow_left₀ (Real.exp_pos _).le (exp_upper (by norm_num) (by norm_num)) 3).trans ?_
    norm_num
  have h3 : (4.7073 : ℝ) ≤ Real.exp 1.5492 := by
    rw [e]
    refine le_trans ?_ (pow_le_pow_left₀ (by norm_num) (exp_lower (x := 0.5164) (by norm_num)) 3)
    norm_num
  have h4 : Real.exp (-1.5492) ≤ 0.21244 := by
    rw [Real.exp_neg]
    refine (inv_anti₀ (by norm_num) h3).trans ?_
    norm_num
  rw [Real.cosh_eq 1.5492] at h1
  refine h1.trans ?_
  refine (div_le_div_of_nonneg_right (add_le_add h2 h4) (by norm_num)).trans ?_
  norm_num

/-! ### The data -/

/-- A disturbance with the values -1, 0 and 1, which occur 5, 14 and 5 times. -/
def threeN (i : Nat) : ℝ := if i < 5 then -1 else if i < 19 then 0 else 1

theorem sum_three (G : ℝ → ℝ) : ∑ i : Fin 24, G (threeN i) = 5 * G (-1) + 14 * G 0 + 5 * G 1 := by
  rw [Fin.sum_univ_eq_sum_range (fun i => G (threeN i)) 24]
  simp [Finset.sum_range_succ, threeN]
  ring

/-- The first disturbance in each row: all combinations occur. -/
def firstE (r : Fin (24 * 24)) : ℝ := threeN (finProdFinEquiv.symm r).1
/-- The second disturbance. -/
def secondE (r : Fin (24 * 24)) : ℝ := threeN (finProdFinEquiv.symm r).2

/-- The cause is the first disturbance; the effect adds the second one. -/
def threeX (j : Nat) (r : Fin (24 * 24)) : ℝ := if j = 0 then firstE r else firstE r + secondE r

theorem sum_both (F : ℝ → ℝ → ℝ) : ∑ r : Fin (24 * 24), F (firstE r) (secondE r) =
    5 * (5 * F (-1) (-1) + 14 * F (-1) 0 + 5 * F (-1) 1) + 14 * (5 * F 0 (-1) + 14 * F 0 0 + 5 * F 0 1) +
      5 * (5 * F 1 (-1) + 14 * F 1 0 + 5 * F 1 1) := by
  unfold firstE secondE
  rw [← finProdFinEquiv.sum_comp, Fintype.sum_prod_type]
  simp only [Equiv.symm_apply_apply, sum_three]
  rw [sum_three (fun x => 5 * F x (-1) + 14 * F x 0 + 5 * F x 1)]

theorem entropy_three (a b : ℝ) : approxEntropy (fun r => a * firstE r + b * secondE r) =
    (1 + Real.log (2 * Real.pi)) / 2 - 79.047 * ((50 * Real.log (Real.cosh (a + b)) + 50 * Real.log (Real.cosh (a - b)) +
      140 * Real.log (Real.cosh a) + 140 * Real.log (Real.cosh b)) / 576 - 0.37457) ^ 2 := by
  unfold approxEntropy
  rw [sum_both (fun x y => Real.log (Real.cosh (a * x + b * y))), sum_both (fun x y => (a * x + b * y) * Real.exp (-(a * x + b * y) ^ 2 / 2))]
  have c1 : Real.cosh (a * -1 + b * -1) = Real.cosh (a + b) := by rw [← Real.cosh_neg]; congr 1; ring
  have c2 : Real.cosh (a * -1 + b * 1) = Real.cosh (a - b) := by rw [← Real.cosh_neg]; congr 1; ring
  have c3 : Real.cosh (a * -1 + b * 0) = Real.cosh a := by rw [← Real.cosh_neg]; congr 1; ring
  have c4 : Real.cosh (a * 0 + b * -1) = Real.cosh b := by rw [← Real.cosh_neg]; congr 1; ring
  have c5 : Real.cosh (a * 1 + b * -1) = Real.cosh (a - b) := by congr 1; ring
  have e1 : (-(a * -1 + b * -1) ^ 2 / 2) = -(a * 1 + b * 1) ^ 2 / 2 := by ring
  have e2 : (-(a * -1 + b * 1) ^ 2 / 2) = -(a * 1 + b * -1) ^ 2 / 2 := by ring
  have e3 : (-(a * -1 + b * 0) ^ 2 / 2) = -(a * 1 + b * 0) ^ 2 / 2 := by ring
  have e4 : (-(a * 0 + b * -1) ^ 2 / 2) = -(a * 0 + b * 1) ^ 2 / 2 := by ring
  rw [c1, c2, c3, c4, c5, e1, e2, e3, e4]
  simp only [mul_zero, mul_one, add_zero, zero_add, Real.cosh_zero, Real.log_one]
  push_cast
  ring

theorem mean_three (a b : ℝ) : sampleMean (fun r => a * firstE r + b * secondE r) = 0 := by
  unfold sampleMean
  rw [sum_both (fun x y => a * x + b * y)]
  ring

theorem var_three (a b : ℝ) : (∑ r, (a * firstE r + b * secondE r) ^ 2) / ((24 * 24 : ℕ) : ℝ) = 5 / 12 * (a ^ 2 + b ^ 2) := by
  rw [sum_both (fun x y => (a * x + b * y) ^ 2)]
  push_cast
  ring

theorem z_three (a b : ℝ) : zscore (fun r => a * firstE r + b * secondE r) =
    fun r => (a * firstE r + b * secondE r) / √(5 / 12 * (a ^ 2 + b ^ 2)) := by
  funext r
  unfold zscore
  rw [mean_three]
  simp only [sub_zero]
  rw [var_three]

theorem threeX_zero : threeX 0 = fun r => 1 * firstE r + 0 * secondE r := by funext r; simp [threeX]
theorem threeX_one : threeX 1 = fun r => 1 * firstE r + 1 * secondE r := by funext r; simp [threeX]

theorem sqrt_inv_form {x y : ℝ} (hx : 0 < x) (h : x * y = 1) : 1 / √x = √y := by
  have hy : y = x⁻¹ := by field_simp; linarith
  rw [hy, Real.sqrt_inv, one_div]

theorem z_zero : zscore (threeX 0) = fun r => √2.4 * firstE r + 0 * secondE r := by
  rw [threeX_zero, z_three]
  funext r
  rw [show (1 * firstE r + 0 * secondE r) / √(5 / 12 * (1 ^ 2 + 0 ^ 2)) = 1 / √(5 / 12 * (1 ^ 2 + 0 ^ 2)) * firstE r by ring,
    sqrt_inv_form (y := 2.4) (by norm_num) (by norm_num)]
  ring

theorem z_one : zscore (threeX 1) = fun r => √1.2 * firstE r + √1.2 * secondE r := by
  rw [threeX_one, z_three]
  funext r
  rw [show (1 * firstE r + 1 * secondE r) / √(5 / 12 * (1 ^ 2 + 1 ^ 2)) = 1 / √(5 / 12 * (1 ^ 2 + 1 ^ 2)) * (firstE r + secondE r) by ring,
    sqrt_inv_form (y := 1.2) (by norm_num) (by norm_num)]
  ring

theorem sqrt_two_four : √2.4 = √2 * √1.2 := by rw [← Real.sqrt_mul (by norm_num)]; norm_num

theorem corr_three : correlation (threeX 0) (threeX 1) = √2 / 2 := by
  unfold correlation
  rw [z_zero, z_one]
  beta_reduce
  rw [sum_both (fun x y => (√2.4 * x + 0 * y) * (√1.2 * x + √1.2 * y)), sqrt_two_four]
  have h : √(1.2 : ℝ) * √1.2 = 1.2 := Real.mul_self_sqrt (by norm_num)
  push_cast
  linear_combination (√2 * 240 / 576) * h

theorem score_three : directionScore (√2 / 2) (zscore (threeX 0)) (zscore (threeX 1)) < 0 := by
  have h2 : √(2 : ℝ) * √2 = 2 := Real.mul_self_sqrt (by norm_num)
  have hs : √(1 - (√2 / 2) ^ 2 : ℝ) = √2 / 2 := by
    rw [show (1 - (√2 / 2) ^ 2 : ℝ) = (√2 / 2) ^ 2 by linear_combination (-1 / 2) * h2, Real.sqrt_sq (by positivity)]
  have hp : (0 : ℝ) < √2 := by positivity
  have r1 : (fun r => (zscore (threeX 0) r - √2 / 2 * zscore (threeX 1) r) / √(1 - (√2 / 2) ^ 2)) =
      fun r => √1.2 * firstE r + -√1.2 * secondE r := by
    funext r
    rw [hs, z_zero, z_one, sqrt_two_four]
    field_simp
    ring
  have r2 : (fun r => (zscore (threeX 1) r - √2 / 2 * zscore (threeX 0) r) / √(1 - (√2 / 2) ^ 2)) =
      fun r => 0 * firstE r + √2.4 * secondE r := by
    funext r
    rw [hs, z_zero, z_one, sqrt_two_four, div_eq_iff (by positivity)]
    linear_combination (-(√1.2 * firstE r) / 2 - (√1.2 * secondE r) / 2) * h2
  unfold directionScore
  rw [r1, r2, z_zero, z_one, entropy_three, entropy_three, entropy_three, entropy_three]
  have d : √(1.2 : ℝ) + √1.2 = √4.8 := by
    rw [show (4.8 : ℝ) = 2 ^ 2 * 1.2 by norm_num, Real.sqrt_mul (by norm_num), Real.sqrt_sq (by norm_num)]; ring
  simp only [Real.cosh_neg, add_zero, sub_zero, zero_add, zero_sub, sub_neg_eq_add, add_neg_cancel, sub_self, Real.cosh_zero, Real.log_one, mul_zero, d]
  have k1 := log_one_two
  have k2 := log_four_eight
  have k3 := log_two_four_lower
  have k4 := log_two_four_upper
  have a1 : (0.003 : ℝ) ≤ (50 * Real.log (Real.cosh √4.8) + 140 * Real.log (Real.cosh √1.2) + 140 * Real.log (Real.cosh √1.2)) / 576 - 0.37457 := by
    linarith
  have a2 : ((50 * Real.log (Real.cosh √2.4) + 50 * Real.log (Real.cosh √2.4) + 140 * Real.log (Real.cosh √2.4)) / 576 - 0.37457) ^ 2 ≤ 0.001 ^ 2 :=
    sq_le_sq' (by linarith) (by linarith)
  have a3 := pow_le_pow_left₀ (by norm_num) a1 2
  linarith

theorem three_identified : Identified 2 threeX := by
  intro b b0 h j hj
  have h0 := h (finProdFinEquiv (0, 0))
  have h1 := h (finProdFinEquiv (5, 0))
  have h2 := h (finProdFinEquiv (0, 5))
  simp [threeX, firstE, secondE, threeN, Finset.sum_range_succ] at h0 h1 h2
  have : j = 0 ∨ j = 1 := by omega
  rcases this with rfl | rfl <;> linarith

theorem three_order : PairwiseOrder (· < ·) threeX (List.range 2) [1, 0] := by
  have hr : List.range 2 = [0, 1] := rfl
  have r0 := corr_three
  have r1 : correlation (threeX 1) (threeX 0) = √2 / 2 := by
    rw [← corr_three]
    unfold correlation
    rw [Finset.sum_congr rfl fun r _ => mul_comm (zscore (threeX 1) r) (zscore (threeX 0) r)]
  rw [hr]
  refine .cons (X' := fun _ r => threeX 0 r - 1 / 2 * threeX 1 r) (by simp) (fun i hi hne => ?_) (fun i hi hne => ?_) ?_
  · have : i = 0 := by simpa [hne] using hi
    subst this
    have f1 : ([0, 1].filter (fun j => decide (j ≠ 1))) = [0] := by decide
    have f0 : ([0, 1].filter (fun j => decide (j ≠ 0))) = [1] := by decide
    have h0 := score_three
    unfold penalty
    rw [f1, f0]
    simp only [List.map_cons, List.map_nil, List.sum_cons, List.sum_nil, add_zero, r0, r1]
    rw [C143_antisymmetric (√2 / 2) (zscore (threeX 0)) (zscore (threeX 1)), min_eq_left (by linarith), min_eq_right (by linarith)]
    nlinarith
  · have : i = 0 := by simpa [hne] using hi
    subst this
    refine ⟨⟨_, fun r => rfl⟩, ?_⟩
    rw [threeX_one, mean_three, threeX_zero]
    beta_reduce
    rw [sum_both (fun x y => (1 * x + 0 * y - 1 / 2 * (1 * x + 1 * y)) * (1 * x + 1 * y - 0))]
    ring
  · have f1 : ([0, 1].filter (fun j => decide (j ≠ 1))) = [0] := by decide
    rw [f1]
    refine .cons (X' := fun _ _ => 0) (by simp) (fun i hi hne => ?_) (fun i hi hne => ?_) ?_
    · simp at hi; exact absurd hi hne
    · simp at hi; exact absurd hi hne
    · have : ([0].filter (fun j => decide (j ≠ 0))) = [] := by decide
      rw [this]
      exact .nil _

/-! ### The distribution -/

theorem integral_drawn_at {M : Nat} [NeZero M] (f : Fin M → ℝ) (r : Nat) : ∫ ω, f (ω r) ∂(draws M) = (∑ i, f i) / M := by
  rw [← integral_drawn f]
  have h := (drawn_iid (fun _ => f)).same r
  have := (h.comp (u := fun v : Nat → ℝ => v 0) (measurable_pi_apply 0)).integral_eq
  exact this

/-- Probability that one disturbance lies in `s`. -/
noncomputable def threeLaw (s : Set ℝ) : ℝ := (5 * s.indicator 1 (-1) + 14 * s.indicator 1 0 + 5 * s.indicator 1 1) / 24

theorem law_three (r : Nat) (s t : Set ℝ) :
    (draws (24 * 24)).real {ω | firstE (ω r) ∈ s ∧ secondE (ω r) ∈ t} = threeLaw s * threeLaw t := by
  have hm : MeasurableSet {ω : Nat → Fin (24 * 24) | firstE (ω r) ∈ s ∧ secondE (ω r) ∈ t} :=
    (measurable_pi_apply (X := fun _ : Nat => Fin (24 * 24)) r) (Set.toFinite {i : Fin (24 * 24) | firstE i ∈ s ∧ secondE i ∈ t}).measurableSet
  rw [← integral_indicator_one hm]
  have e : ∀ ω : Nat → Fin (24 * 24), ({ω : Nat → Fin (24 * 24) | firstE (ω r) ∈ s ∧ secondE (ω r) ∈ t}.indicator 1 ω : ℝ) =
      (fun i => s.indicator 1 (firstE i) * t.indicator 1 (secondE i)) (ω r) := by
    intro ω
    by_cases h1 : firstE (ω r) ∈ s <;> by_cases h2 : secondE (ω r) ∈ t <;> simp [Set.indicator, h1, h2]
  simp only [e]
  rw [integral_drawn_at (fun i => (s.indicator 1 (firstE i) * t.indicator 1 (secondE i) : ℝ)) r,
    sum_both (fun x y => s.indicator 1 x * t.indicator 1 y)]
  unfold threeLaw
  push_cast
  ring

theorem law_univ : threeLaw Set.univ = 1 := by
  simp [threeLaw]; norm_num

theorem law_first (r : Nat) (s : Set ℝ) : (draws (24 * 24)).real {ω | firstE (ω r) ∈ s} = threeLaw s := by
  have := law_three r s Set.univ
  simpa [law_univ] using this

theorem law_second (r : Nat) (s : Set ℝ) : (draws (24 * 24)).real {ω | secondE (ω r) ∈ s} = threeLaw s := by
  have := law_three r Set.univ s
  simpa [law_univ] using this

theorem measurable_draw (f : Fin (24 * 24) → ℝ) (r : Nat) : Measurable (fun ω : Nat → Fin (24 * 24) => f (ω r)) :=
  (measurable_of_countable f).comp (measurable_pi_apply r)

theorem three_indep (r : Nat) : IndepFun (fun ω => firstE (ω r)) (fun ω => secondE (ω r)) (draws (24 * 24)) := by
  rw [indepFun_iff_measure_inter_preimage_eq_mul]
  intro s t _ _
  rw [← ENNReal.toReal_eq_toReal_iff' (measure_ne_top _ _) (ENNReal.mul_ne_top (measure_ne_top _ _) (measure_ne_top _ _)), ENNReal.toReal_mul]
  have h1 := law_three r s t
  have h2 := law_first r s
  have h3 := law_second r t
  unfold Measure.real at h1 h2 h3
  exact h1.trans (by rw [← h2, ← h3]; rfl)

theorem three_same (r : Nat) : IdentDistrib (fun ω => firstE (ω r)) (fun ω => secondE (ω r)) (draws (24 * 24)) (draws (24 * 24)) where
  aemeasurable_fst := (measurable_draw _ r).aemeasurable
  aemeasurable_snd := (measurable_draw _ r).aemeasurable
  map_eq := by
    ext s hs
    rw [Measure.map_apply (measurable_draw _ r) hs, Measure.map_apply (measurable_draw _ r) hs,
      ← ENNReal.toReal_eq_toReal_iff' (measure_ne_top _ _) (measure_ne_top _ _)]
    exact (law_first r s).trans (law_second r s).symm

theorem firstE_values (i : Fin (24 * 24)) : firstE i = -1 ∨ firstE i = 0 ∨ firstE i = 1 := by
  unfold firstE threeN
  split_ifs <;> simp

/-- Wrong matrix: the cause is regressed on the effect. -/
noncomputable def threeMatrix (i j : Nat) : ℝ := if i = 0 ∧ j = 1 then 1 / 2 else 0

/-- What the regression of the cause on the effect leaves, and the effect. -/
noncomputable def threeNoise (j : Nat) (i : Fin (24 * 24)) : ℝ := if j = 0 then threeX 0 i - 1 / 2 * threeX 1 i else threeX 1 i

theorem cov_three (a b c d : ℝ) : covOf (draws (24 * 24)) (fun ω => a * firstE (ω 0) + b * secondE (ω 0))
    (fun ω => c * firstE (ω 0) + d * secondE (ω 0)) = 5 / 12 * (a * c + b * d) := by
  rw [cov_drawn (fun i => a * firstE i + b * secondE i) (fun i => c * firstE i + d * secondE i), mean_three, mean_three]
  simp only [sub_zero]
  rw [sum_both (fun x y => (a * x + b * y) * (c * x + d * y))]
  push_cast
  ring

theorem three_model : LinearModel (draws (24 * 24)) (fun j ω => drawn threeX 0 ω j) [1, 0] threeMatrix (fun j ω => threeNoise j (ω 0)) where
  eq pre t post ho ω := by
    match pre, ho with
    | [], ho =>
      have ht : t = 1 := by simpa using (List.cons.inj ho).1.symm
      subst ht
      simp [drawn, threeNoise]
    | [a], ho =>
      simp only [List.cons_append, List.nil_append, List.cons.injEq] at ho
      obtain ⟨rfl, rfl, -⟩ := ho
      simp [drawn, threeNoise, threeMatrix]
    | a :: b :: l, ho =>
      have := congrArg List.length ho
      simp at this
  zero i j h := by
    unfold threeMatrix
    refine if_neg fun hij => h ⟨[1], [], ?_, ?_⟩
    · rw [hij.1]; rfl
    · rw [hij.2]; simp
  uncorrelated s hs t ht hst := by
    have n0 : (fun ω : Nat → Fin (24 * 24) => threeNoise 0 (ω 0)) = fun ω => 1 / 2 * firstE (ω 0) + -(1 / 2) * secondE (ω 0) := by
      funext ω; simp [threeNoise, threeX]; ring
    have n1 : (fun ω : Nat → Fin (24 * 24) => threeNoise 1 (ω 0)) = fun ω => 1 * firstE (ω 0) + 1 * secondE (ω 0) := by
      funext ω; simp [threeNoise, threeX]
    simp only [List.mem_cons, List.not_mem_nil, or_false] at hs ht
    rcases hs with rfl | rfl <;> rcases ht with rfl | rfl
    · exact absurd rfl hst
    · rw [n0, n1, cov_three]; ring
    · rw [n0, n1, cov_three]; ring
    · exact absurd rfl hst

/-- C257: rows in which the first variable is one disturbance and the second adds another one. The disturbances are independent,
have the same distribution and take three values, so they are not Gaussian. Almost surely DirectLiNGAM finds the wrong order
on all samples from some size on; its matrix claims an effect near 1/2 of the second variable on the first and none back. -/
theorem C257_wrong_direction : ∃ (Ω : Type) (_ : MeasurableSpace Ω) (P : Measure Ω) (_ : IsProbabilityMeasure P) (e0 e1 : Nat → Ω → ℝ),
    IidRows P (fun r ω j => if j = 0 then e0 r ω else e0 r ω + e1 r ω) ∧ (∀ r, IndepFun (e0 r) (e1 r) P) ∧
    (∀ r, IdentDistrib (e0 r) (e1 r) P P) ∧ (∀ r ω, e0 r ω = -1 ∨ e0 r ω = 0 ∨ e0 r ω = 1) ∧
    (∀ r, P.real {ω | e0 r ω = -1} = 5 / 24 ∧ P.real {ω | e0 r ω = 0} = 14 / 24 ∧ P.real {ω | e0 r ω = 1} = 5 / 24) ∧
    ∀ cfg : Direct.Config, cfg.pk = none →
      ∀ᵐ ω ∂P, ∀ (lin : ∀ N, Lin N) (lars : ∀ N, Lars N), (∀ N, RightRegression (lin N)) → (∀ N, RightPath (lars N)) → ∀ δ, 0 < δ →
        ∀ᶠ N in atTop, ∃ B, fitLasso cfg (lin N) (lars N) 2
            (sampleOf (fun r ω j => if j = 0 then e0 r ω else e0 r ω + e1 r ω) ω N) = .ok ([1, 0], B) ∧
          |B 0 1 - 1 / 2| < δ ∧ |B 1 0| < δ := by
  refine ⟨Nat → Fin (24 * 24), inferInstance, draws (24 * 24), inferInstance, fun r ω => firstE (ω r), fun r ω => secondE (ω r),
    drawn_iid threeX, three_indep, three_same, fun r ω => firstE_values (ω r), fun r => ?_, fun cfg hpk => ?_⟩
  · have h := fun s => law_first r s
    refine ⟨(h {-1}).trans ?_, (h {0}).trans ?_, (h {1}).trans ?_⟩ <;> simp [threeLaw, Set.indicator] <;> norm_num
  · have h := C256_recovers hpk (drawn_iid threeX) (drawn_regular three_identified)
      (order_drawn three_order List.nodup_range (indep_range three_identified)) three_model
    filter_upwards [h] with ω hω lin lars hlin hlars δ hδ
    filter_upwards [hω lin lars hlin hlars δ hδ] with N ⟨B', h1, h2⟩
    have a := (h2 0 1 (by norm_num) (by norm_num)).1
    have b := (h2 1 0 (by norm_num) (by norm_num)).1
    have e : threeMatrix 0 1 = 1 / 2 := by simp [threeMatrix]
    have e' : threeMatrix 1 0 = 0 := by simp [threeMatrix]
    rw [e] at a
    rw [e', sub_zero] at b
    exact ⟨B', h1, a, b⟩

/-- C257: already on the 576 rows in which every combination of the disturbances occurs as often as its probability says. -/
theorem C257_data {cfg : Direct.Config} (hpk : cfg.pk = none) : ∃ X e : Nat → Fin 576 → ℝ, (∀ r, X 0 r = e 0 r) ∧ (∀ r, X 1 r = X 0 r + e 1 r) ∧
    (∀ F G : ℝ → ℝ, (∑ r, F (e 0 r) * G (e 1 r)) / 576 = (∑ r, F (e 0 r)) / 576 * ((∑ r, G (e 1 r)) / 576)) ∧
    Identified 2 X ∧ fitOrder cfg 2 X = .ok [1, 0] := by
  refine ⟨threeX, fun j => if j = 0 then firstE else secondE, fun r => ?_, fun r => ?_, fun F G => ?_, three_identified,
    (C254_resampled hpk three_identified three_order).1⟩
  · simp [threeX]
  · simp [threeX]
  · simp only [if_true, if_neg (one_ne_zero (α := Nat))]
    rw [sum_both (fun x y => F x * G y), sum_both (fun x _ => F x), sum_both (fun _ y => G y)]
    ring

end Verif.Pairwise
