import Verif.Spec.Consistency
import Mathlib.Probability.StrongLaw
import Mathlib.Analysis.SpecialFunctions.Trigonometric.Deriv
import Mathlib.Analysis.Calculus.MeanValue
import Mathlib.LinearAlgebra.Matrix.ToLinearEquiv
import Mathlib.Topology.Instances.Matrix

/-! Averages over the rows of ever larger samples, used by `Props/Consistency.lean`. -/
set_option linter.unusedSectionVars false
set_option autoImplicit false
namespace Verif.Consistency
open Finset MeasureTheory ProbabilityTheory Filter Topology

/-! ### The two functions of the entropy -/

noncomputable def logcosh (u : ℝ) : ℝ := Real.log (Real.cosh u)
noncomputable def bump (u : ℝ) : ℝ := u * Real.exp (-u ^ 2 / 2)

theorem cosh_le (u v : ℝ) : Real.cosh u ≤ Real.exp |u - v| * Real.cosh v := by
  rw [Real.cosh_eq, Real.cosh_eq]
  have h1 : Real.exp u ≤ Real.exp |u - v| * Real.exp v := by
    rw [← Real.exp_add]; exact Real.exp_le_exp.2 (by linarith [le_abs_self (u - v)])
  have h2 : Real.exp (-u) ≤ Real.exp |u - v| * Real.exp (-v) := by
    rw [← Real.exp_add]; exact Real.exp_le_exp.2 (by linarith [neg_abs_le (u - v)])
  linarith

theorem logcosh_sub (u v : ℝ) : logcosh u - logcosh v ≤ |u - v| := by
  have h := Real.log_le_log (Real.cosh_pos u) (cosh_le u v)
  rw [Real.log_mul (Real.exp_pos _).ne' (Real.cosh_pos v).ne', Real.log_exp] at h
  unfold logcosh
  linarith

theorem logcosh_lip (u v : ℝ) : |logcosh u - logcosh v| ≤ |u - v| := by
  rw [abs_le]
  refine ⟨?_, logcosh_sub u v⟩
  have := logcosh_sub v u
  rw [abs_sub_comm] at this
  linarith

theorem bump_deriv (u : ℝ) : HasDerivAt bump ((1 - u ^ 2) * Real.exp (-u ^ 2 / 2)) u := by
  have h1 : HasDerivAt (fun u : ℝ => -u ^ 2 / 2) (-u) u := by
    have := ((hasDerivAt_pow 2 u).neg).div_const 2
    exact this.congr_deriv (by push_cast; ring)
  exact ((hasDerivAt_id u).mul h1.exp).congr_deriv (by simp only [id_eq]; ring)

theorem bump_bound (u : ℝ) : |(1 - u ^ 2) * Real.exp (-u ^ 2 / 2)| ≤ 1 := by
  rw [abs_mul, abs_of_pos (Real.exp_pos _), neg_div, Real.exp_neg, ← div_eq_mul_inv, div_le_one (Real.exp_pos _)]
  have h := Real.quadratic_le_exp_of_nonneg (x := u ^ 2 / 2) (by positivity)
  rw [abs_le]
  constructor <;> nlinarith [sq_nonneg (u ^ 2 / 2 - 1), sq_nonneg u]

theorem bump_lip (u v : ℝ) : |bump u - bump v| ≤ |u - v| := by
  have h := Convex.norm_image_sub_le_of_norm_hasDerivWithin_le (f := bump) (s := Set.univ) (C := 1) (x := v) (y := u)
    (fun x _ => (bump_deriv x).hasDerivWithinAt) (fun x _ => by rw [Real.norm_eq_abs]; exact bump_bound x) convex_univ
    (Set.mem_univ _) (Set.mem_univ _)
  simpa [Real.norm_eq_abs] using h

/-! ### Linear forms of a row and the constant -/

/-- Entry of a row extended by the constant 1. -/
def ext (n : Nat) (v : Nat → ℝ) (k : Nat) : ℝ := if k < n then v k else 1

/-- Linear form of a row extended by the constant. -/
noncomputable def form (n : Nat) (a : Nat → ℝ) (v : Nat → ℝ) : ℝ := ∑ k ∈ range (n + 1), a k * ext n v k

/-- The form that is 1. -/
def unit (n : Nat) (k : Nat) : ℝ := if k = n then 1 else 0

theorem form_unit (n : Nat) (v : Nat → ℝ) : form n (unit n) v = 1 := by
  unfold form unit
  rw [sum_eq_single n]
  · simp [ext]
  · intro k _ h; simp [h]
  · simp

theorem form_single {n j : Nat} (hj : j < n) (v : Nat → ℝ) : form n (fun k => if k = j then 1 else 0) v = v j := by
  unfold form
  rw [sum_eq_single j]
  · simp [ext, hj]
  · intro k _ h; simp [h]
  · intro h; exact absurd (mem_range.2 (by omega)) h

theorem form_add (n : Nat) (a b : Nat → ℝ) (s t : ℝ) (v : Nat → ℝ) :
    form n (fun k => s * a k + t * b k) v = s * form n a v + t * form n b v := by
  unfold form
  rw [mul_sum, mul_sum, ← sum_add_distrib]
  exact sum_congr rfl fun k _ => by ring

theorem form_split (n : Nat) (a v : Nat → ℝ) : form n a v = a n + ∑ k ∈ range n, a k * v k := by
  unfold form
  rw [sum_range_succ, add_comm]
  congr 1
  · simp [ext]
  · exact sum_congr rfl fun k hk => by rw [ext, if_pos (mem_range.1 hk)]

theorem form_mul (n : Nat) (a b v : Nat → ℝ) :
    form n a v * form n b v = ∑ k ∈ range (n + 1), ∑ l ∈ range (n + 1), a k * b l * (ext n v k * ext n v l) := by
  unfold form
  rw [sum_mul_sum]
  exact sum_congr rfl fun k _ => sum_congr rfl fun l _ => by ring

theorem form_measurable (n : Nat) (a : Nat → ℝ) : Measurable (form n a) := by
  unfold form
  refine Finset.measurable_sum _ fun k _ => ?_
  unfold ext
  split_ifs
  · exact (measurable_pi_apply k).const_mul _
  · exact measurable_const

variable {Ω : Type*} [MeasurableSpace Ω] {P : Measure Ω} [IsProbabilityMeasure P] {R : Nat → Ω → Nat → ℝ} {n : Nat}

/-- The averages of `g` over the rows tend to its expectation. -/
def Averages (P : Measure Ω) (R : Nat → Ω → Nat → ℝ) (ω : Ω) (g : (Nat → ℝ) → ℝ) : Prop :=
  Tendsto (fun N : Nat => (∑ r : Fin N, g (R r ω)) / N) atTop (𝓝 (∫ x, g (R 0 x) ∂P))

theorem ae_averages (hR : IidRows P R) {g : (Nat → ℝ) → ℝ} (hg : Measurable g) (hi : Integrable (fun ω => g (R 0 ω)) P) :
    ∀ᵐ ω ∂P, Averages P R ω g := by
  have h := strong_law_ae_real (μ := P) (fun r ω => g (R r ω)) hi (fun r s hrs => (hR.indep r s hrs).comp hg hg)
    (fun r => (hR.same r).comp hg)
  filter_upwards [h] with ω hω
  unfold Averages
  refine hω.congr fun N => ?_
  rw [Finset.sum_range]

/-- Square integrable coordinates. -/
theorem ext_sq (hR : IidRows P R) (h2 : ∀ j, j < n → Integrable (fun ω => R 0 ω j ^ 2) P) (k : Nat) :
    MemLp (fun ω => ext n (R 0 ω) k) 2 P := by
  unfold ext
  by_cases hk : k < n
  · simp only [hk, if_true]
    exact (memLp_two_iff_integrable_sq (((measurable_pi_apply k).comp (hR.measurable 0)).aestronglyMeasurable)).2 (h2 k hk)
  · simp only [hk, if_false]
    exact memLp_const 1

theorem form_sq (hR : IidRows P R) (h2 : ∀ j, j < n → Integrable (fun ω => R 0 ω j ^ 2) P) (a : Nat → ℝ) :
    MemLp (fun ω => form n a (R 0 ω)) 2 P := by
  unfold form
  exact memLp_finsetSum _ fun k _ => (ext_sq hR h2 k).const_mul (a k)

theorem form_int (hR : IidRows P R) (h2 : ∀ j, j < n → Integrable (fun ω => R 0 ω j ^ 2) P) (a : Nat → ℝ) :
    Integrable (fun ω => form n a (R 0 ω)) P := (form_sq hR h2 a).integrable (by norm_num)

theorem prod_int (hR : IidRows P R) (h2 : ∀ j, j < n → Integrable (fun ω => R 0 ω j ^ 2) P) (k l : Nat) :
    Integrable (fun ω => ext n (R 0 ω) k * ext n (R 0 ω) l) P := (ext_sq hR h2 k).integrable_mul (ext_sq hR h2 l)

theorem form_prod_int (hR : IidRows P R) (h2 : ∀ j, j < n → Integrable (fun ω => R 0 ω j ^ 2) P) (a b : Nat → ℝ) :
    Integrable (fun ω => form n a (R 0 ω) * form n b (R 0 ω)) P := (form_sq hR h2 a).integrable_mul (form_sq hR h2 b)

theorem integral_form_mul (hR : IidRows P R) (h2 : ∀ j, j < n → Integrable (fun ω => R 0 ω j ^ 2) P) (a b : Nat → ℝ) :
    ∫ ω, form n a (R 0 ω) * form n b (R 0 ω) ∂P =
      ∑ k ∈ range (n + 1), ∑ l ∈ range (n + 1), a k * b l * ∫ ω, ext n (R 0 ω) k * ext n (R 0 ω) l ∂P := by
  simp only [form_mul]
  rw [integral_finsetSum _ fun k _ => integrable_finsetSum _ fun l _ => (prod_int hR h2 k l).const_mul _]
  refine sum_congr rfl fun k _ => ?_
  rw [integral_finsetSum _ fun l _ => (prod_int hR h2 k l).const_mul _]
  exact sum_congr rfl fun l _ => integral_const_mul _ _

/-- All averages of products of two entries converge. -/
def Good (n : Nat) (P : Measure Ω) (R : Nat → Ω → Nat → ℝ) (ω : Ω) : Prop :=
  ∀ k l, Averages P R ω (fun v => ext n v k * ext n v l)

theorem ext_measurable (n k : Nat) : Measurable (fun v : Nat → ℝ => ext n v k) := by
  unfold ext
  split_ifs
  · exact measurable_pi_apply k
  · exact measurable_const

theorem ae_good (hR : IidRows P R) (h2 : ∀ j, j < n → Integrable (fun ω => R 0 ω j ^ 2) P) : ∀ᵐ ω ∂P, Good n P R ω :=
  ae_all_iff.2 fun k => ae_all_iff.2 fun l =>
    ae_averages hR ((ext_measurable n k).mul (ext_measurable n l)) (prod_int hR h2 k l)

/-- Coefficients that converge. -/
def Conv (n : Nat) (aN : Nat → Nat → ℝ) (a : Nat → ℝ) : Prop := ∀ k, k ≤ n → Tendsto (fun N => aN N k) atTop (𝓝 (a k))

/-- Averages of products of forms whose coefficients converge. -/
theorem form_mul_tendsto (hR : IidRows P R) (h2 : ∀ j, j < n → Integrable (fun ω => R 0 ω j ^ 2) P) {ω : Ω} (hω : Good n P R ω)
    {aN bN : Nat → Nat → ℝ} {a b : Nat → ℝ} (ha : Conv n aN a) (hb : Conv n bN b) :
    Tendsto (fun N : Nat => (∑ r : Fin N, form n (aN N) (R r ω) * form n (bN N) (R r ω)) / N) atTop
      (𝓝 (∫ x, form n a (R 0 x) * form n b (R 0 x) ∂P)) := by
  rw [integral_form_mul hR h2]
  have h : ∀ N : Nat, (∑ r : Fin N, form n (aN N) (R r ω) * form n (bN N) (R r ω)) / N =
      ∑ k ∈ range (n + 1), ∑ l ∈ range (n + 1), aN N k * bN N l * ((∑ r : Fin N, ext n (R r ω) k * ext n (R r ω) l) / N) := by
    intro N
    simp only [form_mul]
    rw [sum_comm, sum_div]
    refine sum_congr rfl fun k _ => ?_
    rw [sum_comm, sum_div]
    refine sum_congr rfl fun l _ => ?_
    rw [← mul_sum, mul_div_assoc]
  simp only [h]
  refine tendsto_finsetSum _ fun k hk => tendsto_finsetSum _ fun l hl => ?_
  exact ((ha k (by have := mem_range.1 hk; omega)).mul (hb l (by have := mem_range.1 hl; omega))).mul (hω k l)

theorem conv_const (n : Nat) (a : Nat → ℝ) : Conv n (fun _ => a) a := fun _ _ => tendsto_const_nhds

theorem form_tendsto (hR : IidRows P R) (h2 : ∀ j, j < n → Integrable (fun ω => R 0 ω j ^ 2) P) {ω : Ω} (hω : Good n P R ω)
    {aN : Nat → Nat → ℝ} {a : Nat → ℝ} (ha : Conv n aN a) :
    Tendsto (fun N : Nat => (∑ r : Fin N, form n (aN N) (R r ω)) / N) atTop (𝓝 (∫ x, form n a (R 0 x) ∂P)) := by
  have h := form_mul_tendsto hR h2 hω ha (conv_const n (unit n))
  simpa only [form_unit, mul_one] using h

/-- Averages of a Lipschitz function of a form whose coefficients converge. -/
theorem lip_tendsto {f : ℝ → ℝ} (hf : ∀ u v, |f u - f v| ≤ |u - v|) {ω : Ω} (hω : Good n P R ω) {aN : Nat → Nat → ℝ} {a : Nat → ℝ}
    (ha : Conv n aN a) (hav : Averages P R ω (fun v => f (form n a v))) :
    Tendsto (fun N : Nat => (∑ r : Fin N, f (form n (aN N) (R r ω))) / N) atTop (𝓝 (∫ x, f (form n a (R 0 x)) ∂P)) := by
  have hb : Tendsto (fun N : Nat => ∑ k ∈ range (n + 1), |aN N k - a k| *
      ((∑ r : Fin N, ext n (R r ω) n * ext n (R r ω) n) / N + (∑ r : Fin N, ext n (R r ω) k * ext n (R r ω) k) / N)) atTop (𝓝 0) := by
    have : (0 : ℝ) = ∑ k ∈ range (n + 1), |a k - a k| * ((∫ x, ext n (R 0 x) n * ext n (R 0 x) n ∂P) + ∫ x, ext n (R 0 x) k * ext n (R 0 x) k ∂P) := by
      simp
    rw [this]
    refine tendsto_finsetSum _ fun k hk => ?_
    exact ((ha k (by have := mem_range.1 hk; omega)).sub tendsto_const_nhds).abs.mul ((hω n n).add (hω k k))
  have hd : Tendsto (fun N : Nat => (∑ r : Fin N, f (form n (aN N) (R r ω))) / N - (∑ r : Fin N, f (form n a (R r ω))) / N) atTop (𝓝 0) := by
    refine squeeze_zero_norm (fun N => ?_) hb
    rw [Real.norm_eq_abs, ← sub_div, ← sum_sub_distrib, abs_div, Nat.abs_cast]
    have h1 : |∑ r : Fin N, (f (form n (aN N) (R r ω)) - f (form n a (R r ω)))| ≤
        ∑ r : Fin N, ∑ k ∈ range (n + 1), |aN N k - a k| * (ext n (R r ω) n * ext n (R r ω) n + ext n (R r ω) k * ext n (R r ω) k) := by
      refine (abs_sum_le_sum_abs _ _).trans (sum_le_sum fun r _ => (hf _ _).trans ?_)
      unfold form
      rw [← sum_sub_distrib]
      refine (abs_sum_le_sum_abs _ _).trans (sum_le_sum fun k _ => ?_)
      rw [← sub_mul, abs_mul]
      refine mul_le_mul_of_nonneg_left ?_ (abs_nonneg _)
      have : ext n (R r ω) n = 1 := by simp [ext]
      rw [this, abs_le]
      constructor <;> nlinarith [sq_nonneg (ext n (R r ω) k - 1), sq_nonneg (ext n (R r ω) k + 1)]
    refine (div_le_div_of_nonneg_right h1 (Nat.cast_nonneg N)).trans_eq ?_
    rw [sum_comm, sum_div]
    refine sum_congr rfl fun k _ => ?_
    rw [← mul_sum, mul_div_assoc, sum_add_distrib, add_div]
  have := hd.add hav
  simpa using this

theorem lip_int (hR : IidRows P R) (h2 : ∀ j, j < n → Integrable (fun ω => R 0 ω j ^ 2) P) {f : ℝ → ℝ} (hf : ∀ u v, |f u - f v| ≤ |u - v|)
    (h0 : f 0 = 0) (hm : Measurable f) (a : Nat → ℝ) : Integrable (fun ω => f (form n a (R 0 ω))) P := by
  refine (form_int hR h2 a).mono ((hm.comp ((form_measurable n a).comp (hR.measurable 0))).aestronglyMeasurable) ?_
  refine Eventually.of_forall fun ω => ?_
  have := hf (form n a (R 0 ω)) 0
  simpa [h0, Real.norm_eq_abs] using this

theorem lip_measurable {f : ℝ → ℝ} (hf : ∀ u v, |f u - f v| ≤ |u - v|) : Measurable f := by
  refine (LipschitzWith.of_dist_le_mul (K := 1) fun u v => ?_).continuous.measurable
  simpa [Real.dist_eq] using hf u v

/-- What is needed about the averages of the functions in the entropy of a form. -/
def Fine (n : Nat) (P : Measure Ω) (R : Nat → Ω → Nat → ℝ) (ω : Ω) (a : Nat → ℝ) : Prop :=
  Averages P R ω (fun v => logcosh (form n a v)) ∧ Averages P R ω (fun v => bump (form n a v))

theorem ae_fine (hR : IidRows P R) (h2 : ∀ j, j < n → Integrable (fun ω => R 0 ω j ^ 2) P) (a : Nat → ℝ) : ∀ᵐ ω ∂P, Fine n P R ω a := by
  have m1 := lip_measurable logcosh_lip
  have m2 := lip_measurable bump_lip
  filter_upwards [ae_averages hR (m1.comp (form_measurable n a)) (lip_int hR h2 logcosh_lip (by simp [logcosh]) m1 a),
    ae_averages hR (m2.comp (form_measurable n a)) (lip_int hR h2 bump_lip (by simp [bump]) m2 a)] with ω h1 h3
  exact ⟨h1, h3⟩

theorem entropy_tendsto {ω : Ω} (hω : Good n P R ω) {aN : Nat → Nat → ℝ} {a : Nat → ℝ} (ha : Conv n aN a) (hf : Fine n P R ω a) :
    Tendsto (fun N : Nat => approxEntropy (fun r : Fin N => form n (aN N) (R r ω))) atTop (𝓝 (entropyOf P (fun x => form n a (R 0 x)))) := by
  have h1 := lip_tendsto logcosh_lip hω ha hf.1
  have h2 := lip_tendsto bump_lip hω ha hf.2
  unfold approxEntropy entropyOf
  exact (tendsto_const_nhds.sub (((h1.sub_const _).pow 2).const_mul _)).sub ((h2.pow 2).const_mul _)

end Verif.Consistency
