import Verif.Proofs.ConsistencyOrder
import Mathlib.Probability.Independence.InfinitePi
import Mathlib.Probability.ProbabilityMassFunction.Integrals
import Mathlib.Probability.Distributions.Uniform

/-!
# The order of DirectLiNGAM on ever larger samples (C254)
-/
set_option linter.unusedSectionVars false
set_option autoImplicit false
namespace Verif.Pairwise
open MeasureTheory ProbabilityTheory Filter Topology Consistency

variable {Ω : Type*} [MeasurableSpace Ω] {P : Measure Ω} [IsProbabilityMeasure P] {R : Nat → Ω → Nat → ℝ} {n : Nat}

theorem free_of_regular (hreg : Regular P n (fun j ω => R 0 ω j)) : Free P (List.range n) (fun j ω => R 0 ω j) := by
  intro b b0 hb j hj
  exact hreg.free b b0 hb j (List.mem_range.1 hj)

theorem pairwise_congr {N : Nat} {S : ℝ → ℝ → Prop} {x x' : Nat → Fin N → ℝ} {U l : List Nat} (h : PairwiseOrder S x U l)
    (hx : ∀ j ∈ U, x j = x' j) : PairwiseOrder S x' U l := by
  have hp : ∀ i ∈ U, penalty x U i = penalty x' U i := fun i hi => by
    unfold penalty
    congr 1
    refine List.map_congr_left fun j hj => ?_
    rw [hx i hi, hx j (List.mem_filter.1 hj).1]
  cases h with
  | nil => exact .nil _
  | cons hm best res rest =>
    exact .cons hm (fun i hi hne => hp _ hm ▸ hp i hi ▸ best i hi hne)
      (fun i hi hne => hx i hi ▸ hx _ hm ▸ res i hi hne) rest

/-- Almost surely the columns of all large samples are independent and strictly ordered as the distribution is. -/
theorem large_samples (hR : IidRows P R) (hreg : Regular P n (fun j ω => R 0 ω j)) {o : List Nat}
    (ho : PopulationOrder P (fun j ω => R 0 ω j) (List.range n) o) :
    ∀ᵐ ω ∂P, ∀ᶠ N in atTop, Identified n (sampleOf R ω N) ∧ PairwiseOrder (· < ·) (sampleOf R ω N) (List.range n) o := by
  filter_upwards [ae_good hR hreg.square, sample_order hR hreg.square ho (fun j k => if k = j then 1 else 0)
    (fun j hj => funext fun ω => (form_single (List.mem_range.1 hj) (R 0 ω)).symm) List.nodup_range (free_of_regular hreg)] with ω hω h
  filter_upwards [sample_identified hR hreg hω, h (fun _ j k => if k = j then 1 else 0) (fun j _ => conv_const n _)] with N h1 h2
  refine ⟨h1, pairwise_congr h2 fun j hj => funext fun r => ?_⟩
  exact form_single (List.mem_range.1 hj) (R r ω)

/-- C254: for independent rows from one distribution, `fit` almost surely finds the order that the distribution determines, on
all samples from some size on. -/
theorem C254_order {cfg : Direct.Config} (hpk : cfg.pk = none) (hR : IidRows P R) (hreg : Regular P n (fun j ω => R 0 ω j)) {o : List Nat}
    (ho : PopulationOrder P (fun j ω => R 0 ω j) (List.range n) o) :
    ∀ᵐ ω ∂P, ∀ᶠ N in atTop, fitOrder cfg n (sampleOf R ω N) = .ok o := by
  filter_upwards [large_samples hR hreg ho] with ω hω
  filter_upwards [hω] with N hN
  obtain ⟨_, _, _, h⟩ := C142_columns_partial hpk (π := id) (by simp) hN.1 hN.2
  exact h

/-! ### Rows drawn from a data set -/

/-- Infinitely many independent draws of a row number below `M`, all equally likely. -/
noncomputable def draws (M : Nat) [NeZero M] : Measure (Nat → Fin M) :=
  Measure.infinitePi (fun _ => (PMF.uniformOfFintype (Fin M)).toMeasure)

instance (M : Nat) [NeZero M] : IsProbabilityMeasure (draws M) := by unfold draws; infer_instance

/-- The rows of a data set in the order in which they are drawn. -/
def drawn {M : Nat} (X : Nat → Fin M → ℝ) : Nat → (Nat → Fin M) → Nat → ℝ := fun r ω j => X j (ω r)

variable {M : Nat} [NeZero M]

theorem drawn_iid (X : Nat → Fin M → ℝ) : IidRows (draws M) (drawn X) where
  measurable r := by
    refine measurable_pi_lambda _ fun j => ?_
    exact (measurable_of_countable (X j)).comp (measurable_pi_apply r)
  indep r s hrs := (iIndepFun_infinitePi (X := fun _ (i : Fin M) (j : Nat) => X j i)
    (fun _ => measurable_of_countable _)).indepFun hrs
  same r := by
    have hm : ∀ r : Nat, Measurable (drawn X r) := fun r => by
      refine measurable_pi_lambda _ fun j => ?_
      exact (measurable_of_countable (X j)).comp (measurable_pi_apply r)
    refine ⟨(hm r).aemeasurable, (hm 0).aemeasurable, ?_⟩
    have h : ∀ r : Nat, (draws M).map (drawn X r) = ((PMF.uniformOfFintype (Fin M)).toMeasure).map (fun i j => X j i) := by
      intro r
      have e : drawn X r = (fun (i : Fin M) (j : Nat) => X j i) ∘ Function.eval r := rfl
      have e2 : Measurable (Function.eval r : (Nat → Fin M) → Fin M) := measurable_pi_apply r
      rw [e, ← Measure.map_map (measurable_of_countable _) e2, draws, Measure.infinitePi_map_eval]
    rw [h r, h 0]

theorem integral_drawn (f : Fin M → ℝ) : ∫ ω, f (ω 0) ∂(draws M) = (∑ i, f i) / M := by
  have h := (measurePreserving_eval_infinitePi (fun _ : Nat => (PMF.uniformOfFintype (Fin M)).toMeasure) 0)
  have e := integral_map (μ := draws M) (φ := Function.eval 0) (f := f) (measurable_pi_apply 0).aemeasurable
    (measurable_of_countable f).aestronglyMeasurable
  have h' : (draws M).map (Function.eval 0) = (PMF.uniformOfFintype (Fin M)).toMeasure := h.map_eq
  rw [h', PMF.integral_eq_sum] at e
  have e2 : ∫ ω, f (ω 0) ∂(draws M) = ∫ ω, f (Function.eval 0 ω) ∂(draws M) := rfl
  rw [e2, ← e, Finset.sum_div]
  refine Finset.sum_congr rfl fun i _ => ?_
  simp [PMF.uniformOfFintype_apply, div_eq_inv_mul]

theorem ae_drawn {p : Fin M → Prop} (h : ∀ᵐ ω ∂(draws M), p (ω 0)) (i : Fin M) : p i := by
  classical
  by_contra hi
  have h0 : ∫ ω, (if p (ω 0) then (0 : ℝ) else 1) ∂(draws M) = 0 := by
    rw [integral_congr_ae (g := fun _ => (0 : ℝ))]
    · simp
    · filter_upwards [h] with ω hω
      simp [hω]
  rw [integral_drawn (fun i => if p i then (0 : ℝ) else 1)] at h0
  have hM : (M : ℝ) ≠ 0 := Nat.cast_ne_zero.2 (NeZero.ne M)
  have h1 : ∑ i : Fin M, (if p i then (0 : ℝ) else 1) = 0 := by
    rcases div_eq_zero_iff.1 h0 with h | h
    · exact h
    · exact absurd h hM
  have := (Finset.sum_eq_zero_iff_of_nonneg (fun i _ => by split_ifs <;> norm_num)).1 h1 i (Finset.mem_univ i)
  simp [hi] at this

theorem drawn_regular {X : Nat → Fin M → ℝ} (hid : Identified n X) : Regular (draws M) n (fun j ω => drawn X 0 ω j) where
  square j _ := by
    refine Integrable.of_bound (C := ∑ i, X j i ^ 2) ?_ (Eventually.of_forall fun ω => ?_)
    · exact ((measurable_of_countable (fun i => X j i ^ 2)).comp (measurable_pi_apply 0)).aestronglyMeasurable
    · rw [Real.norm_of_nonneg (sq_nonneg _)]
      exact Finset.single_le_sum (f := fun i => X j i ^ 2) (fun i _ => sq_nonneg _) (Finset.mem_univ (ω 0))
  free b b0 h j hj := hid b b0 (fun r => ae_drawn (p := fun r => b0 + ∑ j ∈ Finset.range n, b j * X j r = 0) h r) j hj

theorem mean_drawn (x : Fin M → ℝ) : meanOf (draws M) (fun ω => x (ω 0)) = sampleMean x := integral_drawn x

theorem cov_drawn (x y : Fin M → ℝ) : covOf (draws M) (fun ω => x (ω 0)) (fun ω => y (ω 0)) =
    (∑ r, (x r - sampleMean x) * (y r - sampleMean y)) / M := by
  unfold covOf
  rw [mean_drawn, mean_drawn]
  exact integral_drawn (fun i => (x i - sampleMean x) * (y i - sampleMean y))

theorem z_drawn (x : Fin M → ℝ) : zOf (draws M) (fun ω => x (ω 0)) = fun ω => zscore x (ω 0) := by
  funext ω
  unfold zOf zscore
  rw [cov_drawn, mean_drawn]
  simp only [← sq]

theorem corr_drawn (x y : Fin M → ℝ) : corrOf (draws M) (fun ω => x (ω 0)) (fun ω => y (ω 0)) = correlation x y := by
  unfold corrOf correlation
  rw [z_drawn, z_drawn]
  exact integral_drawn (fun i => zscore x i * zscore y i)

theorem entropy_drawn (z : Fin M → ℝ) : entropyOf (draws M) (fun ω => z (ω 0)) = approxEntropy z := by
  unfold entropyOf approxEntropy
  rw [integral_drawn (fun i => Real.log (Real.cosh (z i))), integral_drawn (fun i => z i * Real.exp (-(z i) ^ 2 / 2))]

theorem direction_drawn (ρ : ℝ) (z w : Fin M → ℝ) :
    directionOf (draws M) ρ (fun ω => z (ω 0)) (fun ω => w (ω 0)) = directionScore ρ z w := by
  unfold directionOf directionScore
  rw [entropy_drawn, entropy_drawn, entropy_drawn (fun i => (z i - ρ * w i) / √(1 - ρ ^ 2)),
    entropy_drawn (fun i => (w i - ρ * z i) / √(1 - ρ ^ 2))]

theorem penalty_drawn (X : Nat → Fin M → ℝ) (U : List Nat) (i : Nat) :
    penaltyOf (draws M) (fun j ω => X j (ω 0)) U i = penalty X U i := by
  unfold penaltyOf penalty
  congr 1
  refine List.map_congr_left fun j _ => ?_
  beta_reduce
  rw [corr_drawn, z_drawn, z_drawn, direction_drawn]

theorem order_drawn {X : Nat → Fin M → ℝ} {U l : List Nat} (h : PairwiseOrder (· < ·) X U l) :
    U.Nodup → Indep U X → PopulationOrder (draws M) (fun j ω => X j (ω 0)) U l := by
  induction h with
  | nil X => exact fun _ _ => .nil _
  | @cons X X' U l m hm best res rest ih =>
    intro hnd hind
    refine .cons hm (fun i hi hne => ?_) (fun i hi hne => ?_)
      (ih (hnd.filter _) (indep_rest hnd hind hm fun i hi hne => (res i hi hne).1))
    · rw [penalty_drawn, penalty_drawn]
      exact best i hi hne
    · obtain ⟨⟨c, hc⟩, ho⟩ := res i hi hne
      have hM : (M : ℝ) ≠ 0 := Nat.cast_ne_zero.2 (NeZero.ne M)
      have hv : ∑ r, (X m r - sampleMean (X m)) * (X m r - sampleMean (X m)) ≠ 0 := by
        intro h0
        have h1 := indep_var hnd hind hm
        have h2 : var (X m) = (∑ r, (X m r - sampleMean (X m)) * (X m r - sampleMean (X m))) / M := by
          unfold var
          simp only [← sq]
          rfl
        rw [h2, h0, zero_div] at h1
        exact lt_irrefl _ h1
      have h0 : ∑ r, (X m r - sampleMean (X m)) = 0 := by
        rw [Finset.sum_sub_distrib, Finset.sum_const, Finset.card_univ, Fintype.card_fin, nsmul_eq_mul, sampleMean, mul_div_cancel₀ _ hM, sub_self]
      have e : ∀ r, X' i r * (X m r - sampleMean (X m)) = (X i r - sampleMean (X i)) * (X m r - sampleMean (X m)) -
          c * ((X m r - sampleMean (X m)) * (X m r - sampleMean (X m))) +
          (sampleMean (X i) - c * sampleMean (X m)) * (X m r - sampleMean (X m)) := fun r => by rw [hc r]; ring
      simp only [e] at ho
      rw [Finset.sum_add_distrib, Finset.sum_sub_distrib, ← Finset.mul_sum, ← Finset.mul_sum, h0, mul_zero, add_zero, sub_eq_zero] at ho
      funext ω
      rw [hc, cov_drawn, cov_drawn, div_div_div_cancel_right₀ hM, ho, mul_div_cancel_right₀ _ hv]

/-- C254: the order of a data set without ties is also found on all large samples of rows drawn from it with replacement. -/
theorem C254_resampled {cfg : Direct.Config} (hpk : cfg.pk = none) {X : Nat → Fin M → ℝ} (hid : Identified n X) {o : List Nat}
    (ho : PairwiseOrder (· < ·) X (List.range n) o) :
    fitOrder cfg n X = .ok o ∧ ∀ᵐ ω ∂(draws M), ∀ᶠ N in atTop, fitOrder cfg n (fun j (r : Fin N) => X j (ω r)) = .ok o := by
  obtain ⟨_, _, _, h⟩ := C142_columns_partial hpk (π := id) (by simp) hid ho
  exact ⟨h, C254_order hpk (drawn_iid X) (drawn_regular hid) (order_drawn ho List.nodup_range (indep_range hid))⟩

/-- The hypotheses of C254_order and C254_resampled hold for an effect that adds one coin to another. -/
example {cfg : Direct.Config} (hpk : cfg.pk = none) :
    ∀ᵐ ω ∂(draws 4), ∀ᶠ N in atTop, fitOrder cfg 2 (sampleOf (drawn witnessX) ω N) = .ok [1, 0] :=
  C254_order hpk (drawn_iid witnessX) (drawn_regular witness_identified)
    (order_drawn witness_order List.nodup_range (indep_range witness_identified))

end Verif.Pairwise
