import Verif.Props.GroupRcdData
import Verif.Proofs.Rcd
import Mathlib.Probability.Distributions.Gamma
import Mathlib.Probability.Independence.Basic
import Mathlib.MeasureTheory.Constructions.Pi
import Mathlib.MeasureTheory.Integral.IntegralEqImproper
import Mathlib.MeasureTheory.Integral.Layercake
import Mathlib.Analysis.SpecialFunctions.Log.Deriv
import Mathlib.Analysis.SpecialFunctions.ExpDeriv

/-!
C247: the error rate of the combined tests of MultiGroupRCD.  The p-values of the data sets are combined by Fisher's method.  If the data
sets are independent of each other and the p-value of each data set is valid (at most `u` with probability at most `u`), the combined
p-value is valid; if they are uniformly distributed, so is the combined one.
-/
set_option autoImplicit false
set_option linter.unusedSectionVars false
namespace Verif.GroupRcd
open Finset MeasureTheory ProbabilityTheory

/-! ### Specification -/

/-- `sf d` is the survival function of the chi-squared distribution with `d` degrees of freedom, that is, of the gamma distribution with
shape `d / 2` and rate `1 / 2`. -/
def ChiSquaredTail (sf : Nat → WithTop ℝ → ℝ) : Prop :=
  ∀ d, 0 < d → sf d ⊤ = 0 ∧ ∀ x : ℝ, sf d x = (gammaMeasure (d / 2) (1 / 2)).real (Set.Ioi x)

/-- Valid p-values of independent tests: numbers from 0 to 1, independent, and each is at most `u` with probability at most `u`. -/
structure ValidTests {Ω : Type} [MeasurableSpace Ω] (P : Measure Ω) {k : Nat} (p : Fin k → Ω → ℝ) : Prop where
  measurable : ∀ i, Measurable (p i)
  indep : iIndepFun p P
  range : ∀ i ω, 0 ≤ p i ω ∧ p i ω ≤ 1
  valid : ∀ i (u : ℝ), 0 ≤ u → P {ω | p i ω ≤ u} ≤ ENNReal.ofReal u

/-- The p-values are uniformly distributed. -/
def UniformTests {Ω : Type} [MeasurableSpace Ω] (P : Measure Ω) {k : Nat} (p : Fin k → Ω → ℝ) : Prop :=
  ∀ i (u : ℝ), 0 ≤ u → u ≤ 1 → P {ω | p i ω ≤ u} = ENNReal.ofReal u

/-! ### The tail of the gamma distribution with an integer shape -/

/-- The tail of the gamma distribution with shape `k` and rate 1. -/
noncomputable def tail (k : Nat) (s : ℝ) : ℝ := Real.exp (-s) * ∑ i ∈ range k, s ^ i / (i.factorial : ℝ)

theorem tail_zero (k : Nat) : tail (k + 1) 0 = 1 := by
  unfold tail
  rw [sum_range_succ']
  simp

theorem tail_succ (k : Nat) (s : ℝ) : tail (k + 1) s = tail k s + Real.exp (-s) * (s ^ k / (k.factorial : ℝ)) := by
  unfold tail
  rw [sum_range_succ]
  ring

theorem hasDerivAt_tail (k : Nat) (s : ℝ) : HasDerivAt (tail (k + 1)) (-(Real.exp (-s) * (s ^ k / (k.factorial : ℝ)))) s := by
  have hexp : HasDerivAt (fun s : ℝ => Real.exp (-s)) (-Real.exp (-s)) s := by
    refine ((hasDerivAt_neg s).exp).congr_deriv ?_
    ring
  induction k with
  | zero =>
    have : tail 1 = fun s : ℝ => Real.exp (-s) := by
      funext x
      unfold tail
      simp
    rw [this]
    simpa using hexp
  | succ k ih =>
    have : tail (k + 1 + 1) = fun s => tail (k + 1) s + Real.exp (-s) * (s ^ (k + 1) / ((k + 1).factorial : ℝ)) := by
      funext x
      exact tail_succ (k + 1) x
    rw [this]
    have hp : HasDerivAt (fun s : ℝ => s ^ (k + 1) / ((k + 1).factorial : ℝ)) (s ^ k / (k.factorial : ℝ)) s := by
      have := (hasDerivAt_pow (k + 1) s).div_const ((k + 1).factorial : ℝ)
      refine this.congr_deriv ?_
      rw [Nat.factorial_succ]
      push_cast
      have : ((k : ℝ) + 1) ≠ 0 := by positivity
      have : (k.factorial : ℝ) ≠ 0 := by positivity
      field_simp
    refine (ih.add (hexp.mul hp)).congr_deriv ?_
    ring

theorem tail_tendsto (k : Nat) : Filter.Tendsto (tail k) Filter.atTop (nhds 0) := by
  have : tail k = fun s => ∑ i ∈ range k, s ^ i * Real.exp (-s) / (i.factorial : ℝ) := by
    funext s
    unfold tail
    rw [mul_sum]
    exact sum_congr rfl fun i _ => by ring
  rw [this]
  have h0 : (0 : ℝ) = ∑ i ∈ range k, 0 / (i.factorial : ℝ) := by simp
  rw [h0]
  exact tendsto_finsetSum _ fun i _ => (Real.tendsto_pow_mul_exp_neg_atTop_nhds_zero i).div_const _

theorem tail_strictAnti (k : Nat) : StrictAntiOn (tail (k + 1)) (Set.Ici 0) := by
  apply strictAntiOn_of_deriv_neg (convex_Ici 0)
  · exact fun s _ => (hasDerivAt_tail k s).continuousAt.continuousWithinAt
  · intro s hs
    rw [interior_Ici] at hs
    rw [(hasDerivAt_tail k s).deriv]
    have : (0 : ℝ) < s := hs
    have : 0 < Real.exp (-s) * (s ^ k / (k.factorial : ℝ)) := by positivity
    linarith

theorem tail_nonneg (k : Nat) {s : ℝ} (hs : 0 ≤ s) : 0 ≤ tail k s := by
  unfold tail
  positivity

theorem tail_le_one (k : Nat) {s : ℝ} (hs : 0 ≤ s) : tail k s ≤ 1 := by
  cases k with
  | zero => simp [tail]
  | succ k =>
    rw [← tail_zero k]
    exact (tail_strictAnti k).antitoneOn (Set.mem_Ici.2 le_rfl) hs hs

theorem tail_antitone (k : Nat) : AntitoneOn (tail k) (Set.Ici 0) := by
  cases k with
  | zero => intro a _ b _ _; simp [tail]
  | succ k => exact (tail_strictAnti k).antitoneOn

theorem gamma_tail (k : Nat) {x : ℝ} (hx : 0 ≤ x) :
    (gammaMeasure (k + 1 : ℝ) (1 / 2)).real (Set.Ioi x) = tail (k + 1) (x / 2) := by
  have hD : ∀ y : ℝ, HasDerivAt (fun y => -tail (k + 1) (y / 2)) (-(-(Real.exp (-(y / 2)) * ((y / 2) ^ k / (k.factorial : ℝ))) * (1 / 2))) y :=
    fun y => (HasDerivAt.comp (h₂ := tail (k + 1)) (h := fun y : ℝ => y / 2) y (hasDerivAt_tail k (y / 2)) ((hasDerivAt_id y).div_const 2)).fun_neg
  have hd : ∀ y ∈ Set.Ioi x, HasDerivAt (fun y => -tail (k + 1) (y / 2)) (gammaPDFReal (k + 1) (1 / 2) y) y := by
    intro y hy
    have h0 : 0 ≤ y := hx.trans (le_of_lt hy)
    refine (hD y).congr_deriv ?_
    unfold gammaPDFReal
    rw [if_pos h0, Real.Gamma_nat_eq_factorial, add_sub_cancel_right, Real.rpow_natCast]
    have e : ((1 : ℝ) / 2) ^ ((k : ℝ) + 1) = (1 / 2) ^ (k + 1) := by
      rw [← Real.rpow_natCast]
      push_cast
      rfl
    rw [e, show -(1 / 2 * y) = -(y / 2) by ring, div_pow, div_pow, one_pow]
    field_simp
    ring
  have hcont : ContinuousWithinAt (fun y => -tail (k + 1) (y / 2)) (Set.Ici x) x :=
    (hD x).continuousAt.continuousWithinAt
  have hlim : Filter.Tendsto (fun y => -tail (k + 1) (y / 2)) Filter.atTop (nhds (-0)) :=
    ((tail_tendsto (k + 1)).comp (Filter.tendsto_id.atTop_div_const (by norm_num))).neg
  have hpos : ∀ y ∈ Set.Ioi x, 0 ≤ gammaPDFReal (k + 1 : ℝ) (1 / 2) y := fun y _ =>
    gammaPDFReal_nonneg (by positivity) (by norm_num) y
  have hint := integral_Ioi_of_hasDerivAt_of_nonneg hcont hd hpos hlim
  have hi := integrableOn_Ioi_deriv_of_nonneg hcont hd hpos hlim
  unfold Measure.real gammaMeasure
  rw [withDensity_apply _ measurableSet_Ioi]
  unfold gammaPDF
  rw [← ofReal_integral_eq_lintegral_ofReal hi (by
    refine (ae_restrict_mem measurableSet_Ioi).mono fun y hy => hpos y hy), hint, ENNReal.toReal_ofReal]
  · ring
  · have := tail_nonneg (k + 1) (s := x / 2) (by positivity)
    linarith

/-! ### The product of uniform numbers -/

/-- The distribution function of the product of `k` independent uniform numbers, at positive numbers. -/
noncomputable def prodCdf (k : Nat) (t : ℝ) : ℝ := if 1 ≤ t then 1 else tail k (-Real.log t)

theorem prodCdf_nonneg (k : Nat) {t : ℝ} (ht : 0 < t) : 0 ≤ prodCdf k t := by
  unfold prodCdf
  split
  · norm_num
  · rename_i h
    exact tail_nonneg k (by have := Real.log_nonpos ht.le (not_le.1 h).le; linarith)

theorem prodCdf_le_one (k : Nat) {t : ℝ} (ht : 0 < t) : prodCdf k t ≤ 1 := by
  unfold prodCdf
  split
  · norm_num
  · rename_i h
    exact tail_le_one k (by have := Real.log_nonpos ht.le (not_le.1 h).le; linarith)

theorem prodCdf_mono (k : Nat) {s t : ℝ} (hs : 0 < s) (hst : s ≤ t) : prodCdf k s ≤ prodCdf k t := by
  by_cases h : 1 ≤ t
  · rw [show prodCdf k t = 1 from if_pos h]
    exact prodCdf_le_one k hs
  · have h' : ¬ 1 ≤ s := fun h1 => h (h1.trans hst)
    unfold prodCdf
    rw [if_neg h, if_neg h']
    have h1 := Real.log_nonpos (hs.le.trans hst) (not_le.1 h).le
    have h2 := Real.log_le_log hs hst
    exact tail_antitone k (Set.mem_Ici.2 (by linarith)) (Set.mem_Ici.2 (by linarith)) (by linarith)

theorem lintegral_prodCdf (k : Nat) {t : ℝ} (ht : 0 < t) :
    ∫⁻ u in Set.Ioc (0 : ℝ) 1, ENNReal.ofReal (prodCdf k (t / u)) = ENNReal.ofReal (prodCdf (k + 1) t) := by
  have hbig : ∀ c : ℝ, c ≤ t → 0 ≤ c → ∫⁻ u in Set.Ioc (0 : ℝ) c, ENNReal.ofReal (prodCdf k (t / u)) = ENNReal.ofReal c := by
    intro c hc h0
    have : ∫⁻ u in Set.Ioc (0 : ℝ) c, ENNReal.ofReal (prodCdf k (t / u)) = ∫⁻ _ in Set.Ioc (0 : ℝ) c, 1 := by
      apply setLIntegral_congr_fun measurableSet_Ioc
      intro u hu
      have : 1 ≤ t / u := (one_le_div hu.1).2 (hu.2.trans hc)
      unfold prodCdf
      beta_reduce
      rw [if_pos this, ENNReal.ofReal_one]
    rw [this, setLIntegral_one, Real.volume_Ioc, sub_zero]
  by_cases h1 : 1 ≤ t
  · rw [hbig 1 h1 zero_le_one, show prodCdf (k + 1) t = 1 from if_pos h1]
  · push Not at h1
    rw [← Set.Ioc_union_Ioc_eq_Ioc ht.le h1.le, lintegral_union measurableSet_Ioc (Set.Ioc_disjoint_Ioc_of_le le_rfl), hbig t le_rfl ht.le]
    let g : ℝ → ℝ := fun u => t / u * ∑ i ∈ range k, (Real.log u - Real.log t) ^ i / (i.factorial : ℝ)
    let G : ℝ → ℝ := fun u => t * ∑ i ∈ range k, (Real.log u - Real.log t) ^ (i + 1) / ((i + 1).factorial : ℝ)
    have hpos : ∀ u ∈ Set.Ioc t 1, 0 ≤ g u := fun u hu => by
      have h0 : 0 < u := ht.trans hu.1
      have : 0 ≤ Real.log u - Real.log t := by have := Real.log_le_log ht hu.1.le; linarith
      show 0 ≤ t / u * ∑ i ∈ range k, (Real.log u - Real.log t) ^ i / (i.factorial : ℝ)
      positivity
    have he : ∫⁻ u in Set.Ioc t 1, ENNReal.ofReal (prodCdf k (t / u)) = ∫⁻ u in Set.Ioc t 1, ENNReal.ofReal (g u) := by
      apply setLIntegral_congr_fun measurableSet_Ioc
      intro u hu
      have h0 : 0 < u := ht.trans hu.1
      have : ¬ 1 ≤ t / u := by rw [one_le_div h0]; exact not_le.2 hu.1
      unfold prodCdf tail
      beta_reduce
      rw [if_neg this, Real.log_div ht.ne' h0.ne', neg_neg, neg_sub, Real.exp_sub, Real.exp_log ht, Real.exp_log h0]
    have hd : ∀ u ∈ Set.uIcc t 1, HasDerivAt G (g u) u := fun u hu => by
      rw [Set.uIcc_of_le h1.le] at hu
      have h0 : u ≠ 0 := (lt_of_lt_of_le ht hu.1).ne'
      have : HasDerivAt (fun u => ∑ i ∈ range k, (Real.log u - Real.log t) ^ (i + 1) / ((i + 1).factorial : ℝ))
          (∑ i ∈ range k, (Real.log u - Real.log t) ^ i / (i.factorial : ℝ) * u⁻¹) u := by
        apply HasDerivAt.fun_sum
        intro i _
        have := (((Real.hasDerivAt_log h0).sub_const (Real.log t)).fun_pow (i + 1)).div_const ((i + 1).factorial : ℝ)
        refine this.congr_deriv ?_
        rw [Nat.factorial_succ]
        push_cast
        have : ((i : ℝ) + 1) ≠ 0 := by positivity
        have : (i.factorial : ℝ) ≠ 0 := by positivity
        field_simp
      refine (this.const_mul t).congr_deriv ?_
      show t * ∑ i ∈ range k, (Real.log u - Real.log t) ^ i / (i.factorial : ℝ) * u⁻¹ =
        t / u * ∑ i ∈ range k, (Real.log u - Real.log t) ^ i / (i.factorial : ℝ)
      rw [← sum_mul]
      ring
    have hc : ContinuousOn g (Set.uIcc t 1) := by
      intro u hu
      rw [Set.uIcc_of_le h1.le] at hu
      have h0 : u ≠ 0 := (lt_of_lt_of_le ht hu.1).ne'
      apply ContinuousAt.continuousWithinAt
      apply ContinuousAt.mul (continuousAt_const.div continuousAt_id h0)
      exact tendsto_finsetSum _ fun i _ => (((Real.continuousAt_log h0).sub continuousAt_const).pow i).div_const _
    have hii : IntervalIntegrable g volume t 1 := hc.intervalIntegrable
    have hF := intervalIntegral.integral_eq_sub_of_hasDerivAt hd hii
    rw [intervalIntegral.integral_of_le h1.le] at hF
    rw [he, ← ofReal_integral_eq_lintegral_ofReal ((intervalIntegrable_iff_integrableOn_Ioc_of_le h1.le).1 hii)
      ((ae_restrict_mem measurableSet_Ioc).mono fun u hu => hpos u hu), hF]
    have hlog : 0 ≤ -Real.log t := by have := Real.log_nonpos ht.le h1.le; linarith
    have hG1 : G 1 = t * ∑ i ∈ range k, (-Real.log t) ^ (i + 1) / ((i + 1).factorial : ℝ) := by
      show t * ∑ i ∈ range k, (Real.log 1 - Real.log t) ^ (i + 1) / ((i + 1).factorial : ℝ) = _
      rw [Real.log_one, zero_sub]
    have hGt : G t = 0 := by
      show t * ∑ i ∈ range k, (Real.log t - Real.log t) ^ (i + 1) / ((i + 1).factorial : ℝ) = 0
      rw [sub_self]
      simp
    have hG0 : 0 ≤ G 1 := by
      rw [hG1]
      positivity
    rw [hGt, sub_zero, ← ENNReal.ofReal_add ht.le hG0]
    congr 1
    unfold prodCdf tail
    rw [if_neg (not_le.2 h1), neg_neg, Real.exp_log ht, sum_range_succ', hG1]
    simp
    ring

/-- A decreasing function of a valid p-value has a mean at most that for a uniform number. -/
theorem lintegral_le_uniform {μ : Measure ℝ} [IsProbabilityMeasure μ] (hμ : ∀ u, 0 ≤ u → μ (Set.Iic u) ≤ ENNReal.ofReal u) {f : ℝ → ℝ}
    (hf : Antitone f) (h0 : ∀ u, 0 ≤ f u) :
    ∫⁻ u, ENNReal.ofReal (f u) ∂μ ≤ ∫⁻ u in Set.Ioc (0 : ℝ) 1, ENNReal.ofReal (f u) := by
  rw [lintegral_eq_lintegral_meas_lt _ (Filter.Eventually.of_forall h0) hf.measurable.aemeasurable,
    lintegral_eq_lintegral_meas_lt _ (Filter.Eventually.of_forall h0) hf.measurable.aemeasurable]
  apply lintegral_mono
  intro s
  have hm : MeasurableSet {a | s < f a} := measurableSet_lt measurable_const hf.measurable
  show μ {a | s < f a} ≤ (volume.restrict (Set.Ioc 0 1)) {a | s < f a}
  rw [Measure.restrict_apply hm]
  have hlow : ∀ a b, a ≤ b → s < f b → s < f a := fun a b hab h => h.trans_le (hf hab)
  by_cases h1 : s < f 1
  · refine prob_le_one.trans ?_
    rw [show {a | s < f a} ∩ Set.Ioc 0 1 = Set.Ioc 0 1 from
      Set.inter_eq_right.2 fun a ha => hlow a 1 ha.2 h1, Real.volume_Ioc]
    simp
  · rcases Set.eq_empty_or_nonempty {a | s < f a} with he | hne
    · rw [he]
      simp
    have hb : BddAbove {a | s < f a} := ⟨1, fun a ha => by
      by_contra h
      exact h1 (hlow 1 a (not_le.1 h).le ha)⟩
    have hc1 : sSup {a | s < f a} ≤ 1 := csSup_le hne fun a ha => by
      by_contra h
      exact h1 (hlow 1 a (not_le.1 h).le ha)
    have hsub : {a | s < f a} ⊆ Set.Iic (max 0 (sSup {a | s < f a})) := fun a ha => (le_csSup hb ha).trans (le_max_right _ _)
    refine (measure_mono hsub).trans ((hμ _ (le_max_left _ _)).trans ?_)
    have hsup : Set.Ioo 0 (max 0 (sSup {a | s < f a})) ⊆ {a | s < f a} ∩ Set.Ioc 0 1 := by
      intro a ha
      have ha2 : a < sSup {a | s < f a} := by
        rcases lt_max_iff.1 ha.2 with h | h
        · exact absurd h (not_lt.2 ha.1.le)
        · exact h
      obtain ⟨b, hb1, hb2⟩ := exists_lt_of_lt_csSup hne ha2
      exact ⟨hlow a b hb2.le hb1, ha.1, ha2.le.trans hc1⟩
    refine le_trans ?_ (measure_mono hsup)
    rw [Real.volume_Ioo, sub_zero]

theorem iic_inter_ioc (a : ℝ) : Set.Iic a ∩ Set.Ioc 0 1 = Set.Ioc 0 (min a 1) := by
  ext u
  simp only [Set.mem_inter_iff, Set.mem_Iic, Set.mem_Ioc, le_min_iff]
  tauto

/-- The mean over the first number of the probabilities for the others. -/
theorem pi_succ {k : Nat} (μ : Fin (k + 1) → Measure ℝ) [∀ i, IsProbabilityMeasure (μ i)] (h0 : μ 0 (Set.Iic 0) = 0) (t : ℝ) :
    Measure.pi μ {v | ∏ i, v i ≤ t} = ∫⁻ u, Measure.pi (fun j : Fin k => μ j.succ) {w | ∏ j, w j ≤ t / u} ∂(μ 0) := by
  have mp := measurePreserving_piFinSuccAbove μ 0
  have hS : MeasurableSet {q : ℝ × (Fin k → ℝ) | q.1 * ∏ j, q.2 j ≤ t} :=
    measurableSet_le (measurable_fst.mul (Finset.measurable_prod _ fun j _ => (measurable_pi_apply j).comp measurable_snd)) measurable_const
  have hpre : (MeasurableEquiv.piFinSuccAbove (fun _ : Fin (k + 1) => ℝ) 0) ⁻¹' {q : ℝ × (Fin k → ℝ) | q.1 * ∏ j, q.2 j ≤ t} =
      {v | ∏ i, v i ≤ t} := by
    ext v
    simp only [Set.mem_preimage, Set.mem_ofPred_eq]
    rw [Fin.prod_univ_succ]
    rfl
  rw [← hpre, mp.measure_preimage hS.nullMeasurableSet, Measure.prod_apply hS]
  apply lintegral_congr_ae
  have hae : ∀ᵐ u ∂(μ 0), 0 < u := by
    rw [ae_iff]
    convert h0 using 2
    ext u
    simp
  filter_upwards [hae] with u hu
  congr 1
  ext w
  simp only [Set.mem_preimage, Set.mem_ofPred_eq]
  rw [le_div_iff₀ hu, mul_comm]

theorem pi_le : ∀ {k : Nat} (μ : Fin k → Measure ℝ) [∀ i, IsProbabilityMeasure (μ i)]
    (_ : ∀ i u, 0 ≤ u → μ i (Set.Iic u) ≤ ENNReal.ofReal u) {t : ℝ} (_ : 0 < t),
    Measure.pi μ {v | ∏ i, v i ≤ t} ≤ ENNReal.ofReal (prodCdf k t)
  | 0, μ, _, _, t, ht => by
    by_cases h : 1 ≤ t
    · rw [show prodCdf 0 t = 1 from if_pos h, ENNReal.ofReal_one]
      exact prob_le_one
    · have : {v : Fin 0 → ℝ | ∏ i, v i ≤ t} = ∅ := by
        ext v
        simpa using h
      rw [this, measure_empty]
      exact bot_le
  | k + 1, μ, _, hμ, t, ht => by
    have h0 : μ 0 (Set.Iic 0) = 0 := le_antisymm (by simpa using hμ 0 0 le_rfl) (bot_le)
    rw [pi_succ μ h0 t, ← lintegral_prodCdf k ht]
    let f : ℝ → ℝ := fun u => if u ≤ 0 then 1 else prodCdf k (t / u)
    have hf : Antitone f := by
      intro a b hab
      show (if b ≤ 0 then (1 : ℝ) else prodCdf k (t / b)) ≤ if a ≤ 0 then 1 else prodCdf k (t / a)
      by_cases ha : a ≤ 0
      · rw [if_pos ha]
        split
        · exact le_rfl
        · rename_i hb
          exact prodCdf_le_one k (div_pos ht (not_le.1 hb))
      · have hb : ¬ b ≤ 0 := fun hb => ha (hab.trans hb)
        rw [if_neg ha, if_neg hb]
        exact prodCdf_mono k (div_pos ht (not_le.1 hb)) (div_le_div_of_nonneg_left ht.le (not_le.1 ha) hab)
    have hf0 : ∀ u, 0 ≤ f u := fun u => by
      show 0 ≤ if u ≤ 0 then (1 : ℝ) else prodCdf k (t / u)
      split
      · norm_num
      · rename_i h
        exact prodCdf_nonneg k (div_pos ht (not_le.1 h))
    have hae : ∀ᵐ u ∂(μ 0), 0 < u := by
      rw [ae_iff]
      convert h0 using 2
      ext u
      simp
    have h1 : ∫⁻ u, Measure.pi (fun j : Fin k => μ j.succ) {w | ∏ j, w j ≤ t / u} ∂(μ 0) ≤ ∫⁻ u, ENNReal.ofReal (f u) ∂(μ 0) := by
      apply lintegral_mono_ae
      filter_upwards [hae] with u hu
      show _ ≤ ENNReal.ofReal (if u ≤ 0 then (1 : ℝ) else prodCdf k (t / u))
      rw [if_neg (not_le.2 hu)]
      exact pi_le (fun j : Fin k => μ j.succ) (fun i => hμ i.succ) (div_pos ht hu)
    refine h1.trans ((lintegral_le_uniform (hμ 0) hf hf0).trans (le_of_eq ?_))
    apply setLIntegral_congr_fun measurableSet_Ioc
    intro u hu
    show ENNReal.ofReal (if u ≤ 0 then (1 : ℝ) else prodCdf k (t / u)) = _
    rw [if_neg (not_le.2 hu.1)]

theorem pi_eq : ∀ (k : Nat) {t : ℝ} (_ : 0 < t),
    Measure.pi (fun _ : Fin k => volume.restrict (Set.Ioc (0 : ℝ) 1)) {v | ∏ i, v i ≤ t} = ENNReal.ofReal (prodCdf k t)
  | 0, t, ht => by
    by_cases h : 1 ≤ t
    · rw [show prodCdf 0 t = 1 from if_pos h, ENNReal.ofReal_one]
      have : {v : Fin 0 → ℝ | ∏ i, v i ≤ t} = Set.univ := by
        ext v
        simpa using h
      rw [this]
      simp
    · have : {v : Fin 0 → ℝ | ∏ i, v i ≤ t} = ∅ := by
        ext v
        simpa using h
      rw [this, measure_empty]
      unfold prodCdf tail
      rw [if_neg h]
      simp
  | k + 1, t, ht => by
    have : IsProbabilityMeasure (volume.restrict (Set.Ioc (0 : ℝ) 1)) := ⟨by simp⟩
    rw [pi_succ _ (by
      rw [Measure.restrict_apply measurableSet_Iic, iic_inter_ioc, min_eq_left zero_le_one, Set.Ioc_self, measure_empty]) t, ← lintegral_prodCdf k ht]
    apply setLIntegral_congr_fun measurableSet_Ioc
    intro u hu
    exact pi_eq k (div_pos ht hu.1)

/-! ### The combined p-value -/

variable {k : Nat} {sf : Nat → WithTop ℝ → ℝ} {Ω : Type} [MeasurableSpace Ω] {P : Measure Ω} [IsProbabilityMeasure P] {p : Fin k → Ω → ℝ}

theorem fisherP_eq (hsf : ChiSquaredTail sf) (hk : 0 < k) {q : Fin k → ℝ} (hq : ∀ i, 0 ≤ q i ∧ q i ≤ 1) :
    fisherP sf (fun i => some (q i)) = some (if ∏ i, q i = 0 then 0 else tail k (-Real.log (∏ i, q i))) := by
  unfold fisherP fisherStat
  rw [if_neg (by rintro ⟨i, hi⟩; cases hi)]
  obtain ⟨k, rfl⟩ : ∃ m, k = m + 1 := ⟨k - 1, by omega⟩
  by_cases h : ∏ i, q i = 0
  · rw [if_pos h]
    obtain ⟨i, _, hi⟩ := Finset.prod_eq_zero_iff.1 h
    have : (∑ i, ParceData.fisherTerm ((some (q i)).getD 1)) = ⊤ := by
      rw [WithTop.sum_eq_top]
      exact ⟨i, mem_univ i, by unfold ParceData.fisherTerm; rw [if_pos (by simpa using hi)]⟩
    rw [this, Option.map_some, (hsf (2 * (k + 1)) (by omega)).1]
  · rw [if_neg h]
    have hne : ∀ i, q i ≠ 0 := fun i hi => h (Finset.prod_eq_zero (mem_univ i) hi)
    have hle : ∏ i, q i ≤ 1 := Finset.prod_le_one (fun i _ => (hq i).1) fun i _ => (hq i).2
    have hge : 0 ≤ ∏ i, q i := Finset.prod_nonneg fun i _ => (hq i).1
    have : (∑ i, ParceData.fisherTerm ((some (q i)).getD 1)) = ((-2 * Real.log (∏ i, q i) : ℝ) : WithTop ℝ) := by
      rw [Real.log_prod fun i _ => hne i, mul_sum]
      rw [show ((∑ i, -2 * Real.log (q i) : ℝ) : WithTop ℝ) = ∑ i, ((-2 * Real.log (q i) : ℝ) : WithTop ℝ) from
        WithTop.coe_sum _ _]
      exact sum_congr rfl fun i _ => if_neg (by simpa using hne i)
    rw [this, Option.map_some, (hsf (2 * (k + 1)) (by omega)).2]
    have e : ((2 * (k + 1) : Nat) : ℝ) / 2 = (k : ℝ) + 1 := by
      push_cast
      ring
    rw [e, gamma_tail k (by have := Real.log_nonpos hge hle; linarith)]
    congr 2
    ring

/-- The level of the combined test corresponds to a level of the product. -/
theorem exists_level (hk : 0 < k) {α : ℝ} (h0 : 0 < α) (h1 : α < 1) : ∃ t : ℝ, 0 < t ∧ t < 1 ∧ prodCdf k t = α ∧
    ∀ x, 0 ≤ x → x ≤ 1 → ((if x = 0 then 0 else tail k (-Real.log x)) ≤ α ↔ x ≤ t) := by
  obtain ⟨k, rfl⟩ : ∃ m, k = m + 1 := ⟨k - 1, by omega⟩
  obtain ⟨b, hb⟩ := (((tail_tendsto (k + 1)).eventually (gt_mem_nhds h0)).and (Filter.eventually_ge_atTop 0)).exists
  have hcont : ContinuousOn (tail (k + 1)) (Set.Icc 0 b) := fun s _ => (hasDerivAt_tail k s).continuousAt.continuousWithinAt
  obtain ⟨s, hs, hsα⟩ := intermediate_value_Icc' hb.2 hcont ⟨hb.1.le, by rw [tail_zero]; exact h1.le⟩
  have hs0 : 0 < s := lt_of_le_of_ne hs.1 fun h => by
    rw [← h, tail_zero] at hsα
    linarith
  have ht1 : Real.exp (-s) < 1 := by
    rw [← Real.exp_zero]
    exact Real.exp_lt_exp.2 (by linarith)
  refine ⟨Real.exp (-s), Real.exp_pos _, ht1, ?_, ?_⟩
  · unfold prodCdf
    rw [if_neg (not_le.2 ht1), Real.log_exp, neg_neg, hsα]
  · intro x hx0 hx1
    by_cases hx : x = 0
    · rw [if_pos hx, hx]
      exact ⟨fun _ => (Real.exp_pos _).le, fun _ => h0.le⟩
    · rw [if_neg hx, ← hsα]
      have hpos : 0 < x := lt_of_le_of_ne hx0 (Ne.symm hx)
      have hlog : 0 ≤ -Real.log x := by have := Real.log_nonpos hx0 hx1; linarith
      rw [(tail_strictAnti k).le_iff_ge (Set.mem_Ici.2 hlog) (Set.mem_Ici.2 hs0.le), ← Real.log_le_iff_le_exp hpos]
      constructor <;> intro h <;> linarith

theorem prod_law (hv : ValidTests P p) (t : ℝ) :
    P {ω | ∏ i, p i ω ≤ t} = Measure.pi (fun i => P.map (p i)) {v | ∏ i, v i ≤ t} := by
  rw [← (iIndepFun_iff_map_fun_eq_pi_map fun i => (hv.measurable i).aemeasurable).1 hv.indep,
    Measure.map_apply (measurable_pi_lambda _ hv.measurable)
      (measurableSet_le (Finset.measurable_prod _ fun j _ => measurable_pi_apply j) measurable_const)]
  rfl

theorem combined_iff (hsf : ChiSquaredTail sf) (hk : 0 < k) (hv : ValidTests P p) (α : ℝ) (ω : Ω) :
    (∃ q, fisherP sf (fun i => some (p i ω)) = some q ∧ q ≤ α) ↔
      (if ∏ i, p i ω = 0 then 0 else tail k (-Real.log (∏ i, p i ω))) ≤ α := by
  rw [fisherP_eq hsf hk fun i => hv.range i ω]
  constructor
  · rintro ⟨q, hq, h⟩
    cases hq
    exact h
  · exact fun h => ⟨_, rfl, h⟩

/-- **C247.** If the data sets are independent of each other and the p-value of every data set is valid, the combined p-value is valid: it is at
most `α` with probability at most `α`. -/
theorem C247_valid (hsf : ChiSquaredTail sf) (hk : 0 < k) (hv : ValidTests P p) {α : ℝ} (h0 : 0 ≤ α) :
    P {ω | ∃ q, fisherP sf (fun i => some (p i ω)) = some q ∧ q ≤ α} ≤ ENNReal.ofReal α := by
  have key : ∀ a : ℝ, 0 < a → a < 1 → P {ω | ∃ q, fisherP sf (fun i => some (p i ω)) = some q ∧ q ≤ a} ≤ ENNReal.ofReal a := by
    intro a ha0 ha1
    obtain ⟨t, ht0, _, htα, hiff⟩ := exists_level hk ha0 ha1
    have : {ω | ∃ q, fisherP sf (fun i => some (p i ω)) = some q ∧ q ≤ a} = {ω | ∏ i, p i ω ≤ t} := by
      ext ω
      rw [Set.mem_ofPred_eq, Set.mem_ofPred_eq, combined_iff hsf hk hv, hiff _ (Finset.prod_nonneg fun i _ => (hv.range i ω).1)
        (Finset.prod_le_one (fun i _ => (hv.range i ω).1) fun i _ => (hv.range i ω).2)]
    rw [this, prod_law hv, ← htα]
    have : ∀ i, IsProbabilityMeasure (P.map (p i)) := fun i => Measure.isProbabilityMeasure_map (hv.measurable i).aemeasurable
    refine pi_le _ (fun i u hu => ?_) ht0
    rw [Measure.map_apply (hv.measurable i) measurableSet_Iic]
    exact hv.valid i u hu
  rcases h0.eq_or_lt with rfl | h0
  · rw [ENNReal.ofReal_zero]
    by_contra h
    push Not at h
    have hm : 0 < (P {ω | ∃ q, fisherP sf (fun i => some (p i ω)) = some q ∧ q ≤ 0}).toReal :=
      ENNReal.toReal_pos h.ne' (measure_ne_top _ _)
    have hm1 : (P {ω | ∃ q, fisherP sf (fun i => some (p i ω)) = some q ∧ q ≤ 0}).toReal ≤ 1 :=
      ENNReal.toReal_le_of_le_ofReal zero_le_one (by rw [ENNReal.ofReal_one]; exact prob_le_one)
    have h2 := (measure_mono fun ω hω => by
      obtain ⟨q, h1, h2⟩ := hω
      exact ⟨q, h1, h2.trans (by linarith)⟩ : P {ω | ∃ q, fisherP sf (fun i => some (p i ω)) = some q ∧ q ≤ 0} ≤
        P {ω | ∃ q, fisherP sf (fun i => some (p i ω)) = some q ∧
          q ≤ (P {ω | ∃ q, fisherP sf (fun i => some (p i ω)) = some q ∧ q ≤ 0}).toReal / 2}).trans
      (key _ (by linarith) (by linarith))
    have h3 := ENNReal.toReal_le_of_le_ofReal (by linarith) h2
    linarith
  · by_cases h1 : α < 1
    · exact key α h0 h1
    · exact prob_le_one.trans (by rw [← ENNReal.ofReal_one]; exact ENNReal.ofReal_le_ofReal (not_lt.1 h1))

/-- **C247.** If moreover the p-values of the data sets are uniformly distributed, so is the combined one: the level of the test is exact. -/
theorem C247_uniform (hsf : ChiSquaredTail sf) (hk : 0 < k) (hv : ValidTests P p) (hu : UniformTests P p) {α : ℝ} (h0 : 0 ≤ α) (h1 : α ≤ 1) :
    P {ω | ∃ q, fisherP sf (fun i => some (p i ω)) = some q ∧ q ≤ α} = ENNReal.ofReal α := by
  rcases h0.eq_or_lt with rfl | h0
  · exact le_antisymm (C247_valid hsf hk hv le_rfl) (by rw [ENNReal.ofReal_zero]; exact bot_le)
  rcases h1.eq_or_lt with rfl | h1
  · rw [ENNReal.ofReal_one]
    have : {ω | ∃ q, fisherP sf (fun i => some (p i ω)) = some q ∧ q ≤ 1} = Set.univ := by
      ext ω
      rw [Set.mem_ofPred_eq, combined_iff hsf hk hv]
      refine iff_of_true ?_ (Set.mem_univ ω)
      split
      · exact zero_le_one
      · refine tail_le_one k ?_
        have := Real.log_nonpos (Finset.prod_nonneg fun i (_ : i ∈ univ) => (hv.range i ω).1)
          (Finset.prod_le_one (fun i _ => (hv.range i ω).1) fun i _ => (hv.range i ω).2)
        linarith
    rw [this, measure_univ]
  obtain ⟨t, ht0, _, htα, hiff⟩ := exists_level hk h0 h1
  have : {ω | ∃ q, fisherP sf (fun i => some (p i ω)) = some q ∧ q ≤ α} = {ω | ∏ i, p i ω ≤ t} := by
    ext ω
    rw [Set.mem_ofPred_eq, Set.mem_ofPred_eq, combined_iff hsf hk hv, hiff _ (Finset.prod_nonneg fun i _ => (hv.range i ω).1)
      (Finset.prod_le_one (fun i _ => (hv.range i ω).1) fun i _ => (hv.range i ω).2)]
  rw [this, prod_law hv, ← htα]
  have hlaw : ∀ i, P.map (p i) = volume.restrict (Set.Ioc (0 : ℝ) 1) := by
    intro i
    have : IsProbabilityMeasure (P.map (p i)) := Measure.isProbabilityMeasure_map (hv.measurable i).aemeasurable
    refine Measure.ext_of_Iic _ _ fun a => ?_
    rw [Measure.map_apply (hv.measurable i) measurableSet_Iic, Measure.restrict_apply measurableSet_Iic, iic_inter_ioc, Real.volume_Ioc,
      sub_zero]
    by_cases ha : a < 0
    · rw [min_eq_left (ha.le.trans zero_le_one), ENNReal.ofReal_of_nonpos ha.le]
      have : (p i) ⁻¹' Set.Iic a = ∅ := by
        ext ω
        simp only [Set.mem_preimage, Set.mem_Iic, Set.mem_empty_iff_false, iff_false, not_le]
        exact ha.trans_le (hv.range i ω).1
      rw [this, measure_empty]
    · push Not at ha
      by_cases ha1 : a ≤ 1
      · rw [min_eq_left ha1]
        exact hu i a ha ha1
      · push Not at ha1
        rw [min_eq_right ha1.le, ENNReal.ofReal_one]
        have : (p i) ⁻¹' Set.Iic a = Set.univ := by
          ext ω
          simp only [Set.mem_preimage, Set.mem_Iic, Set.mem_univ, iff_true]
          exact (hv.range i ω).2.trans ha1.le
        rw [this, measure_univ]
  rw [show (fun i => P.map (p i)) = fun _ : Fin k => volume.restrict (Set.Ioc (0 : ℝ) 1) from funext hlaw]
  exact pi_eq k ht0

/-- **C247.** The data sets have to be independent of each other.  If two data sets are the same, the combined test of a uniformly distributed
p-value rejects more often than its level says. -/
theorem C247_copies (hsf : ChiSquaredTail sf) {u : Ω → ℝ} (hr : ∀ ω, 0 ≤ u ω ∧ u ω ≤ 1)
    (hu : ∀ x : ℝ, 0 ≤ x → x ≤ 1 → P {ω | u ω ≤ x} = ENNReal.ofReal x) {α : ℝ} (h0 : 0 < α) (h1 : α < 1 / 9) :
    ENNReal.ofReal α < P {ω | ∃ q, fisherP sf (fun _ : Fin 2 => some (u ω)) = some q ∧ q ≤ α} := by
  obtain ⟨a, ha0, ha⟩ : ∃ a : ℝ, 0 < a ∧ a * a = α := ⟨Real.sqrt α, Real.sqrt_pos.2 h0, Real.mul_self_sqrt h0.le⟩
  have ha1 : a < 1 / 3 := by nlinarith
  obtain ⟨t, ht0, ht1, htα, hiff⟩ := exists_level (k := 2) (by norm_num) h0 (by linarith)
  have hlt : α * α < t := by
    by_contra h
    push Not at h
    have hm := prodCdf_mono 2 ht0 h
    have hα1 : α * α < 1 := by nlinarith
    rw [htα] at hm
    unfold prodCdf tail at hm
    rw [if_neg (not_le.2 hα1), neg_neg, Real.exp_log (by positivity)] at hm
    have hl : -Real.log (α * α) = 4 * Real.log (a⁻¹) := by
      rw [← ha, Real.log_mul (by positivity) (by positivity), Real.log_mul ha0.ne' ha0.ne', Real.log_inv]
      ring
    rw [hl] at hm
    simp only [sum_range_succ, range_zero, sum_empty, pow_zero, pow_one, Nat.factorial_zero, Nat.factorial_one, Nat.cast_one, div_one,
      zero_add] at hm
    have h2 := Real.log_le_sub_one_of_pos (inv_pos.2 ha0)
    have h3 : α * α * (1 + 4 * (a⁻¹ - 1)) < α := by
      have e : α * α * (1 + 4 * (a⁻¹ - 1)) = α * (4 * a - 3 * (a * a)) := by
        rw [← ha]
        field_simp
        ring
      rw [e]
      have : 4 * a - 3 * (a * a) < 1 := by nlinarith
      nlinarith
    have h4 : 0 ≤ α * α := by positivity
    nlinarith
  have hs : α < Real.sqrt t := (Real.lt_sqrt h0.le).2 (by rw [pow_two]; exact hlt)
  have hs1 : Real.sqrt t ≤ 1 := Real.sqrt_le_one.2 ht1.le
  have hset : {ω | ∃ q, fisherP sf (fun _ : Fin 2 => some (u ω)) = some q ∧ q ≤ α} = {ω | u ω ≤ Real.sqrt t} := by
    ext ω
    rw [Set.mem_ofPred_eq, Set.mem_ofPred_eq, fisherP_eq hsf (by norm_num) fun _ => hr ω]
    have e : ∏ _i : Fin 2, u ω = u ω * u ω := by rw [Fin.prod_univ_two]
    rw [e]
    have := hiff (u ω * u ω) (mul_nonneg (hr ω).1 (hr ω).1) (mul_le_one₀ (hr ω).2 (hr ω).1 (hr ω).2)
    rw [Real.le_sqrt (hr ω).1 ht0.le, pow_two, ← this]
    constructor
    · rintro ⟨q, hq, h⟩
      cases hq
      exact h
    · exact fun h => ⟨_, rfl, h⟩
  rw [hset, hu _ (Real.sqrt_nonneg t) hs1]
  exact (ENNReal.ofReal_lt_ofReal_iff (h0.trans hs)).2 hs

/-- **C247, the test of independence.** Independent residuals are rejected with probability at most `ind_alpha`, exactly `ind_alpha` if the
p-values of the data sets are uniform. -/
theorem C247_independence (hsf : ChiSquaredTail sf) (hk : 0 < k) {N : Fin k → Nat} {L : ∀ i, RcdData.Lib (N i)} {g : RcdData.Cfg} (hh : g.hsic = true)
    {a b : Ω → ∀ i, Fin (N i) → ℝ} (hv : ValidTests P p) (hp : ∀ i ω, hsicP (L i) (a ω i) (b ω i) = some (p i ω)) (h0 : 0 ≤ g.indAlpha) :
    P {ω | isIndependent L sf g (a ω) (b ω) = false} ≤ ENNReal.ofReal g.indAlpha ∧
    (UniformTests P p → g.indAlpha ≤ 1 → P {ω | isIndependent L sf g (a ω) (b ω) = false} = ENNReal.ofReal g.indAlpha) := by
  have e : {ω | isIndependent L sf g (a ω) (b ω) = false} =
      {ω | ∃ q, fisherP sf (fun i => some (p i ω)) = some q ∧ q ≤ g.indAlpha} := by
    ext ω
    rw [Set.mem_ofPred_eq, Set.mem_ofPred_eq]
    unfold isIndependent
    rw [if_pos hh, show (fun i => hsicP (L i) (a ω i) (b ω i)) = fun i => some (p i ω) from funext fun i => hp i ω,
      fisherP_eq hsf hk fun i => hv.range i ω]
    simp
  rw [e]
  exact ⟨C247_valid hsf hk hv h0, fun hu h1 => C247_uniform hsf hk hv hu h0 h1⟩

/-- **C247, the test of normality.** Normal residuals are taken for not normal with probability at most `shapiro_alpha`, exactly
`shapiro_alpha` if the p-values of the data sets are uniform. -/
theorem C247_normality (hsf : ChiSquaredTail sf) (hk : 0 < k) {N : Fin k → Nat} {L : ∀ i, RcdData.Lib (N i)} {g : RcdData.Cfg} {n : Nat}
    {X : Ω → ∀ i, Nat → Fin (N i) → ℝ} {H : Finset Nat} {x : Nat} (hv : ValidTests P p)
    (hp : ∀ i ω, (L i).shapiro (RcdData.without (L i) n (X ω i) H x) = p i ω) (h0 : 0 ≤ g.shapiroAlpha) :
    P {ω | (testsA L sf g n (X ω)).nonGauss H x = true} ≤ ENNReal.ofReal g.shapiroAlpha ∧
    (UniformTests P p → g.shapiroAlpha ≤ 1 → P {ω | (testsA L sf g n (X ω)).nonGauss H x = true} = ENNReal.ofReal g.shapiroAlpha) := by
  have e : {ω | (testsA L sf g n (X ω)).nonGauss H x = true} =
      {ω | ∃ q, fisherP sf (fun i => some (p i ω)) = some q ∧ q ≤ g.shapiroAlpha} := by
    ext ω
    rw [Set.mem_ofPred_eq, Set.mem_ofPred_eq]
    show (match fisherP sf (fun i => some ((L i).shapiro (RcdData.without (L i) n (X ω i) H x))) with
      | some p => !decide (g.shapiroAlpha < p)
      | none => true) = true ↔ _
    rw [show (fun i => some ((L i).shapiro (RcdData.without (L i) n (X ω i) H x))) = fun i => some (p i ω) from
      funext fun i => by rw [hp i ω], fisherP_eq hsf hk fun i => hv.range i ω]
    simp
  rw [e]
  exact ⟨C247_valid hsf hk hv h0, fun hu h1 => C247_uniform hsf hk hv hu h0 h1⟩

/-! ### The whole search -/

theorem body_keeps {t : Rcd.Tests} {n l : Nat} (hl : 1 ≤ l) (ht : ∀ a b, a < b → b < n → t.corr ∅ a ∅ b = false) {s : Rcd.St}
    (hs : s.M = fun _ => ∅) {U : List Nat} (hU : U ∈ Rcd.combos (l + 1) (List.range n)) : Rcd.body t s U = s := by
  obtain ⟨hsub, hlen⟩ := Rcd.mem_combos.1 hU
  match U, hlen with
  | [], h => simp at h
  | [_], h => simp at h; omega
  | a :: b :: V, _ =>
    have hH : Rcd.commonAncestors s.M (a :: b :: V) = ∅ := by
      rw [hs]
      unfold Rcd.commonAncestors
      have : ∀ W : List Nat, W.foldl (fun (s : Finset Nat) _ => s ∩ ∅) ∅ = ∅ := fun W => by
        induction W with
        | nil => rfl
        | cons x W ih => rw [List.foldl_cons, Finset.inter_empty, ih]
      exact this _
    have hab : a < b ∧ b < n := by
      have hp := List.Pairwise.sublist hsub List.pairwise_lt_range
      exact ⟨(List.pairwise_cons.1 hp).1 b (by simp), List.mem_range.1 (hsub.subset (by simp))⟩
    have hcor : Rcd.allCorrelated t ∅ (a :: b :: V) = false := by
      unfold Rcd.allCorrelated
      rw [List.all_eq_false]
      refine ⟨[a, b], Rcd.mem_combos.2 ⟨by simp, rfl⟩, ?_⟩
      show ¬ t.corr ∅ a ∅ b = true
      rw [ht a b hab.1 hab.2]
      decide
    unfold Rcd.body
    simp only [hH, hcor]
    split
    · rfl
    · split
      · rfl
      · rfl

theorem pass_keeps {t : Rcd.Tests} {n l : Nat} (hl : 1 ≤ l) (ht : ∀ a b, a < b → b < n → t.corr ∅ a ∅ b = false) {s : Rcd.St}
    (hs : s.M = fun _ => ∅) : Rcd.pass t n l s = { s with changed := false } := by
  unfold Rcd.pass
  have : ∀ Us : List (List Nat), (∀ U ∈ Us, U ∈ Rcd.combos (l + 1) (List.range n)) → ∀ s : Rcd.St, s.M = (fun _ => ∅) →
      Us.foldl (Rcd.body t) s = s := by
    intro Us
    induction Us with
    | nil => exact fun _ _ _ => rfl
    | cons U Us ih =>
      intro hU s hs
      rw [List.foldl_cons, body_keeps hl ht hs (hU U (by simp))]
      exact ih (fun V hV => hU V (by simp [hV])) s hs
  exact this _ (fun U hU => hU) _ hs

/-- If no two columns are found to be correlated, there are no ancestors. -/
theorem ancestors_none {t : Rcd.Tests} {n maxNum : Nat} (ht : ∀ a b, a < b → b < n → t.corr ∅ a ∅ b = false) {fuel : Nat} {M : Rcd.Anc}
    (h : Rcd.extractAncestors t n maxNum fuel = some M) : M = fun _ => ∅ := by
  have : ∀ fuel l (s : Rcd.St), 1 ≤ l → s.M = (fun _ => ∅) → Rcd.loop t n maxNum fuel l s = some M → M = fun _ => ∅ := by
    intro fuel
    induction fuel with
    | zero =>
      intro l s _ _ h
      cases h
    | succ fuel ih =>
      intro l s hl hs h
      unfold Rcd.loop at h
      rw [pass_keeps hl ht hs] at h
      simp only [Bool.false_eq_true, if_false] at h
      split at h
      · exact ih (l + 1) _ (by omega) (by exact hs) h
      · simp only [Option.some.injEq] at h
        rw [← h]
        exact hs
  exact this fuel 1 _ le_rfl rfl h

theorem nothing_found {t t' : Rcd.Tests} {K : Type} [Zero K] (coef : List Nat → Nat → Nat → K) {n : Nat}
    (ht : ∀ a b, a < b → b < n → t'.corr ∅ a ∅ b = false) (i j : Nat) :
    Rcd.adjacency coef n (Rcd.extractParents t n fun _ => ∅) (Rcd.extractConfounded t' n (Rcd.extractParents t n fun _ => ∅)) i j = some 0 := by
  have hP : Rcd.extractParents t n (fun _ => ∅) = fun _ => ∅ := by
    funext x
    unfold Rcd.extractParents
    split
    · exact Finset.filter_empty _
    · rfl
  rw [hP]
  unfold Rcd.adjacency
  have hC : j ∉ Rcd.extractConfounded t' n (fun _ => ∅) i := by
    rw [Rcd.mem_extractConfounded]
    rintro (⟨h1, h2, h3⟩ | ⟨h1, h2, h3⟩)
    · have := h3.2.2
      rw [ht i j h1 h2] at this
      cases this
    · have := h3.2.2
      rw [ht j i h1 h2] at this
      cases this
  rw [if_neg hC, if_neg (Finset.notMem_empty j), ite_self]

theorem pairs_bound {n : Nat} {S : Set Ω} {E : Nat → Nat → Set Ω} {q : ENNReal} (hS : ∀ ω ∈ S, ∃ a b, a < b ∧ b < n ∧ ω ∈ E a b)
    (hE : ∀ a b, a < b → b < n → P (E a b) ≤ q) : P S ≤ (n * (n - 1) / 2 : Nat) * q := by
  have hsub : S ⊆ ⋃ b ∈ range n, ⋃ a ∈ range b, E a b := by
    intro ω hω
    obtain ⟨a, b, hab, hb, h⟩ := hS ω hω
    simp only [Set.mem_iUnion]
    exact ⟨b, mem_range.2 hb, a, mem_range.2 hab, h⟩
  refine (measure_mono hsub).trans ((measure_biUnion_finset_le _ _).trans ?_)
  have h1 : ∀ b ∈ range n, P (⋃ a ∈ range b, E a b) ≤ (b : ENNReal) * q := by
    intro b hb
    refine (measure_biUnion_finset_le _ _).trans ?_
    refine (Finset.sum_le_sum fun a ha => hE a b (mem_range.1 ha) (mem_range.1 hb)).trans ?_
    rw [Finset.sum_const, card_range, nsmul_eq_mul]
  refine (Finset.sum_le_sum h1).trans (le_of_eq ?_)
  rw [← Finset.sum_mul, ← Nat.cast_sum, Finset.sum_range_id]

/-- **C247, MultiGroupRCD.** If the tests of the correlation of any two columns are valid in every data set and the data sets are independent of
each other, then the probability that anything at all is reported (an ancestor, an arrow, a hidden common cause) is at most `cor_alpha`
times the number of pairs. -/
theorem C247_nothing (hsf : ChiSquaredTail sf) (hk : 0 < k) {N : Fin k → Nat} {L : ∀ i, RcdData.Lib (N i)} {g : RcdData.Cfg} {n : Nat}
    {X : Ω → ∀ i, Nat → Fin (N i) → ℝ} {p : Nat → Nat → Fin k → Ω → ℝ} (hv : ∀ a b, a < b → b < n → ValidTests P (p a b))
    (hp : ∀ a b, a < b → b < n → ∀ i ω, RcdData.pearsonP (L i) (X ω i a) (X ω i b) = some (p a b i ω)) (h0 : 0 ≤ g.corAlpha) (maxNum fuel : Nat) :
    P {ω | ∃ M B, fit L sf g n maxNum fuel (X ω) = some (M, B) ∧ ((∃ i, M i ≠ ∅) ∨ ∃ s i j, B s i j ≠ some 0)} ≤
      (n * (n - 1) / 2 : Nat) * ENNReal.ofReal g.corAlpha := by
  refine pairs_bound (E := fun a b => {ω | ∃ q, fisherP sf (fun i => some (p a b i ω)) = some q ∧ q ≤ g.corAlpha}) ?_
    fun a b hab hb => C247_valid hsf hk (hv a b hab hb) h0
  rintro ω ⟨M, B, hfit, hrep⟩
  by_contra hno
  push Not at hno
  have hcorr : ∀ a b, a < b → b < n → ∃ q, corrP L sf n (X ω) ∅ a ∅ b = some q ∧ g.corAlpha < q := by
    intro a b hab hb
    have e : corrP L sf n (X ω) ∅ a ∅ b = fisherP sf (fun i => some (p a b i ω)) := by
      unfold corrP
      congr 1
      funext i
      rw [← hp a b hab hb i ω]
      rfl
    have hn := hno a b hab hb
    rw [e, fisherP_eq hsf hk fun i => (hv a b hab hb).range i ω]
    refine ⟨_, rfl, ?_⟩
    by_contra hle
    push Not at hle
    exact hn ⟨_, fisherP_eq hsf hk fun i => (hv a b hab hb).range i ω, hle⟩
  have hA : ∀ a b, a < b → b < n → (testsA L sf g n (X ω)).corr ∅ a ∅ b = false := by
    intro a b hab hb
    obtain ⟨q, hq, hlt⟩ := hcorr a b hab hb
    show (match corrP L sf n (X ω) ∅ a ∅ b with
        | some p => !decide (g.corAlpha ≤ p) | none => true) = false
    rw [hq]
    simp [hlt.le]
  have hB : ∀ a b, a < b → b < n → (testsP L sf g n (X ω)).corr ∅ a ∅ b = false := by
    intro a b hab hb
    obtain ⟨q, hq, hlt⟩ := hcorr a b hab hb
    show (match corrP L sf n (X ω) ∅ a ∅ b with
        | some p => decide (p < g.corAlpha) | none => false) = false
    rw [hq]
    simp [hlt.le]
  unfold fit at hfit
  split at hfit
  · cases hfit
  rename_i M0 hM
  simp only [Option.some.injEq, Prod.mk.injEq] at hfit
  obtain ⟨rfl, rfl⟩ := hfit
  have hM0 := ancestors_none hA hM
  subst hM0
  rcases hrep with ⟨i, hi⟩ | ⟨s, i, j, hij⟩
  · exact hi rfl
  · exact hij (nothing_found _ hB i j)

/-- **C247, RCD.** The same for a single data set. -/
theorem C247_single {N : Nat} {L : RcdData.Lib N} {g : RcdData.Cfg} {n : Nat} {X : Ω → Nat → Fin N → ℝ} {p : Nat → Nat → Ω → ℝ}
    (hp : ∀ a b, a < b → b < n → ∀ ω, RcdData.pearsonP L (X ω a) (X ω b) = some (p a b ω))
    (hv : ∀ a b, a < b → b < n → P {ω | p a b ω ≤ g.corAlpha} ≤ ENNReal.ofReal g.corAlpha) (maxNum fuel : Nat) :
    P {ω | ∃ M B, RcdData.fit L g n maxNum fuel (X ω) = some (M, B) ∧ ((∃ i, M i ≠ ∅) ∨ ∃ i j, B i j ≠ some 0)} ≤
      (n * (n - 1) / 2 : Nat) * ENNReal.ofReal g.corAlpha := by
  refine pairs_bound (E := fun a b => {ω | p a b ω ≤ g.corAlpha}) ?_ hv
  rintro ω ⟨M, B, hfit, hrep⟩
  by_contra hno
  push Not at hno
  have hA : ∀ a b, a < b → b < n → (RcdData.tests L g n (X ω)).corr ∅ a ∅ b = false := by
    intro a b hab hb
    show RcdData.isCorrelated L g (X ω a) (X ω b) = false
    unfold RcdData.isCorrelated
    rw [hp a b hab hb ω]
    have := hno a b hab hb
    rw [Set.mem_ofPred_eq, not_le] at this
    simp [this.le]
  unfold RcdData.fit Rcd.fit at hfit
  split at hfit
  · cases hfit
  rename_i M0 hM
  simp only [Option.some.injEq, Prod.mk.injEq] at hfit
  obtain ⟨rfl, rfl⟩ := hfit
  have hM0 := ancestors_none hA hM
  subst hM0
  rcases hrep with ⟨i, hi⟩ | ⟨i, j, hij⟩
  · exact hi rfl
  · exact hij (nothing_found _ hA i j)

/-! ### The hypotheses are met -/

/-- The survival functions of the chi-squared distributions. -/
theorem exists_tail : ∃ sf : Nat → WithTop ℝ → ℝ, ChiSquaredTail sf := by
  refine ⟨fun d x => match x with
    | none => 0
    | some x => (gammaMeasure (d / 2) (1 / 2)).real (Set.Ioi x), fun d _ => ⟨rfl, fun x => rfl⟩⟩

/-- A number in the unit interval. -/
noncomputable def clamp (x : ℝ) : ℝ := max 0 (min 1 x)

theorem clamp_measurable : Measurable clamp := measurable_const.max (measurable_const.min measurable_id)

/-- Points of the unit square. -/
noncomputable def twoUniform : Measure (Fin 2 → ℝ) := Measure.pi fun _ => volume.restrict (Set.Ioc (0 : ℝ) 1)

instance uniform_prob : IsProbabilityMeasure (volume.restrict (Set.Ioc (0 : ℝ) 1)) := ⟨by simp⟩

instance twoUniform_prob : IsProbabilityMeasure twoUniform := by
  unfold twoUniform
  infer_instance

theorem twoUniform_uniform : UniformTests twoUniform fun i (ω : Fin 2 → ℝ) => clamp (ω i) := by
  intro i u h0 h1
  have e : {ω : Fin 2 → ℝ | clamp (ω i) ≤ u} = Function.eval i ⁻¹' {x | clamp x ≤ u} := rfl
  have hm : MeasurableSet {x | clamp x ≤ u} := measurableSet_le clamp_measurable measurable_const
  unfold twoUniform
  rw [e, (measurePreserving_eval (fun _ : Fin 2 => volume.restrict (Set.Ioc (0 : ℝ) 1)) i).measure_preimage hm.nullMeasurableSet,
    Measure.restrict_apply hm]
  have : {x | clamp x ≤ u} ∩ Set.Ioc 0 1 = Set.Ioc 0 u := by
    ext x
    simp only [Set.mem_inter_iff, Set.mem_ofPred_eq, Set.mem_Ioc, clamp]
    constructor
    · rintro ⟨h, hx0, hx1⟩
      rw [min_eq_right hx1, max_eq_right hx0.le] at h
      exact ⟨hx0, h⟩
    · rintro ⟨hx0, hxu⟩
      rw [min_eq_right (hxu.trans h1), max_eq_right hx0.le]
      exact ⟨hxu, hx0, hxu.trans h1⟩
  rw [this, Real.volume_Ioc, sub_zero]

theorem twoUniform_valid : ValidTests twoUniform fun i (ω : Fin 2 → ℝ) => clamp (ω i) where
  measurable := fun i => clamp_measurable.comp (measurable_pi_apply i)
  indep := iIndepFun_pi (X := fun _ => clamp) fun _ => clamp_measurable.aemeasurable
  range := fun i ω => ⟨le_max_left _ _, max_le zero_le_one (min_le_left _ _)⟩
  valid := fun i u h0 => by
    by_cases h1 : u ≤ 1
    · exact (twoUniform_uniform i u h0 h1).le
    · refine prob_le_one.trans ?_
      rw [← ENNReal.ofReal_one]
      exact ENNReal.ofReal_le_ofReal (not_le.1 h1).le

/-- C247: two independent uniform p-values at the level 0.05. -/
example : ∃ sf, ChiSquaredTail sf ∧
    twoUniform {ω | ∃ q, fisherP sf (fun i => some (clamp (ω i))) = some q ∧ q ≤ 1 / 20} = ENNReal.ofReal (1 / 20) := by
  obtain ⟨sf, h⟩ := exists_tail
  exact ⟨sf, h, C247_uniform h (by norm_num) twoUniform_valid twoUniform_uniform (by norm_num) (by norm_num)⟩

/-- C247: the same p-value twice at the level 0.05. -/
example : ∃ sf, ChiSquaredTail sf ∧
    ENNReal.ofReal (1 / 20) < twoUniform {ω | ∃ q, fisherP sf (fun _ : Fin 2 => some (clamp (ω 0))) = some q ∧ q ≤ 1 / 20} := by
  obtain ⟨sf, h⟩ := exists_tail
  exact ⟨sf, h, C247_copies h (fun ω => twoUniform_valid.range 0 ω) (fun x => twoUniform_uniform 0 x) (by norm_num) (by norm_num)⟩

/-- Four rows of two columns with correlation `1 - u`. -/
noncomputable def turned (u : ℝ) : Nat → Fin 4 → ℝ := fun j r =>
  if j = 0 then ![1, -1, 0, 0] r else ![1 - u, -(1 - u), Real.sqrt (1 - (1 - u) ^ 2), -Real.sqrt (1 - (1 - u) ^ 2)] r

theorem turned_pearson {L : RcdData.Lib 4} (hL : L.pearsonSf = fun r => 1 - r) {u : ℝ} (h0 : 0 ≤ u) (h1 : u ≤ 1) :
    RcdData.pearsonP L (turned u 0) (turned u 1) = some u := by
  have hs : Real.sqrt (1 - (1 - u) ^ 2) ^ 2 = 1 - (1 - u) ^ 2 := Real.sq_sqrt (by nlinarith)
  have m0 : RcdData.mean (turned u 0) = 0 := by
    unfold RcdData.mean
    rw [Fin.sum_univ_four]
    simp [turned]
  have m1 : RcdData.mean (turned u 1) = 0 := by
    unfold RcdData.mean
    rw [Fin.sum_univ_four]
    simp [turned]
  have c00 : RcdData.codev (turned u 0) (turned u 0) = 2 := by
    unfold RcdData.codev
    rw [m0, Fin.sum_univ_four]
    simp [turned]
    norm_num
  have c01 : RcdData.codev (turned u 0) (turned u 1) = 2 * (1 - u) := by
    unfold RcdData.codev
    rw [m0, m1, Fin.sum_univ_four]
    simp [turned]
    ring
  have c11 : RcdData.codev (turned u 1) (turned u 1) = 2 := by
    unfold RcdData.codev
    rw [m1, Fin.sum_univ_four]
    simp only [turned, Matrix.cons_val]
    norm_num
    nlinarith
  unfold RcdData.pearsonP
  rw [c00, c01, c11, if_neg (by norm_num), hL, Real.mul_self_sqrt (by norm_num), mul_div_cancel_left₀ _ (by norm_num), abs_of_nonneg (by linarith)]
  simp

/-- C247: two random data sets of four rows whose p-values are uniform; something is reported with probability at most 0.05. -/
example (R : FCorr.Routines) (gsf : ℝ → ℝ → ℝ → ℝ) : ∃ (sf : Nat → WithTop ℝ → ℝ) (l : RcdData.Lib 4),
    ChiSquaredTail sf ∧ twoUniform {ω | ∃ M B, fit (fun _ : Fin 2 => l) sf ⟨1 / 20, 1 / 20, 1 / 20, false, true, 1 / 2⟩ 2 2 40
      (fun i => turned (clamp (ω i))) = some (M, B) ∧ ((∃ i, M i ≠ ∅) ∨ ∃ s i j, B s i j ≠ some 0)} ≤ ENNReal.ofReal (1 / 20) := by
  obtain ⟨sf, h⟩ := exists_tail
  obtain ⟨l, _, _, _, _, hl⟩ := RcdData.exists_lib (N := 4) R gsf fun r => 1 - r
  refine ⟨sf, l, h, ?_⟩
  have := C247_nothing (P := twoUniform) h (by norm_num) (L := fun _ : Fin 2 => l) (g := ⟨1 / 20, 1 / 20, 1 / 20, false, true, 1 / 2⟩) (n := 2)
    (X := fun ω i => turned (clamp (ω i))) (p := fun _ _ i ω => clamp (ω i)) (fun _ _ _ _ => twoUniform_valid)
    (fun a b hab hb i ω => by
      obtain ⟨rfl, rfl⟩ : a = 0 ∧ b = 1 := by omega
      exact turned_pearson hl (twoUniform_valid.range i ω).1 (twoUniform_valid.range i ω).2) (by norm_num) 2 40
  simpa using this

end Verif.GroupRcd
