import Verif.Props.GraphRecovery
import Mathlib.MeasureTheory.Constructions.Pi
import Mathlib.MeasureTheory.Measure.Prod
import Mathlib.Probability.Distributions.Gaussian.Real

/-!
# If exchanging two variables does not change the distribution, the direction is a matter of chance (C264)
-/
set_option linter.unusedSectionVars false
set_option autoImplicit false
namespace Verif.Pairwise
open MeasureTheory ProbabilityTheory Filter Topology Consistency

section Data

variable {N : Nat}

/-- The difference of a pair is the score of the direction whenever it is not NaN. -/
theorem pairDiff_some {x y : Fin N → ℝ} {X : Nat → Col N} {i j : Nat} (hij : j ≠ i) (hi : X i = some x) (hj : X j = some y) {Uc : List Nat} {d : ℝ}
    (h : pairDiff X Uc [] i j = some d) : d = directionScore (correlation x y) (zscore x) (zscore y) := by
  have vx : var x ≠ 0 := by
    intro h0
    simp [pairDiff, hi, standardize, h0, diffMutualInfo] at h
  have vy : var y ≠ 0 := by
    intro h0
    simp [pairDiff, hj, standardize, h0, diffMutualInfo] at h
  have hN : N ≠ 0 := by
    rintro rfl
    exact vx (by simp [var, mean])
  have hN' : (N : ℝ) ≠ 0 := by exact_mod_cast hN
  have px : 0 < var x := lt_of_le_of_ne (var_nonneg x) (Ne.symm vx)
  have py : 0 < var y := lt_of_le_of_ne (var_nonneg y) (Ne.symm vy)
  have hz := zscore_standard hN px
  have hw := zscore_standard hN py
  have hρ : N * correlation x y = ∑ r, zscore x r * zscore y r := by unfold correlation; field_simp
  have hle : 0 ≤ 1 - correlation x y ^ 2 := by
    rw [← var_residual hN hz hw hρ]
    exact var_nonneg _
  set Z : Nat → Col N := fun k => if k = i then some (zscore x) else some (zscore y) with hZ
  have zi : Z i = some (zscore x) := if_pos rfl
  have zj : Z j = some (zscore y) := if_neg hij
  rw [pairDiff_same hN (X := Z) (X' := X) (by rw [zi, hi]; exact zscore_same px) (by rw [zj, hj]; exact zscore_same py)] at h
  by_cases h1 : correlation x y ^ 2 < 1
  · rw [pairDiff_standard hN zi zj hz hw hρ h1] at h
    exact (Option.some.inj h).symm
  · have h0 : 1 - correlation x y ^ 2 = 0 := le_antisymm (by linarith) hle
    unfold pairDiff at h
    simp only [zi, zj, standardize_standard hN hz, standardize_standard hN hw, List.not_mem_nil, false_and, if_false,
      residual_standard hN hz hw hρ, diffMutualInfo, Option.map_some, scaledEntropy, var_residual hN hz hw hρ, h0, if_true] at h
    cases h

theorem score_swap (x y : Fin N → ℝ) : directionScore (correlation y x) (zscore y) (zscore x) =
    -directionScore (correlation x y) (zscore x) (zscore y) := by
  have : correlation y x = correlation x y := by
    unfold correlation
    congr 1
    exact Finset.sum_congr rfl fun r _ => mul_comm _ _
  rw [this]
  unfold directionScore
  ring

/-- Data with two columns, as passed to `fit` (lingam/direct_lingam.py:61-75). -/
def two (x y : Fin N → ℝ) (j : Nat) : Fin N → ℝ := if j = 0 then x else y

/-- If the second column is put first, the score of the direction from first to second is negative. -/
theorem second_first {cfg : Direct.Config} (hpk : cfg.pk = none) {x y : Fin N → ℝ} (h : fitOrder cfg 2 (two x y) = .ok [1, 0]) :
    directionScore (correlation x y) (zscore x) (zscore y) < 0 := by
  set X : Nat → Col N := fun j => some (two x y j) with hX
  set f : Nat → Option ℝ := fun i => (statistic X [0, 1] [0, 1] [] i).map (fun m => -1 * m) with hf
  have hs : searchOrder cfg [] X [0, 1] = pick f [0, 1] := by
    unfold searchOrder Direct.searchCandidate
    rw [hpk]
  have hpick : pickGo f 0 [1] = 1 := by
    unfold fitOrder at h
    rw [hpk] at h
    have e : List.range 2 = [0, 1] := rfl
    simp only [e, orderLoop] at h
    rw [hs] at h
    simp only [pick] at h
    have hm := pickGo_mem f [1] 0
    rcases List.mem_cons.1 hm with h0 | h0
    · rw [h0] at h
      simp only [List.nil_append] at h
      exfalso
      split at h
      · cases h
      · simp at h
    · exact List.mem_singleton.1 h0
  have e0 : f 0 = (pairDiff X [0, 1] [] 0 1).map (fun d => -1 * ((min 0 d) ^ 2)) := by
    simp only [hf, statistic]
    cases h : pairDiff X [0, 1] [] 0 1 <;> simp [sumNan, h]
  have e1 : f 1 = (pairDiff X [0, 1] [] 0 1).map (fun d => -1 * ((min 0 (-d)) ^ 2)) := by
    simp only [hf, statistic]
    have := pairDiff_swap X [0, 1] [] 0 1
    cases h : pairDiff X [0, 1] [] 0 1 <;> rw [h] at this <;> simp [sumNan, this]
  cases hd : pairDiff X [0, 1] [] 0 1 with
  | none =>
    rw [hd] at e0
    simp [pickGo, e0] at hpick
  | some d =>
    rw [hd] at e0 e1
    rw [← pairDiff_some (X := X) (by norm_num : (1 : Nat) ≠ 0) (x := x) (y := y) rfl rfl hd]
    by_contra hge
    have h0 : 0 ≤ d := not_lt.1 hge
    simp only [pickGo, e0, e1, Option.map_some, min_eq_left h0] at hpick
    rw [if_neg] at hpick
    · exact absurd hpick (by norm_num)
    · have := sq_nonneg (min 0 (-d))
      intro hc
      linarith [hc]

end Data

section Chance

variable {N : Nat} {Ω : Type} [MeasurableSpace Ω] {P : Measure Ω} [IsProbabilityMeasure P]

theorem measurable_score : Measurable fun p : (Fin N → ℝ) × (Fin N → ℝ) => penalty (two p.1 p.2) [0, 1] 0 :=
  measurable_penalty (X := fun p : (Fin N → ℝ) × (Fin N → ℝ) => two p.1 p.2) (fun j r => by
    unfold two
    split_ifs
    · exact (measurable_pi_apply r).comp measurable_fst
    · exact (measurable_pi_apply r).comp measurable_snd) _ _

theorem penalty_two (x y : Fin N → ℝ) : penalty (two x y) [0, 1] 0 = (min 0 (directionScore (correlation x y) (zscore x) (zscore y))) ^ 2 := by
  simp [penalty, two]

/-- C264: if the data with the two variables exchanged have the same distribution, the second variable is put first with probability at
most one half, for every number of rows. -/
theorem C264_half {cfg : Direct.Config} (hpk : cfg.pk = none) {x y : Ω → Fin N → ℝ}
    (hex : IdentDistrib (fun ω => (x ω, y ω)) (fun ω => (y ω, x ω)) P P) :
    P {ω | fitOrder cfg 2 (two (x ω) (y ω)) = .ok [1, 0]} ≤ 1 / 2 := by
  set S : Set ((Fin N → ℝ) × (Fin N → ℝ)) := {p | 0 < penalty (two p.1 p.2) [0, 1] 0} with hS
  have hSm : MeasurableSet S := measurableSet_lt measurable_const measurable_score
  have hneg : ∀ u v : Fin N → ℝ, (u, v) ∈ S ↔ directionScore (correlation u v) (zscore u) (zscore v) < 0 := by
    intro u v
    rw [hS, Set.mem_ofPred_eq, penalty_two]
    constructor
    · intro h
      by_contra hge
      rw [min_eq_left (not_lt.1 hge)] at h
      norm_num at h
    · intro h
      rw [min_eq_right h.le]
      exact (sq_pos_of_neg h)
  have hsub : {ω | fitOrder cfg 2 (two (x ω) (y ω)) = .ok [1, 0]} ⊆ (fun ω => (x ω, y ω)) ⁻¹' S := fun ω hω =>
    (hneg _ _).2 (second_first hpk hω)
  have heq : P ((fun ω => (x ω, y ω)) ⁻¹' S) = P ((fun ω => (y ω, x ω)) ⁻¹' S) := hex.measure_mem_eq hSm
  have hdis : Disjoint ((fun ω => (x ω, y ω)) ⁻¹' S) ((fun ω => (y ω, x ω)) ⁻¹' S) := by
    rw [Set.disjoint_left]
    intro ω h1 h2
    have a := (hneg _ _).1 h1
    have b := (hneg _ _).1 h2
    rw [score_swap] at b
    linarith
  have hle : P ((fun ω => (x ω, y ω)) ⁻¹' S) + P ((fun ω => (y ω, x ω)) ⁻¹' S) ≤ 1 := by
    rw [← measure_union₀ (hex.aemeasurable_snd.nullMeasurableSet_preimage hSm) hdis.aedisjoint]
    exact prob_le_one
  rw [← heq, ← two_mul] at hle
  refine (measure_mono hsub).trans ?_
  rw [ENNReal.le_div_iff_mul_le (Or.inl (by norm_num)) (Or.inl (by norm_num)), mul_comm]
  exact hle

/-- C264: rows drawn independently, with the two variables `a U + b V` and `b U + a V` for independent `U` and `V` with the same
distribution. -/
theorem C264_rows {cfg : Direct.Config} (hpk : cfg.pk = none) (μ : Measure ℝ) [IsProbabilityMeasure μ] (a b : ℝ) :
    (Measure.pi fun _ : Fin N => μ.prod μ) {ω | fitOrder cfg 2 (two (fun r => a * (ω r).1 + b * (ω r).2) (fun r => b * (ω r).1 + a * (ω r).2)) =
      .ok [1, 0]} ≤ 1 / 2 := by
  have hσ : MeasurePreserving (fun (ω : Fin N → ℝ × ℝ) r => Prod.swap (ω r)) (Measure.pi fun _ : Fin N => μ.prod μ)
      (Measure.pi fun _ : Fin N => μ.prod μ) :=
    measurePreserving_pi _ _ fun _ => Measure.measurePreserving_swap
  have hx : ∀ c d : ℝ, Measurable fun (ω : Fin N → ℝ × ℝ) (r : Fin N) => c * (ω r).1 + d * (ω r).2 := fun c d =>
    measurable_pi_lambda _ fun r => ((measurable_fst.comp (measurable_pi_apply r)).const_mul c).add
      ((measurable_snd.comp (measurable_pi_apply r)).const_mul d)
  refine C264_half hpk ⟨((hx a b).prodMk (hx b a)).aemeasurable, ((hx b a).prodMk (hx a b)).aemeasurable, ?_⟩
  conv_lhs => rw [← hσ.map_eq]
  rw [Measure.map_map ((hx a b).prodMk (hx b a)) hσ.measurable]
  congr 1
  funext ω
  simp only [Function.comp, Prod.fst_swap, Prod.snd_swap, Prod.mk.injEq]
  exact ⟨funext fun r => add_comm _ _, funext fun r => add_comm _ _⟩

theorem entropyOf_swap {x y : Ω → ℝ} (hex : IdentDistrib (fun ω => (x ω, y ω)) (fun ω => (y ω, x ω)) P P) {g : ℝ × ℝ → ℝ}
    (hg : Measurable g) : entropyOf P (fun ω => g (x ω, y ω)) = entropyOf P (fun ω => g (y ω, x ω)) := by
  unfold entropyOf
  have h1 := (hex.comp (u := fun p => Real.log (Real.cosh (g p))) (Real.measurable_log.comp (Real.continuous_cosh.measurable.comp hg))).integral_eq
  have h2 := (hex.comp (u := fun p => g p * Real.exp (-(g p) ^ 2 / 2))
    (hg.mul (Real.measurable_exp.comp (((hg.pow_const 2).neg).div_const 2)))).integral_eq
  simp only [Function.comp] at h1 h2
  rw [h1, h2]

/-- In the distribution the score of the direction between two variables that can be exchanged is 0. -/
theorem direction_zero {x y : Ω → ℝ} (hex : IdentDistrib (fun ω => (x ω, y ω)) (fun ω => (y ω, x ω)) P P) :
    directionOf P (corrOf P x y) (zOf P x) (zOf P y) = 0 := by
  have hm : meanOf P x = meanOf P y := (hex.comp measurable_fst).integral_eq
  have hv : covOf P x x = covOf P y y := by
    have := (hex.comp (u := fun p => (p.1 - meanOf P x) * (p.1 - meanOf P x)) (by fun_prop)).integral_eq
    simp only [Function.comp] at this
    unfold covOf
    rw [this, hm]
  have zx : zOf P x = fun ω => (x ω - meanOf P y) / √(covOf P y y) := by unfold zOf; rw [hm, hv]
  have zy : zOf P y = fun ω => (y ω - meanOf P y) / √(covOf P y y) := rfl
  generalize corrOf P x y = ρ
  rw [zx, zy]
  unfold directionOf
  have h1 := entropyOf_swap hex (g := fun p => (p.1 - meanOf P y) / √(covOf P y y)) (by fun_prop)
  have h2 := entropyOf_swap hex (g := fun p => ((p.1 - meanOf P y) / √(covOf P y y) - ρ * ((p.2 - meanOf P y) / √(covOf P y y))) / √(1 - ρ ^ 2))
    (by fun_prop)
  beta_reduce at h1 h2
  rw [h1, h2, sub_self]

/-- C264: for such variables the distribution determines no order: the condition under which DirectLiNGAM is consistent (C254) is not met. -/
theorem C264_population {Y : Nat → Ω → ℝ} (hex : IdentDistrib (fun ω => (Y 0 ω, Y 1 ω)) (fun ω => (Y 1 ω, Y 0 ω)) P P) (o : List Nat) :
    ¬ PopulationOrder P Y (List.range 2) o := by
  have h0 : penaltyOf P Y [0, 1] 0 = 0 := by
    simp [penaltyOf, direction_zero hex]
  have h1 : penaltyOf P Y [0, 1] 1 = 0 := by
    simp [penaltyOf, direction_zero hex.symm]
  have e : List.range 2 = [0, 1] := rfl
  rw [e]
  intro h
  cases h with
  | cons hm best _ _ =>
    rename_i m
    rcases List.mem_cons.1 hm with rfl | hm
    · have := best 1 (by simp) (by norm_num)
      rw [h0, h1] at this
      exact lt_irrefl _ this
    · obtain rfl := List.mem_singleton.1 hm
      have := best 0 (by simp) (by norm_num)
      rw [h0, h1] at this
      exact lt_irrefl _ this

theorem charFunDual_normal (L : StrongDual ℝ ℝ) : charFunDual (gaussianReal 0 1) L = Complex.exp (-(L 1 : ℂ) ^ 2 / 2) := by
  have h : (gaussianReal 0 1).map L = gaussianReal 0 (NNReal.mk (L 1 ^ 2) (sq_nonneg _)) := by
    have e : (L : ℝ → ℝ) = fun t => L 1 * t := by
      funext t
      have := L.map_smul t 1
      simp only [smul_eq_mul, mul_one] at this
      rw [this, mul_comm]
    rw [e, gaussianReal_map_const_mul]
    simp
  rw [charFunDual_eq_charFun_map_one, h, charFun_gaussianReal]
  congr 1
  push_cast
  simp
  ring

/-- Reflections do not change the distribution of two independent standard normal variables. -/
theorem normal_reflect {c s : ℝ} (h : c ^ 2 + s ^ 2 = 1) :
    ((gaussianReal 0 1).prod (gaussianReal 0 1)).map (fun z : ℝ × ℝ => (c * z.1 + s * z.2, s * z.1 - c * z.2)) =
      (gaussianReal 0 1).prod (gaussianReal 0 1) := by
  set M : ℝ × ℝ →L[ℝ] ℝ × ℝ := (c • ContinuousLinearMap.fst ℝ ℝ ℝ + s • ContinuousLinearMap.snd ℝ ℝ ℝ).prod
    (s • ContinuousLinearMap.fst ℝ ℝ ℝ - c • ContinuousLinearMap.snd ℝ ℝ ℝ) with hM
  have e : (fun z : ℝ × ℝ => (c * z.1 + s * z.2, s * z.1 - c * z.2)) = M := by
    funext z
    simp [hM]
  rw [e]
  refine Measure.ext_of_charFunDual ?_
  funext L
  rw [charFunDual_map, charFunDual_prod, charFunDual_prod]
  simp only [charFunDual_normal, ← Complex.exp_add]
  have hl : ∀ u v : ℝ, L (u, v) = u * L (1, 0) + v * L (0, 1) := by
    intro u v
    have : ((u, v) : ℝ × ℝ) = u • (1, 0) + v • (0, 1) := by simp
    rw [this, map_add, map_smul, map_smul]
    rfl
  have e1 : M (1, 0) = (c, s) := by simp [hM]
  have e2 : M (0, 1) = (s, -c) := by simp [hM]
  simp only [ContinuousLinearMap.comp_apply, ContinuousLinearMap.inl_apply, ContinuousLinearMap.inr_apply, e1, e2]
  rw [hl c s, hl s (-c)]
  congr 1
  have hc : (c : ℂ) ^ 2 + (s : ℂ) ^ 2 = 1 := by exact_mod_cast h
  push_cast
  linear_combination (-((L (1, 0) : ℂ) ^ 2 + (L (0, 1) : ℂ) ^ 2) / 2) * hc

/-- C264: in a linear model with Gaussian cause and Gaussian disturbance the true order (the cause in the second column) is found with
probability at most one half, for every number of rows, means, standard deviations and effect. -/
theorem C264_gaussian {cfg : Direct.Config} (hpk : cfg.pk = none) (β m₁ m₂ : ℝ) {s₁ s₂ : ℝ} (h₁ : s₁ ≠ 0) (h₂ : s₂ ≠ 0) :
    (Measure.pi fun _ : Fin N => (gaussianReal 0 1).prod (gaussianReal 0 1)) {ω |
      let cause : Fin N → ℝ := fun r => m₁ + s₁ * (ω r).1
      let disturbance : Fin N → ℝ := fun r => m₂ + s₂ * (ω r).2
      fitOrder cfg 2 (two (fun r => β * cause r + disturbance r) cause) = .ok [1, 0]} ≤ 1 / 2 := by
  set q : ℝ := (β * s₁) ^ 2 + s₂ ^ 2 with hq
  have hq0 : 0 < q := by positivity
  set σ : ℝ := √q with hσ
  have hσ0 : σ ≠ 0 := (Real.sqrt_pos.2 hq0).ne'
  have hσ2 : σ ^ 2 = q := Real.sq_sqrt hq0.le
  set c := β * s₁ / σ with hc
  set s := s₂ / σ with hs
  have hcs : c ^ 2 + s ^ 2 = 1 := by
    rw [hc, hs, div_pow, div_pow, ← add_div, hσ2]
    exact div_self hq0.ne'
  have hrow : MeasurePreserving (fun z : ℝ × ℝ => (c * z.1 + s * z.2, s * z.1 - c * z.2)) ((gaussianReal 0 1).prod (gaussianReal 0 1))
      ((gaussianReal 0 1).prod (gaussianReal 0 1)) := ⟨by fun_prop, normal_reflect hcs⟩
  have hall : MeasurePreserving (fun (ω : Fin N → ℝ × ℝ) r => (c * (ω r).1 + s * (ω r).2, s * (ω r).1 - c * (ω r).2))
      (Measure.pi fun _ : Fin N => (gaussianReal 0 1).prod (gaussianReal 0 1))
      (Measure.pi fun _ : Fin N => (gaussianReal 0 1).prod (gaussianReal 0 1)) := measurePreserving_pi _ _ fun _ => hrow
  have hx : Measurable fun (ω : Fin N → ℝ × ℝ) (r : Fin N) => c * (ω r).1 + s * (ω r).2 := by fun_prop
  have hy : Measurable fun (ω : Fin N → ℝ × ℝ) (r : Fin N) => (ω r).1 := by fun_prop
  have key := C264_half (P := Measure.pi fun _ : Fin N => (gaussianReal 0 1).prod (gaussianReal 0 1)) hpk
    (x := fun ω r => c * (ω r).1 + s * (ω r).2) (y := fun ω r => (ω r).1)
    ⟨(hx.prodMk hy).aemeasurable, (hy.prodMk hx).aemeasurable, by
      conv_lhs => rw [← hall.map_eq]
      rw [Measure.map_map (hx.prodMk hy) hall.measurable]
      congr 1
      funext ω
      simp only [Function.comp, Prod.mk.injEq]
      refine ⟨funext fun r => ?_, trivial⟩
      linear_combination (ω r).1 * hcs⟩
  refine (measure_mono fun ω hω => ?_).trans key
  have hu := C140_order cfg 2 (two (fun r => c * (ω r).1 + s * (ω r).2) (fun r => (ω r).1)) (c := fun j => if j = 0 then σ else s₁)
    (a := fun j => if j = 0 then β * m₁ + m₂ else m₁) (fun j _ => by split_ifs <;> assumption)
  rw [Set.mem_ofPred_eq, ← hu]
  rw [Set.mem_ofPred_eq] at hω
  rw [← hω]
  congr 1
  funext j r
  unfold two
  split_ifs
  · rw [hc, hs]
    field_simp
    ring
  · ring

/-- Two correlated Gaussian variables with equal variances. -/
example {cfg : Direct.Config} (hpk : cfg.pk = none) :
    (Measure.pi fun _ : Fin 100 => (gaussianReal 0 1).prod (gaussianReal 0 1)) {ω | fitOrder cfg 2
      (two (fun r => 2 * (ω r).1 + 1 * (ω r).2) (fun r => 1 * (ω r).1 + 2 * (ω r).2)) = .ok [1, 0]} ≤ 1 / 2 :=
  C264_rows hpk _ 2 1

/-- A Gaussian effect of a Gaussian cause, with a million rows. -/
example {cfg : Direct.Config} (hpk : cfg.pk = none) :
    (Measure.pi fun _ : Fin 1000000 => (gaussianReal 0 1).prod (gaussianReal 0 1)) {ω |
      fitOrder cfg 2 (two (fun r => 3 * (5 + 2 * (ω r).1) + (0 + 1 * (ω r).2)) (fun r => 5 + 2 * (ω r).1)) = .ok [1, 0]} ≤ 1 / 2 :=
  C264_gaussian hpk 3 5 0 (by norm_num) (by norm_num)

/-- The condition of C264_population holds for sums of two normal variables. -/
example (o : List Nat) : ¬ PopulationOrder ((gaussianReal 0 1).prod (gaussianReal 0 1))
    (fun j (z : ℝ × ℝ) => if j = 0 then 2 * z.1 + z.2 else z.1 + 2 * z.2) (List.range 2) o := by
  have h1 : Measurable fun z : ℝ × ℝ => (2 * z.1 + z.2, z.1 + 2 * z.2) := by fun_prop
  have h2 : Measurable fun z : ℝ × ℝ => (z.1 + 2 * z.2, 2 * z.1 + z.2) := by fun_prop
  refine C264_population ⟨h1.aemeasurable, h2.aemeasurable, ?_⟩ o
  have hσ : MeasurePreserving Prod.swap ((gaussianReal 0 1).prod (gaussianReal 0 1)) ((gaussianReal 0 1).prod (gaussianReal 0 1)) :=
    Measure.measurePreserving_swap
  conv_lhs => rw [← hσ.map_eq]
  refine (Measure.map_map h1 hσ.measurable).trans ?_
  congr 1
  funext z
  simp [add_comm]

end Chance

end Verif.Pairwise
