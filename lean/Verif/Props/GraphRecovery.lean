import Verif.Props.Support

/-!
# DirectLiNGAM finds order and edges with probability tending to 1 (C262)
-/
set_option linter.unusedSectionVars false
set_option autoImplicit false
namespace Verif.Pairwise
open MeasureTheory ProbabilityTheory Filter Topology Consistency

section Order

variable {N : Nat}

/-- The residual of one column after the other. -/
noncomputable def without (x m : Fin N → ℝ) : Fin N → ℝ := fun r => x r - cov x m / var m * m r

/-- The columns `U` are strictly ordered as `l`, with the residuals computed. -/
def Strict : (Nat → Fin N → ℝ) → List Nat → List Nat → Prop
  | _, U, [] => U = []
  | X, U, m :: l => m ∈ U ∧ (∀ i ∈ U, i ≠ m → penalty X U m < penalty X U i) ∧
      Strict (fun i => without (X i) (X m)) (U.filter (fun i => decide (i ≠ m))) l

theorem without_iff (hN : N ≠ 0) {x m y : Fin N → ℝ} (h : 0 < var m) : IsSlopeResidual x m y ↔ y = without x m := by
  rw [slopeResidual_iff hN h]
  unfold residual
  simp only [if_neg h.ne', Option.some.injEq]
  exact eq_comm

theorem strict_iff {l : List Nat} : ∀ {X : Nat → Fin N → ℝ} {U : List Nat}, U.Nodup → Indep U X →
    (PairwiseOrder (· < ·) X U l ↔ Strict X U l) := by
  induction l with
  | nil =>
    intro X U _ _
    constructor
    · intro h; cases h; rfl
    · intro h
      have : U = [] := h
      subst this
      exact .nil _
  | cons m l ih =>
    intro X U hnd hind
    constructor
    · intro h
      cases h with
      | @cons _ X' _ _ _ hm best res rest =>
        have hN := indep_ne hind hm
        have hv := indep_var hnd hind hm
        refine ⟨hm, best, ?_⟩
        have hind' := indep_rest hnd hind hm fun i hi hne => (res i hi hne).1
        have e : ∀ j ∈ U.filter (fun i => decide (i ≠ m)), X' j = without (X j) (X m) := by
          intro j hj
          have hj' := List.mem_filter.1 hj
          exact (without_iff hN hv).1 (res j hj'.1 (by simpa using hj'.2))
        exact (ih (hnd.filter _) (indep_rest hnd hind hm fun i hi hne => ⟨_, fun r => rfl⟩)).1 (pairwise_congr rest e)
    · rintro ⟨hm, best, rest⟩
      have hN := indep_ne hind hm
      have hv := indep_var hnd hind hm
      exact .cons hm best (fun i _ _ => (without_iff hN hv).2 rfl)
        ((ih (hnd.filter _) (indep_rest hnd hind hm fun i hi hne => ⟨_, fun r => rfl⟩)).2 rest)

variable {Ω : Type*} [MeasurableSpace Ω]

theorem measurable_zscore {x : Ω → Fin N → ℝ} (hx : ∀ r, Measurable fun ω => x ω r) (r : Fin N) : Measurable fun ω => zscore (x ω) r := by
  unfold zscore sampleMean
  have h1 : Measurable fun ω => (∑ r, x ω r) / (N : ℝ) := (Finset.measurable_sum _ fun r _ => hx r).div_const _
  refine ((hx r).sub h1).div (Real.continuous_sqrt.measurable.comp ?_)
  exact (Finset.measurable_sum _ fun q _ => ((hx q).sub h1).pow_const 2).div_const _

theorem measurable_entropy {x : Ω → Fin N → ℝ} (hx : ∀ r, Measurable fun ω => x ω r) : Measurable fun ω => approxEntropy (x ω) := by
  unfold approxEntropy
  have h1 : Measurable fun ω => (∑ r, Real.log (Real.cosh (x ω r))) / (N : ℝ) :=
    (Finset.measurable_sum _ fun r _ => Real.measurable_log.comp (Real.continuous_cosh.measurable.comp (hx r))).div_const _
  have h2 : Measurable fun ω => (∑ r, x ω r * Real.exp (-(x ω r) ^ 2 / 2)) / (N : ℝ) :=
    (Finset.measurable_sum _ fun r _ => (hx r).mul (Real.measurable_exp.comp (((hx r).pow_const 2).neg.div_const 2))).div_const _
  exact (measurable_const.sub (((h1.sub_const _).pow_const 2).const_mul _)).sub ((h2.pow_const 2).const_mul _)

theorem measurable_penalty {X : Ω → Nat → Fin N → ℝ} (hX : ∀ j r, Measurable fun ω => X ω j r) (U : List Nat) (i : Nat) :
    Measurable fun ω => penalty (X ω) U i := by
  unfold penalty
  have hz : ∀ j r, Measurable fun ω => zscore (X ω j) r := fun j r => measurable_zscore (fun r => hX j r) r
  have hterm : ∀ j, Measurable fun ω => (min 0 (directionScore (correlation (X ω i) (X ω j)) (zscore (X ω i)) (zscore (X ω j)))) ^ 2 := by
    intro j
    refine (measurable_const.min ?_).pow_const 2
    have hc : Measurable fun ω => correlation (X ω i) (X ω j) := by
      unfold correlation
      exact (Finset.measurable_sum _ fun r _ => (hz i r).mul (hz j r)).div_const _
    have hs : Measurable fun ω => √(1 - correlation (X ω i) (X ω j) ^ 2) :=
      Real.continuous_sqrt.measurable.comp (measurable_const.sub (hc.pow_const 2))
    unfold directionScore
    refine ((measurable_entropy (hz j)).add (measurable_entropy fun r => ?_)).sub ((measurable_entropy (hz i)).add (measurable_entropy fun r => ?_))
    · exact ((hz i r).sub (hc.mul (hz j r))).div hs
    · exact ((hz j r).sub (hc.mul (hz i r))).div hs
  induction U.filter (fun j => decide (j ≠ i)) with
  | nil => simp
  | cons a l ih =>
    simp only [List.map_cons, List.sum_cons]
    exact (hterm a).add ih

theorem measurable_without {x m : Ω → Fin N → ℝ} (hx : ∀ r, Measurable fun ω => x ω r) (hm : ∀ r, Measurable fun ω => m ω r) (r : Fin N) :
    Measurable fun ω => without (x ω) (m ω) r := by
  unfold without cov var mean
  have h1 : ∀ {y : Ω → Fin N → ℝ}, (∀ r, Measurable fun ω => y ω r) → Measurable fun ω => (∑ r, y ω r) / (N : ℝ) := fun hy =>
    (Finset.measurable_sum _ fun r _ => hy r).div_const _
  exact (hx r).sub (((h1 fun q => ((hx q).sub (h1 hx)).mul ((hm q).sub (h1 hm))).div (h1 fun q => ((hm q).sub (h1 hm)).pow_const 2)).mul (hm r))

theorem measurable_strict {l : List Nat} : ∀ {X : Ω → Nat → Fin N → ℝ} {U : List Nat}, (∀ j r, Measurable fun ω => X ω j r) →
    MeasurableSet {ω | Strict (X ω) U l} := by
  induction l with
  | nil => intro X U _; exact MeasurableSet.const _
  | cons m l ih =>
    intro X U hX
    have e : {ω | Strict (X ω) U (m :: l)} = {_ω | m ∈ U} ∩ ((⋂ i ∈ {i | i ∈ U ∧ i ≠ m}, {ω | penalty (X ω) U m < penalty (X ω) U i}) ∩
        {ω | Strict (fun i => without (X ω i) (X ω m)) (U.filter (fun i => decide (i ≠ m))) l}) := by
      ext ω
      simp [Strict, and_imp]
    rw [e]
    refine (MeasurableSet.const _).inter (MeasurableSet.inter ?_ (ih fun j r => measurable_without (fun r => hX j r) (fun r => hX m r) r))
    have hfin : {i | i ∈ U ∧ i ≠ m}.Finite := (List.finite_toSet U).subset fun i hi => hi.1
    exact hfin.measurableSet_biInter fun i _ => measurableSet_lt (measurable_penalty hX U m) (measurable_penalty hX U i)

end Order

variable {Ω : Type*} [MeasurableSpace Ω] {P : Measure Ω} [IsProbabilityMeasure P] {R : Nat → Ω → Nat → ℝ} {n : Nat}

/-- Events that almost surely happen on all large samples have a probability that tends to 1. -/
theorem prob_of_ae {A : Nat → Set Ω} (hA : ∀ N, MeasurableSet (A N)) (h : ∀ᵐ ω ∂P, ∀ᶠ N in atTop, ω ∈ A N) :
    Tendsto (fun N => P {ω | ω ∉ A N}) atTop (𝓝 0) := by
  classical
  have h1 := tendstoInMeasure_of_tendsto_ae (μ := P) (f := fun N => (A N)ᶜ.indicator fun _ => (1 : ℝ)) (g := fun _ => (0 : ℝ))
    (fun N => (measurable_const.indicator (hA N).compl).aestronglyMeasurable) (by
      filter_upwards [h] with ω hω
      refine tendsto_const_nhds.congr' ?_
      filter_upwards [hω] with N hN
      exact (Set.indicator_of_notMem (fun h : ω ∈ (A N)ᶜ => h hN) _).symm)
  rw [tendstoInMeasure_iff_dist] at h1
  refine tendsto_of_tendsto_of_tendsto_of_le_of_le tendsto_const_nhds (h1 1 one_pos) (fun _ => bot_le) fun N => measure_mono fun ω hω => ?_
  have hω : ω ∈ (A N)ᶜ := hω
  show 1 ≤ dist ((A N)ᶜ.indicator (fun _ => (1 : ℝ)) ω) 0
  rw [Set.indicator_of_mem hω]
  simp

/-- If the averages are close enough to their expectations, the columns are independent. -/
theorem identified_gap (hR : IidRows P R) (hreg : Regular P n (fun j ω => R 0 ω j)) :
    ∃ c, 0 < c ∧ ∀ (N : Nat) (ω : Ω), gap n P R N ω < c → Identified n (sampleOf R ω N) := by
  obtain ⟨c, hc, h⟩ := form_bound_gap hR hreg
  refine ⟨c, hc, fun N ω hg b b0 h0 j hj => ?_⟩
  set d : Nat → ℝ := fun k => if k = n then b0 else b k with hd
  have h1 := h N ω hg d
  have e : ∀ r : Fin N, form n d (R r ω) = 0 := by
    intro r
    rw [form_split, ← h0 r]
    have e1 : d n = b0 := if_pos rfl
    rw [e1]
    congr 1
    refine Finset.sum_congr rfl fun k hk => ?_
    have : d k = b k := if_neg (Finset.mem_range.1 hk).ne
    rw [this]
    rfl
  simp only [e, mul_zero, Finset.sum_const_zero, zero_div] at h1
  have h2 := le_size d hj.le
  have h3 : d j = b j := if_neg hj.ne
  rw [h3] at h2
  have h4 : size n d ^ 2 ≤ 0 := by
    by_contra hlt
    have := mul_pos hc (not_le.1 hlt)
    linarith
  have h5 : size n d = 0 := by
    have := le_antisymm h4 (sq_nonneg _)
    exact pow_eq_zero_iff (two_ne_zero) |>.1 this
  rw [h5] at h2
  exact abs_eq_zero.1 (le_antisymm h2 (abs_nonneg _))

/-- C262: for independent rows from one distribution, the probability that `fit` finds another order than the one that the
distribution determines tends to 0. -/
theorem C262_order {cfg : Direct.Config} (hpk : cfg.pk = none) (hR : IidRows P R) (hreg : Regular P n (fun j ω => R 0 ω j)) {o : List Nat}
    (ho : PopulationOrder P (fun j ω => R 0 ω j) (List.range n) o) :
    Tendsto (fun N => P {ω | fitOrder cfg n (sampleOf R ω N) ≠ .ok o}) atTop (𝓝 0) := by
  obtain ⟨c, hc, hid⟩ := identified_gap hR hreg
  have h1 := gap_prob hR hreg.square hc
  have h2 := prob_of_ae (P := P) (A := fun N => {ω | Strict (sampleOf R ω N) (List.range n) o})
    (fun N => measurable_strict fun j r => (measurable_pi_apply j).comp (hR.measurable r)) (by
      filter_upwards [large_samples hR hreg ho] with ω hω
      filter_upwards [hω] with N hN
      exact (strict_iff List.nodup_range (indep_range hN.1)).1 hN.2)
  have h3 := h1.add h2
  rw [add_zero] at h3
  refine tendsto_of_tendsto_of_tendsto_of_le_of_le tendsto_const_nhds h3 (fun _ => bot_le) fun N =>
    (measure_mono fun ω hω => ?_).trans (measure_union_le _ _)
  by_contra hno
  rw [Set.mem_union, not_or] at hno
  have hg : gap n P R N ω < c := not_le.1 hno.1
  have hs : Strict (sampleOf R ω N) (List.range n) o := not_not.1 hno.2
  have hI := hid N ω hg
  obtain ⟨_, _, _, h⟩ := C142_columns_partial hpk (π := id) (by simp) hI ((strict_iff List.nodup_range (indep_range hI)).2 hs)
  exact hω h

/-- C262: for rows drawn from a linear model with independent disturbances whose order is the one that the distribution determines, the
probability that `fit` returns this order, exactly the edges of the model, and all coefficients up to any multiple of the square root of
`log N / N` tends to 1: that of anything else tends to 0. -/
theorem C262_graph {cfg : Direct.Config} (hpk : cfg.pk = none) (hR : IidRows P R) (hreg : Regular P n (fun j ω => R 0 ω j)) {o : List Nat}
    (ho : PopulationOrder P (fun j ω => R 0 ω j) (List.range n) o) {B : Nat → Nat → ℝ} {e : Nat → Ω → ℝ}
    (hmod : LinearModel P (fun j ω => R 0 ω j) o B e) (hind : iIndepFun (fun (i : Fin n) => e i) P) {ε : ℝ} (hε : 0 < ε) :
    Tendsto (fun N => P {ω | ¬ ∀ (lin : Lin N) (lars : Lars N), RightRegression lin → RightPath lars → RightLasso n lars →
      ∃ B', fitLasso cfg lin lars n (sampleOf R ω N) = .ok (o, B') ∧ ∀ i j, (B' i j ≠ 0 ↔ B i j ≠ 0) ∧
        |B' i j - B i j| ≤ ε * √(Real.log N / N)}) atTop (𝓝 0) := by
  have hperm : o.Perm (List.range n) := by
    obtain ⟨ω, hω⟩ := (large_samples hR hreg ho).exists
    obtain ⟨N, hN⟩ := hω.exists
    exact pairwise_perm hN.2 List.nodup_range
  have hcausal : CausalOrder n B o := ⟨hperm, fun i j hij => by
    by_contra h
    exact hij (hmod.zero i j h)⟩
  have h1 := C262_order hpk hR hreg ho
  have h2 := C261_support hR hreg hperm hmod hind (pk := none) (fun _ h => nomatch h) hε
  have h3 := h1.add h2
  rw [add_zero] at h3
  refine tendsto_of_tendsto_of_tendsto_of_le_of_le' tendsto_const_nhds h3 (Eventually.of_forall fun _ => bot_le) ?_
  filter_upwards [eventually_gt_atTop (n + 1)] with N hbig
  refine (measure_mono fun ω hω => ?_).trans (measure_union_le _ _)
  by_contra hno
  rw [Set.mem_union, not_or] at hno
  have hfit : fitOrder cfg n (sampleOf R ω N) = .ok o := not_not.1 hno.1
  have hsup := not_not.1 hno.2
  refine hω fun lin lars hlin hlars hpath => ⟨_, ?_, hsup lin lars hlin hlars hpath o hcausal⟩
  unfold fitLasso
  rw [hfit]
  have hlen : o.length = n := by rw [hperm.length_eq, List.length_range]
  have hany : ((List.range' 1 (o.length - 1)).any (fun i =>
      let m := (Direct.predictors cfg.pk (o.take i) (o.getD i 0)).length
      decide (m ≠ 0 ∧ N ≤ m + 1))) = false := by
    rw [List.any_eq_false]
    intro i _
    have : (Direct.predictors cfg.pk (o.take i) (o.getD i 0)).length ≤ n := by
      rw [hpk]
      simp only [Direct.predictors]
      rw [List.length_take]; omega
    simp only [decide_eq_true_eq]
    omega
  rw [hpk] at hany
  simp only [hpk]
  exact if_neg (by rw [hany]; exact Bool.false_ne_true)

/-! ### The hypotheses can be met -/

theorem coin_law (s t : Set ℝ) : (draws 4).real {ω | coinNoise 0 (ω 0) ∈ s ∧ coinNoise 1 (ω 0) ∈ t} =
    ((s.indicator 1 (√2 / 2) + s.indicator 1 (-(√2 / 2)) : ℝ) / 2) * ((t.indicator 1 1 + t.indicator 1 (-1) : ℝ) / 2) := by
  have hm : MeasurableSet {ω : Nat → Fin 4 | coinNoise 0 (ω 0) ∈ s ∧ coinNoise 1 (ω 0) ∈ t} :=
    (measurable_pi_apply (X := fun _ : Nat => Fin 4) 0) (Set.toFinite {i : Fin 4 | coinNoise 0 i ∈ s ∧ coinNoise 1 i ∈ t}).measurableSet
  rw [← integral_indicator_one hm]
  have e : ∀ ω : Nat → Fin 4, ({ω : Nat → Fin 4 | coinNoise 0 (ω 0) ∈ s ∧ coinNoise 1 (ω 0) ∈ t}.indicator 1 ω : ℝ) =
      (fun i => s.indicator 1 (coinNoise 0 i) * t.indicator 1 (coinNoise 1 i)) (ω 0) := by
    intro ω
    by_cases h1 : coinNoise 0 (ω 0) ∈ s <;> by_cases h2 : coinNoise 1 (ω 0) ∈ t <;> simp [Set.indicator, h1, h2]
  simp only [e]
  rw [integral_drawn (fun i => (s.indicator 1 (coinNoise 0 i) * t.indicator 1 (coinNoise 1 i) : ℝ))]
  have a0 : coinNoise 0 0 = √2 / 2 := by simp [coinNoise, witnessX, causeZ, effectW]; ring
  have a1 : coinNoise 0 1 = -(√2 / 2) := by simp [coinNoise, witnessX, causeZ, effectW]
  have a2 : coinNoise 0 2 = √2 / 2 := by simp [coinNoise, witnessX, causeZ, effectW]
  have a3 : coinNoise 0 3 = -(√2 / 2) := by simp [coinNoise, witnessX, causeZ, effectW]; ring
  have b0 : coinNoise 1 0 = 1 := by simp [coinNoise, witnessX, causeZ]
  have b1 : coinNoise 1 1 = 1 := by simp [coinNoise, witnessX, causeZ]
  have b2 : coinNoise 1 2 = -1 := by simp [coinNoise, witnessX, causeZ]
  have b3 : coinNoise 1 3 = -1 := by simp [coinNoise, witnessX, causeZ]
  rw [Fin.sum_univ_four, a0, a1, a2, a3, b0, b1, b2, b3]
  push_cast
  ring

theorem coin_indep : iIndepFun (fun (i : Fin 2) (ω : Nat → Fin 4) => coinNoise i (ω 0)) (draws 4) := by
  have hpair : IndepFun (fun ω : Nat → Fin 4 => coinNoise 0 (ω 0)) (fun ω => coinNoise 1 (ω 0)) (draws 4) := by
    rw [indepFun_iff_measure_inter_preimage_eq_mul]
    intro s t _ _
    rw [← ENNReal.toReal_eq_toReal_iff' (measure_ne_top _ _) (ENNReal.mul_ne_top (measure_ne_top _ _) (measure_ne_top _ _)), ENNReal.toReal_mul]
    have h1 := coin_law s t
    have h2 := coin_law s Set.univ
    have h3 := coin_law Set.univ t
    simp only [Set.mem_univ, and_true, true_and, Set.indicator_univ, Pi.one_apply] at h2 h3
    norm_num at h2 h3
    unfold Measure.real at h1 h2 h3
    refine h1.trans ?_
    rw [← h2, ← h3]
    rfl
  rw [iIndepFun_iff_measure_inter_preimage_eq_mul]
  intro S sets hS
  have h := hpair.measure_inter_preimage_eq_mul (sets 0) (sets 1)
  have hcases : S = ∅ ∨ S = {0} ∨ S = {1} ∨ S = {0, 1} := by clear hS; revert S; decide
  rcases hcases with rfl | rfl | rfl | rfl
  · simp
  · simp
  · simp
  · simp only [Finset.mem_insert, Finset.mem_singleton, Set.iInter_iInter_eq_or_left, Set.iInter_iInter_eq_left]
    rw [Finset.prod_pair (by decide)]
    exact h (hS 0 (by simp)) (hS 1 (by simp))

/-- The hypotheses of C262_order and C262_graph hold for an effect that adds one coin to another; solvers and paths as required exist
(`exists_lasso`). -/
example {cfg : Direct.Config} (hpk : cfg.pk = none) :
    Tendsto (fun N => draws 4 {ω | ¬ ∀ (lin : Lin N) (lars : Lars N), RightRegression lin → RightPath lars → RightLasso 2 lars →
      ∃ B', fitLasso cfg lin lars 2 (sampleOf (drawn witnessX) ω N) = .ok ([1, 0], B') ∧ ∀ i j, (B' i j ≠ 0 ↔ coinMatrix i j ≠ 0) ∧
        |B' i j - coinMatrix i j| ≤ 1 / 100 * √(Real.log N / N)}) atTop (𝓝 0) :=
  C262_graph hpk (drawn_iid witnessX) (drawn_regular witness_identified)
    (order_drawn witness_order List.nodup_range (indep_range witness_identified)) coin_model coin_indep (by norm_num)

end Verif.Pairwise
