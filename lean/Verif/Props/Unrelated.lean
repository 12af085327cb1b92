import Verif.Proofs.Unrelated
import Verif.Props.WrongDirection
import Mathlib.Probability.Independence.Integration

/-!
# Unrelated variables (C260)
-/
set_option linter.unusedSectionVars false
set_option autoImplicit false
namespace Verif.Pairwise
open MeasureTheory ProbabilityTheory Filter Topology Consistency

section Sample

variable {N : Nat} {lin : Lin N} {lars : Lars N} {X : Nat → Fin N → ℝ} {ps : List Nat} {t : Nat}

/-- C260: the pruning drops all `m` predictors if the regression of the target on all of them has an F-statistic of at most
`log N / m`. -/
theorem C260_drops (hlin : RightRegression lin) (hlars : RightPath lars) (hN : ps.length + 1 < N) {b0 : ℝ} {w : Nat → ℝ}
    (hw : SolvesRegression (ps.map X) (X t) b0 w) {R : ℝ} (hR : R = ∑ r, unexplained (ps.map X) (X t) b0 w r ^ 2)
    (hF : (N - ps.length - 1) * (N * sampleVar (X t) - R) ≤ Real.log N * R) (k : Nat) : predict lin lars X ps t k = 0 := by
  have hF : (N - ps.length - 1) * (N * var (X t) - R) ≤ Real.log N * R := hF
  have hN0 : N ≠ 0 := by omega
  have hN1 : (0 : ℝ) < N - ps.length - 1 := by
    have : (ps.length : ℝ) + 1 < N := by exact_mod_cast hN
    linarith
  have hlog : 0 ≤ Real.log N := Real.log_natCast_nonneg N
  have hR0 : 0 ≤ R := hR ▸ Finset.sum_nonneg fun r _ => sq_nonneg _
  set cols := ps.map (fun p => scaled (X p)) with hcols
  set y := scaled (X t) with hy
  set W := weighted lin cols y with hW
  have hlen : cols.length = ps.length := by simp [hcols]
  have hWlen : W.length = ps.length := by rw [hW, weighted_length, hlen]
  have hWc : ∀ x ∈ W, ∑ r, x r = 0 := weighted_centred (scaled_centred X ps)
  have hs : 0 < scale (X t) ^ 2 := by have := scale_ne (X t); positivity
  have hnoise : noise lin W y = R / scale (X t) ^ 2 / (N - ps.length - 1) := by
    obtain ⟨b1, hb⟩ := hlin W y
    rw [intercept_zero hN0 (sum_scaled _) hWc hb] at hb
    unfold noise
    rw [rss_raw hN0 hlin hw hb, ← hR, hWlen]
  obtain ⟨b, l, hbl, hb0⟩ := hlars.start W y
  have hyy : ∑ r, y r ^ 2 = N * var (X t) / scale (X t) ^ 2 := by
    have hN' : (N : ℝ) ≠ 0 := by exact_mod_cast hN0
    have e : ∀ r, y r ^ 2 = (X t r - mean (X t)) ^ 2 / scale (X t) ^ 2 := fun r => by
      rw [← div_pow]; rfl
    simp only [e]
    rw [← Finset.sum_div]
    have : var (X t) = (∑ r, (X t r - mean (X t)) ^ 2) / N := rfl
    rw [this, mul_div_cancel₀ _ hN']
  have hzero : ∀ v : Nat → ℝ, (∀ k, k < W.length → v k = 0) → rss W y v = N * var (X t) / scale (X t) ^ 2 := by
    intro v hv
    rw [← hyy]
    unfold rss comb
    refine Finset.sum_congr rfl fun r _ => ?_
    rw [Finset.sum_eq_zero fun k hk => by rw [hv k (Finset.mem_range.1 hk), zero_mul], sub_zero]
  have hIC : larsIC lin lars W y = b := by
    unfold larsIC
    rw [hbl]
    simp only
    by_cases hn : noise lin W y = 0
    · exact if_pos hn
    rw [if_neg hn]
    have hRpos : 0 < R := lt_of_le_of_ne hR0 fun h => hn (by rw [hnoise, ← h]; simp)
    have hnpos : 0 < noise lin W y := by rw [hnoise]; positivity
    refine firstMin_head _ _ _ fun v hv => ?_
    have hd0 : dof W.length b = 0 := by
      unfold dof
      rw [Finset.card_eq_zero, Finset.filter_eq_empty_iff]
      intro k hk
      rw [not_not]
      exact hb0 k (Finset.mem_range.1 hk)
    unfold bic
    rw [hd0, hzero b hb0, Nat.cast_zero, mul_zero, add_zero]
    by_cases hd : dof W.length v = 0
    · have hv0 : ∀ k, k < W.length → v k = 0 := by
        intro k hk
        unfold dof at hd
        rw [Finset.card_eq_zero, Finset.filter_eq_empty_iff] at hd
        exact not_not.1 (hd (Finset.mem_range.2 hk))
      rw [hd, hzero v hv0, Nat.cast_zero, mul_zero, add_zero]
    have hd1 : (1 : ℝ) ≤ dof W.length v := by exact_mod_cast Nat.one_le_iff_ne_zero.2 hd
    obtain ⟨c0, u, -, hu⟩ := rss_any (lin := lin) (X := X) (ps := ps) (t := t) v
    have hrss : R / scale (X t) ^ 2 ≤ rss W y v := by
      rw [hu, hR]
      exact div_le_div_of_nonneg_right (least_rss hw c0 u) hs.le
    have h1 : R / scale (X t) ^ 2 / noise lin W y ≤ rss W y v / noise lin W y := by gcongr
    have h2 : Real.log N ≤ Real.log N * dof W.length v := le_mul_of_one_le_right hlog hd1
    have h3 : N * var (X t) / scale (X t) ^ 2 / noise lin W y ≤ R / scale (X t) ^ 2 / noise lin W y + Real.log N := by
      rw [div_le_iff₀ hnpos, add_mul, div_mul_cancel₀ _ hnpos.ne', hnoise]
      have e : R / scale (X t) ^ 2 + Real.log N * (R / scale (X t) ^ 2 / (N - ps.length - 1)) =
          (R + Real.log N * R / (N - ps.length - 1)) / scale (X t) ^ 2 := by
        have := hs.ne'
        have := hN1.ne'
        field_simp
      rw [e]
      refine div_le_div_of_nonneg_right ?_ hs.le
      rw [← sub_le_iff_le_add', le_div_iff₀ hN1]
      linarith
    linarith
  unfold predict
  refine if_neg fun hk => ?_
  rw [mem_kept] at hk
  refine hk.2.1 ?_
  rw [hIC]
  exact hb0 k (by rw [hWlen, ← hlen]; exact hk.1)

/-- The hypotheses of C260_drops hold for the first column as predictor of a column that is not correlated with it. -/
example {lin : Lin 4} {lars : Lars 4} (hlin : RightRegression lin) (hlars : RightPath lars) :
    predict lin lars (fun j => if j = 0 then ![1, 1, -1, -1] else ![1, -1, 1, -1]) [0] 1 0 = 0 := by
  refine C260_drops (b0 := 0) (w := fun _ => 0) hlin hlars (by simp) ?_ rfl ?_ 0
  · unfold SolvesRegression unexplained
    refine ⟨by simp [Fin.sum_univ_four], fun k hk => ?_⟩
    have : k = 0 := by simpa using hk
    subst this
    simp [Fin.sum_univ_four]
  · have hl : 0 ≤ Real.log 4 := Real.log_nonneg (by norm_num)
    unfold unexplained sampleVar sampleMean
    simp [Fin.sum_univ_four]
    norm_num
    linarith

end Sample

variable {Ω : Type*} [MeasurableSpace Ω] {P : Measure Ω} [IsProbabilityMeasure P] {R : Nat → Ω → Nat → ℝ} {n : Nat}

/-- A variable, less its mean, times another one from which it is independent, or times 1. -/
theorem product_centred (hR : IidRows P R) (h2 : ∀ j, j < n → Integrable (fun ω => R 0 ω j ^ 2) P) {t : Nat} (ht : t < n)
    (hind : ∀ j, j < n → j ≠ t → IndepFun (fun ω => R 0 ω t) (fun ω => R 0 ω j) P) {l : Nat} (hl : l ≠ t) :
    MemLp (fun ω => (R 0 ω t - meanOf P (fun ω => R 0 ω t)) * ext n (R 0 ω) l) 2 P ∧
      ∫ ω, (R 0 ω t - meanOf P (fun ω => R 0 ω t)) * ext n (R 0 ω) l ∂P = 0 := by
  have hm : ∀ j, Measurable (fun ω => R 0 ω j) := fun j => (measurable_pi_apply j).comp (hR.measurable 0)
  have hL : ∀ j, j < n → MemLp (fun ω => R 0 ω j) 2 P := fun j hj =>
    (memLp_two_iff_integrable_sq (hm j).aestronglyMeasurable).2 (h2 j hj)
  set μ := meanOf P (fun ω => R 0 ω t) with hμ
  have hc : MemLp (fun ω => R 0 ω t - μ) 2 P := (hL t ht).sub (memLp_const _)
  have hc0 : ∫ ω, (R 0 ω t - μ) ∂P = 0 := by
    rw [integral_sub ((hL t ht).integrable (by norm_num)) (integrable_const _)]
    simp [hμ, meanOf]
  by_cases hln : l < n
  · simp only [ext, hln, if_true]
    have hi : IndepFun (fun ω => R 0 ω t - μ) (fun ω => R 0 ω l) P :=
      (hind l hln hl).comp (φ := fun x => x - μ) (ψ := id) (measurable_id.sub_const μ) measurable_id
    have hi2 : IndepFun (fun ω => (R 0 ω t - μ) ^ 2) (fun ω => R 0 ω l ^ 2) P :=
      (hind l hln hl).comp (φ := fun x => (x - μ) ^ 2) (ψ := fun x => x ^ 2) ((measurable_id.sub_const μ).pow_const 2) (measurable_id.pow_const 2)
    constructor
    · have hmul : Measurable (fun ω => (R 0 ω t - μ) * R 0 ω l) := ((hm t).sub_const μ).mul (hm l)
      refine (memLp_two_iff_integrable_sq hmul.aestronglyMeasurable).2 ?_
      have := hi2.integrable_mul ((memLp_two_iff_integrable_sq hc.1).1 hc) (h2 l hln)
      refine this.congr (Eventually.of_forall fun ω => ?_)
      simp only [Pi.mul_apply]; ring
    · rw [hi.integral_fun_mul_eq_mul_integral hc.1 (hm l).aestronglyMeasurable, hc0, zero_mul]
  · simp only [ext, hln, if_false, mul_one]
    exact ⟨hc, hc0⟩

/-- The event that one of several averages is not small has a probability that tends to 0. -/
theorem prob_zero_of_union {A B : Nat → Set Ω} {C : Nat → Nat → Set Ω} {s : Finset Nat} (hB : Tendsto (fun N => P (B N)) atTop (𝓝 0))
    (hC : ∀ l ∈ s, Tendsto (fun N => P (C l N)) atTop (𝓝 0)) (h : ∀ᶠ N in atTop, A N ⊆ B N ∪ ⋃ l ∈ s, C l N) :
    Tendsto (fun N => P (A N)) atTop (𝓝 0) := by
  have hlim : Tendsto (fun N => P (B N) + ∑ l ∈ s, P (C l N)) atTop (𝓝 0) := by
    have := hB.add (tendsto_finsetSum s hC)
    simpa using this
  refine tendsto_of_tendsto_of_tendsto_of_le_of_le' tendsto_const_nhds hlim (Eventually.of_forall fun _ => bot_le) ?_
  filter_upwards [h] with N hN
  exact (measure_mono hN).trans ((measure_union_le _ _).trans (by gcongr; exact measure_biUnion_finset_le _ _))

/-- C260: if a variable is independent of each of the other ones, the probability that `fit` fails or reports any effect on that
variable tends to 0 with the number of rows, for whatever solvers. -/
theorem C260_row {cfg : Direct.Config} (hpk : cfg.pk = none) (hR : IidRows P R) (hreg : Regular P n (fun j ω => R 0 ω j)) {t : Nat} (ht : t < n)
    (hind : ∀ j, j < n → j ≠ t → IndepFun (fun ω => R 0 ω t) (fun ω => R 0 ω j) P) :
    Tendsto (fun N => P {ω | ¬ ∀ (lin : Lin N) (lars : Lars N), RightRegression lin → RightPath lars →
      ∃ o B, fitLasso cfg lin lars n (sampleOf R ω N) = .ok (o, B) ∧ ∀ j, B t j = 0}) atTop (𝓝 0) := by
  have h2 := hreg.square
  obtain ⟨c, hc, hform⟩ := form_bound_gap hR hreg
  set μ := meanOf P (fun ω => R 0 ω t) with hμ
  set κ := c / (2 * (n + 1)) with hκ
  have hκ0 : 0 < κ := by positivity
  refine prob_zero_of_union (s := (Finset.range (n + 1)).filter (fun l => l ≠ t))
    (B := fun N => {ω | c ≤ gap n P R N ω})
    (C := fun l N => {ω | κ * √(Real.log N / N) ≤ |(∑ r : Fin N, (R r ω t - μ) * ext n (R r ω) l) / N|}) (gap_prob hR h2 hc) (fun l hl => ?_) ?_
  · obtain ⟨-, hlt⟩ := Finset.mem_filter.1 hl
    obtain ⟨hL, h0⟩ := product_centred hR h2 ht hind hlt
    exact average_small hR (g := fun v => (v t - μ) * ext n v l) (((measurable_pi_apply t).sub_const μ).mul (ext_measurable n l)) hL h0 hκ0
  filter_upwards [eventually_gt_atTop (n + 1)] with N hN ω hω
  by_contra hgood
  simp only [Set.mem_union, Set.mem_ofPred_eq, Set.mem_iUnion, Finset.mem_filter, not_or, not_exists, not_le] at hgood
  obtain ⟨hg, hav⟩ := hgood
  refine hω fun lin lars hlin hlars => ?_
  have hq := hform N ω hg
  have hN0 : N ≠ 0 := by omega
  have hN' : (0 : ℝ) < N := by positivity
  have hN1 : (1 : ℝ) < N := by exact_mod_cast (by omega : 1 < N)
  have hlog := Real.log_pos hN1
  have hlogN : Real.log N ≤ N := (Real.log_le_sub_one_of_pos hN').trans (by linarith)
  obtain ⟨o, ho⟩ := C144_found hpk n (sampleOf R ω N)
  have hperm := fitOrder_perm ho
  have hnd : o.Nodup := hperm.nodup_iff.2 List.nodup_range
  have hlen : o.length = n := by rw [hperm.length_eq, List.length_range]
  have hany : ((List.range' 1 (o.length - 1)).any (fun i =>
      let m := (Direct.predictors cfg.pk (o.take i) (o.getD i 0)).length
      decide (m ≠ 0 ∧ N ≤ m + 1))) = false := by
    rw [List.any_eq_false]
    intro i _
    have : (Direct.predictors cfg.pk (o.take i) (o.getD i 0)).length ≤ n := by
      rw [hpk]
      simp only [Direct.predictors]
      rw [List.length_take]; omega
    simp only [decide_eq_true_eq]
    omega
  refine ⟨o, _, by unfold fitLasso; rw [ho]; simp only; exact if_neg (by rw [hany]; exact Bool.false_ne_true), fun j => ?_⟩
  obtain ⟨pre, post, hsplit⟩ := List.append_of_mem (hperm.mem_iff.2 (List.mem_range.2 ht))
  rw [Direct.estimateAdj_row (hsplit ▸ hnd) hsplit, hpk]
  simp only [Direct.predictors]
  by_cases hj : j ∈ pre
  swap
  · exact if_neg hj
  refine (if_pos hj).trans ?_
  have hndp : pre.Nodup := (List.nodup_append.1 (hsplit ▸ hnd)).1
  have hlt : ∀ q ∈ pre, q < n := fun q hq => List.mem_range.1 (hperm.mem_iff.1 (by rw [hsplit]; simp [hq]))
  have htp : t ∉ pre := by
    intro h
    rw [hsplit, List.nodup_append] at hnd
    exact hnd.2.2 t h t (by simp) rfl
  have hlenp : pre.length < n := by
    rw [← hlen, hsplit]; simp
  obtain ⟨b0, hb⟩ := hlin (pre.map (sampleOf R ω N)) (sampleOf R ω N t)
  refine C260_drops hlin hlars (by omega) hb rfl ?_ _
  set γ := κ * √(Real.log N / N) with hγ
  have hγ0 : 0 ≤ γ := by positivity
  have hex := explained_le (n := n) (R := R) (ω := ω) hN0 hc hq hndp hlt t μ γ (fun l hl => (hav l (by
    rcases hl with hl | rfl
    · exact ⟨Finset.mem_range.2 (by have := hlt l hl; omega), fun h => htp (h ▸ hl)⟩
    · exact ⟨Finset.mem_range.2 (by omega), by omega⟩)).le) hγ0 b0
      (lin (pre.map (sampleOf R ω N)) (sampleOf R ω N t))
  set Rs := ∑ r, unexplained (pre.map (sampleOf R ω N)) (sampleOf R ω N t) b0 (lin (pre.map (sampleOf R ω N)) (sampleOf R ω N t)) r ^ 2
  set Q := ∑ r : Fin N, (R r ω t - μ) ^ 2 with hQ
  have hE : N * (((n + 1) * γ) ^ 2 / c) = c * Real.log N / 4 := by
    have hp : 0 ≤ Real.log N / N := by positivity
    rw [hγ, hκ, mul_pow, mul_pow, Real.sq_sqrt hp]
    have := hc.ne'
    field_simp
    norm_num
  rw [hE] at hex
  have hQc : c * N ≤ Q := by
    have h := hq (fun k => if k = n then -μ else if k = t then 1 else 0)
    have h1 : (1 : ℝ) ≤ size n (fun k => if k = n then -μ else if k = t then 1 else 0) := by
      have := le_size (n := n) (fun k => if k = n then -μ else if k = t then 1 else 0) ht.le
      beta_reduce at this
      rw [if_neg (by omega), if_pos rfl, abs_one] at this
      exact this
    have hf : ∀ v : Nat → ℝ, form n (fun k => if k = n then -μ else if k = t then 1 else 0) v = v t - μ := by
      intro v
      rw [form_split, Finset.sum_eq_single t]
      · rw [if_pos rfl, if_neg (by omega), if_pos rfl]; ring
      · intro k hk hkt
        have := Finset.mem_range.1 hk
        rw [if_neg (by omega), if_neg hkt, zero_mul]
      · intro h; exact absurd (Finset.mem_range.2 ht) h
    simp only [hf, ← sq] at h
    rw [le_div_iff₀ hN'] at h
    have h3 : (1 : ℝ) ≤ size n (fun k => if k = n then -μ else if k = t then 1 else 0) ^ 2 := one_le_pow₀ h1
    refine le_trans ?_ h
    have := mul_le_mul_of_nonneg_left h3 hc.le
    rw [mul_one] at this
    exact mul_le_mul_of_nonneg_right this hN'.le
  have hvQ : N * sampleVar (sampleOf R ω N t) ≤ Q := by
    have hs : SolvesRegression (N := N) [] (sampleOf R ω N t) (sampleMean (sampleOf R ω N t)) (fun _ => 0) := by
      refine ⟨?_, fun k hk => absurd hk (by simp)⟩
      unfold unexplained sampleMean
      simp only [List.length_nil, Finset.range_zero, Finset.sum_empty, Finset.sum_sub_distrib, Finset.sum_const, Finset.card_univ,
        Fintype.card_fin, nsmul_eq_mul, sub_zero]
      field_simp
      ring
    have := least_rss hs μ (fun _ => 0)
    unfold unexplained at this
    simp only [List.length_nil, Finset.range_zero, Finset.sum_empty, sub_zero] at this
    refine le_trans (le_of_eq ?_) this
    unfold sampleVar
    field_simp
  have hm : (0 : ℝ) ≤ N - pre.length - 1 ∧ (N : ℝ) - pre.length - 1 ≤ N := by
    have h1 : (pre.length : ℝ) + 1 ≤ N := by exact_mod_cast (by omega : pre.length + 1 ≤ N)
    have h2 : (0 : ℝ) ≤ pre.length := Nat.cast_nonneg _
    constructor <;> linarith
  have a1 : N * sampleVar (sampleOf R ω N t) - Rs ≤ c * Real.log N / 4 := by linarith
  have a2 : (N - pre.length - 1 : ℝ) * (N * sampleVar (sampleOf R ω N t) - Rs) ≤ (N - pre.length - 1 : ℝ) * (c * Real.log N / 4) :=
    mul_le_mul_of_nonneg_left a1 hm.1
  have a3 : (N - pre.length - 1 : ℝ) * (c * Real.log N / 4) ≤ N * (c * Real.log N / 4) :=
    mul_le_mul_of_nonneg_right hm.2 (by positivity)
  have a4 : c * N / 2 ≤ Rs := by nlinarith
  have a5 : Real.log N * (c * N / 2) ≤ Real.log N * Rs := mul_le_mul_of_nonneg_left a4 hlog.le
  have a6 : 0 ≤ c * N * Real.log N := by positivity
  nlinarith

/-- Pairwise independent variables none of which is constant satisfy no linear relation. -/
theorem regular_of_independent {Y : Nat → Ω → ℝ} (hY : ∀ j, j < n → Measurable (Y j)) (h2 : ∀ j, j < n → Integrable (fun ω => Y j ω ^ 2) P)
    (hind : ∀ i j, i < n → j < n → i ≠ j → IndepFun (Y i) (Y j) P) (hc : ∀ j, j < n → ∀ a, ¬ ∀ᵐ ω ∂P, Y j ω = a) : Regular P n Y where
  square := h2
  free b b0 h j hj := by
    have hL : ∀ j, j < n → MemLp (Y j) 2 P := fun j hj => (memLp_two_iff_integrable_sq (hY j hj).aestronglyMeasurable).2 (h2 j hj)
    set Z : Nat → Ω → ℝ := fun j ω => b j * Y j ω with hZ
    have e : variance (∑ j ∈ Finset.range n, Z j) P = ∑ j ∈ Finset.range n, variance (Z j) P := IndepFun.variance_sum
      (fun j hj => (hL j (Finset.mem_range.1 hj)).const_mul (b j)) fun i hi j hj hij =>
        (hind i j (Finset.mem_range.1 hi) (Finset.mem_range.1 hj) hij).comp (φ := fun x => b i * x) (ψ := fun x => b j * x)
          (measurable_const_mul _) (measurable_const_mul _)
    have hz : variance (∑ j ∈ Finset.range n, Z j) P = 0 := by
      have hconst : (∑ j ∈ Finset.range n, Z j) =ᵐ[P] fun _ => -b0 := by
        filter_upwards [h] with ω hω
        rw [Finset.sum_apply]
        linarith
      rw [variance_congr hconst, variance_eq_integral aemeasurable_const]
      simp
    rw [hz] at e
    have hj0 := (Finset.sum_eq_zero_iff_of_nonneg fun j _ => variance_nonneg (Z j) P).1 e.symm j (Finset.mem_range.2 hj)
    by_contra hb
    have hv : variance (Z j) P = b j ^ 2 * variance (Y j) P := variance_const_mul _ _ _
    rw [hv] at hj0
    have hY0 : variance (Y j) P = 0 := (mul_eq_zero.1 hj0).resolve_left (pow_ne_zero 2 hb)
    refine hc j hj (∫ ω, Y j ω ∂P) ?_
    have hi : Integrable (fun ω => (Y j ω - ∫ x, Y j x ∂P) ^ 2) P := ((hL j hj).sub (memLp_const _)).integrable_sq
    rw [variance_eq_integral (hL j hj).1.aemeasurable, integral_eq_zero_iff_of_nonneg (fun ω => sq_nonneg _) hi] at hY0
    filter_upwards [hY0] with ω hω
    have := pow_eq_zero_iff (two_ne_zero) |>.1 hω
    linarith

/-- C260: for variables with finite variances, none constant, that are independent of each other, the probability that `fit` returns
the matrix without any edge tends to 1: the probability of anything else tends to 0. -/
theorem C260_unrelated {cfg : Direct.Config} (hpk : cfg.pk = none) (hR : IidRows P R) (h2 : ∀ j, j < n → Integrable (fun ω => R 0 ω j ^ 2) P)
    (hind : ∀ i j, i < n → j < n → i ≠ j → IndepFun (fun ω => R 0 ω i) (fun ω => R 0 ω j) P)
    (hc : ∀ j, j < n → ∀ a, ¬ ∀ᵐ ω ∂P, R 0 ω j = a) :
    Tendsto (fun N => P {ω | ¬ ∀ (lin : Lin N) (lars : Lars N), RightRegression lin → RightPath lars →
      ∃ o, fitLasso cfg lin lars n (sampleOf R ω N) = .ok (o, fun _ _ => 0)}) atTop (𝓝 0) := by
  have hreg : Regular P n (fun j ω => R 0 ω j) :=
    regular_of_independent (fun j _ => (measurable_pi_apply j).comp (hR.measurable 0)) h2 hind hc
  refine prob_zero_of_union (s := Finset.range n) (B := fun _ => ∅)
    (C := fun t N => {ω | ¬ ∀ (lin : Lin N) (lars : Lars N), RightRegression lin → RightPath lars →
      ∃ o B, fitLasso cfg lin lars n (sampleOf R ω N) = .ok (o, B) ∧ ∀ j, B t j = 0}) (by simp)
    (fun t ht => C260_row hpk hR hreg (Finset.mem_range.1 ht) fun j hj hjt => hind t j (Finset.mem_range.1 ht) hj fun h => hjt h.symm)
    ?_
  filter_upwards [eventually_gt_atTop (n + 1)] with N hN ω hω
  by_contra hgood
  simp only [Set.mem_union, Set.mem_empty_iff_false, false_or, Set.mem_iUnion, Set.mem_ofPred_eq, not_exists, not_not] at hgood
  refine hω fun lin lars hlin hlars => ?_
  obtain ⟨o, ho⟩ := C144_found hpk n (sampleOf R ω N)
  have hperm := fitOrder_perm ho
  have hlen : o.length = n := by rw [hperm.length_eq, List.length_range]
  have hany : ((List.range' 1 (o.length - 1)).any (fun i =>
      let m := (Direct.predictors cfg.pk (o.take i) (o.getD i 0)).length
      decide (m ≠ 0 ∧ N ≤ m + 1))) = false := by
    rw [List.any_eq_false]
    intro i _
    have : (Direct.predictors cfg.pk (o.take i) (o.getD i 0)).length ≤ n := by
      rw [hpk]
      simp only [Direct.predictors]
      rw [List.length_take]; omega
    simp only [decide_eq_true_eq]
    omega
  have hfit : fitLasso cfg lin lars n (sampleOf R ω N) =
      .ok (o, Direct.estimateAdj cfg.pk (fun ps t p => predict lin lars (sampleOf R ω N) ps t (ps.idxOf p)) o) := by
    unfold fitLasso
    rw [ho]
    simp only
    exact if_neg (by rw [hany]; exact Bool.false_ne_true)
  refine ⟨o, hfit.trans ?_⟩
  congr 2
  funext i j
  by_cases hi : i < n
  · obtain ⟨o', B', h1, h2⟩ := hgood i (Finset.mem_range.2 hi) lin lars hlin hlars
    rw [hfit] at h1
    obtain ⟨-, rfl⟩ := Prod.mk.inj (Except.ok.inj h1)
    exact h2 j
  · by_contra hne
    obtain ⟨⟨a, ha, -⟩, -⟩ := Direct.estimateAdj_apply _ _ _ _ _ hne
    obtain ⟨hlt, hget⟩ := List.getElem?_eq_some_iff.1 ha
    have : i ∈ o := hget ▸ List.getElem_mem hlt
    exact hi (List.mem_range.1 (hperm.mem_iff.1 this))

/-! ### Example -/

/-- The disturbances of C257 as data. -/
def threePair (j : Nat) (r : Fin (24 * 24)) : ℝ := if j = 0 then firstE r else secondE r

/-- The hypotheses of C260_unrelated, and so those of C260_row, hold for two independent variables with three values. -/
example {cfg : Direct.Config} (hpk : cfg.pk = none) :
    Tendsto (fun N => draws (24 * 24) {ω | ¬ ∀ (lin : Lin N) (lars : Lars N), RightRegression lin → RightPath lars →
      ∃ o, fitLasso cfg lin lars 2 (sampleOf (drawn threePair) ω N) = .ok (o, fun _ _ => 0)}) atTop (𝓝 0) := by
  have hid : Identified 2 threePair := by
    intro b b0 h j hj
    have h0 := h (finProdFinEquiv (0, 0))
    have h1 := h (finProdFinEquiv (5, 0))
    have h2 := h (finProdFinEquiv (0, 5))
    simp [threePair, firstE, secondE, threeN, Finset.sum_range_succ] at h0 h1 h2
    have : j = 0 ∨ j = 1 := by omega
    rcases this with rfl | rfl <;> linarith
  have hreg := drawn_regular hid
  refine C260_unrelated hpk (drawn_iid threePair) hreg.square (fun i j hi hj hij => ?_) fun j hj a h => ?_
  · have : (i = 0 ∧ j = 1) ∨ (i = 1 ∧ j = 0) := by omega
    rcases this with ⟨rfl, rfl⟩ | ⟨rfl, rfl⟩
    · exact three_indep 0
    · exact (three_indep 0).symm
  · have := hreg.free (fun k => if k = j then 1 else 0) (-a) (by
      filter_upwards [h] with ω hω
      rw [Finset.sum_eq_single j]
      · rw [if_pos rfl, hω]; ring
      · intro k _ hk; rw [if_neg hk, zero_mul]
      · intro hn; exact absurd (Finset.mem_range.2 hj) hn) j hj
    simp at this

end Verif.Pairwise
