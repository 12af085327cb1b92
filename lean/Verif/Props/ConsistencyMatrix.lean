import Verif.Proofs.ConsistencyMatrix
import Verif.Props.Consistency
import Verif.Proofs.DirectLingam

/-!
# The adjacency matrix of DirectLiNGAM on ever larger samples (C256)
-/
set_option linter.unusedSectionVars false
set_option autoImplicit false
namespace Verif.Pairwise
open MeasureTheory ProbabilityTheory Filter Topology Consistency

variable {Ω : Type*} [MeasurableSpace Ω] {P : Measure Ω} [IsProbabilityMeasure P] {R : Nat → Ω → Nat → ℝ} {n : Nat}

/-! ### Bilinearity of the covariance -/

theorem mean_lin {g h : Ω → ℝ} (hg : MemLp g 2 P) (hh : MemLp h 2 P) (s : ℝ) :
    meanOf P (fun ω => s * g ω + h ω) = s * meanOf P g + meanOf P h := by
  unfold meanOf
  rw [integral_add ((hg.integrable (by norm_num)).const_mul s) (hh.integrable (by norm_num)), integral_const_mul]

theorem cov_lin {f g h : Ω → ℝ} (hf : MemLp f 2 P) (hg : MemLp g 2 P) (hh : MemLp h 2 P) (s : ℝ) :
    covOf P f (fun ω => s * g ω + h ω) = s * covOf P f g + covOf P f h := by
  unfold covOf
  rw [mean_lin hg hh]
  have hf' : MemLp (fun ω => f ω - meanOf P f) 2 P := hf.sub (memLp_const _)
  have hg' : MemLp (fun ω => g ω - meanOf P g) 2 P := hg.sub (memLp_const _)
  have hh' : MemLp (fun ω => h ω - meanOf P h) 2 P := hh.sub (memLp_const _)
  have e : ∀ ω, (f ω - meanOf P f) * (s * g ω + h ω - (s * meanOf P g + meanOf P h)) =
      s * ((f ω - meanOf P f) * (g ω - meanOf P g)) + (f ω - meanOf P f) * (h ω - meanOf P h) := fun ω => by ring
  simp only [e]
  have i1 : Integrable (fun ω => (f ω - meanOf P f) * (g ω - meanOf P g)) P := hf'.integrable_mul hg'
  have i2 : Integrable (fun ω => (f ω - meanOf P f) * (h ω - meanOf P h)) P := hf'.integrable_mul hh'
  rw [integral_add (i1.const_mul s) i2, integral_const_mul]

theorem memLp_list {l : List Nat} {Y : Nat → Ω → ℝ} (b : Nat → ℝ) (hY : ∀ q ∈ l, MemLp (Y q) 2 P) :
    MemLp (fun ω => (l.map (fun q => b q * Y q ω)).sum) 2 P := by
  induction l with
  | nil => simp
  | cons q l ih =>
    simp only [List.map_cons, List.sum_cons]
    exact ((hY q (by simp)).const_mul (b q)).add (ih fun q hq => hY q (by simp [hq]))

theorem cov_list {f h : Ω → ℝ} {l : List Nat} {Y : Nat → Ω → ℝ} (b : Nat → ℝ) (hf : MemLp f 2 P) (hh : MemLp h 2 P)
    (hY : ∀ q ∈ l, MemLp (Y q) 2 P) :
    covOf P f (fun ω => (l.map (fun q => b q * Y q ω)).sum + h ω) = (l.map (fun q => b q * covOf P f (Y q))).sum + covOf P f h := by
  induction l with
  | nil => simp
  | cons q l ih =>
    have h1 := cov_lin hf (hY q (by simp)) ((memLp_list b fun x hx => hY x (List.mem_cons_of_mem _ hx)).add hh) (b q)
    simp only [List.map_cons, List.sum_cons, add_assoc]
    refine h1.trans ?_
    have h2 := ih fun q hq => hY q (by simp [hq])
    congr 1

/-- C256: in a linear model with uncorrelated disturbances the coefficients of the model are those of the regressions. -/
theorem C256_model {Y e : Nat → Ω → ℝ} {o : List Nat} {B : Nat → Nat → ℝ} (hY : ∀ q ∈ o, MemLp (Y q) 2 P) (hnd : o.Nodup)
    (h : LinearModel P Y o B e) : PopulationMatrix P Y o B := by
  have he : ∀ pre t post, o = pre ++ t :: post → e t = fun ω => Y t ω - (pre.map (fun q => B t q * Y q ω)).sum := by
    intro pre t post ho
    funext ω
    rw [h.eq pre t post ho ω]; ring
  have heL : ∀ t ∈ o, MemLp (e t) 2 P := by
    intro t ht
    obtain ⟨pre, post, ho⟩ := List.append_of_mem ht
    rw [he pre t post ho]
    exact (hY t ht).sub (memLp_list _ fun q hq => hY q (by rw [ho]; simp [hq]))
  have key : ∀ (m : Nat) (pre : List Nat) (p : Nat) (post : List Nat), pre.length = m → o = pre ++ p :: post →
      ∀ t ∈ post, covOf P (e t) (Y p) = 0 := by
    intro m
    induction m using Nat.strong_induction_on with
    | _ m ih =>
      intro pre p post hm ho t ht
      have hto : t ∈ o := by rw [ho]; simp [ht]
      have hpo : p ∈ o := by rw [ho]; simp
      have hpt : t ≠ p := by
        rw [ho, List.nodup_append] at hnd
        have := (List.nodup_cons.1 hnd.2.1).1
        exact fun h => this (h ▸ ht)
      have e1 : Y p = fun ω => (pre.map (fun q => B p q * Y q ω)).sum + e p ω := funext fun ω => h.eq pre p post ho ω
      rw [e1, cov_list (B p) (heL t hto) (heL p hpo) fun q hq => hY q (by rw [ho]; simp [hq]), h.uncorrelated t hto p hpo hpt, add_zero]
      refine List.sum_eq_zero fun v hv => ?_
      obtain ⟨q, hq, rfl⟩ := List.mem_map.1 hv
      obtain ⟨pre', post', hpre⟩ := List.append_of_mem hq
      have := ih pre'.length (by rw [← hm, hpre]; simp) pre' q (post' ++ p :: post) rfl (by rw [ho, hpre]; simp) t (by simp [ht])
      rw [this, mul_zero]
  refine ⟨fun pre t post ho p hp => ?_, h.zero⟩
  rw [← he pre t post ho]
  obtain ⟨pre', post', hpre⟩ := List.append_of_mem hp
  exact key pre'.length pre' p (post' ++ t :: post) rfl (by rw [ho, hpre]; simp) t (by simp)

/-! ### Convergence of the matrix -/

/-- C256: whichever order the variables are put in, the estimated matrix converges almost surely to the coefficients of the
regressions in that order, whatever solver of the least squares problems and whatever correct Lasso path is used. -/
theorem C256_given_order (hR : IidRows P R) (hreg : Regular P n (fun j ω => R 0 ω j)) {o : List Nat} (hperm : o.Perm (List.range n))
    {B : Nat → Nat → ℝ} (hB : PopulationMatrix P (fun j ω => R 0 ω j) o B) :
    ∀ᵐ ω ∂P, ∀ (lin : ∀ N, Lin N) (lars : ∀ N, Lars N), (∀ N, RightRegression (lin N)) → (∀ N, RightPath (lars N)) → ∀ i j,
      Tendsto (fun N => Direct.estimateAdj none (fun ps t p => predict (lin N) (lars N) (sampleOf R ω N) ps t (ps.idxOf p)) o i j)
        atTop (𝓝 (B i j)) := by
  have h2 := hreg.square
  have hnd : o.Nodup := hperm.nodup_iff.2 List.nodup_range
  have hlt : ∀ q ∈ o, q < n := fun q hq => List.mem_range.1 (hperm.mem_iff.1 hq)
  filter_upwards [ae_good hR h2] with ω hω lin lars hlin hlars i j
  by_cases hex : ∃ pre post, o = pre ++ i :: post ∧ j ∈ pre
  · obtain ⟨pre, post, ho, hj⟩ := hex
    have hsub : ∀ q ∈ pre, q ∈ o := fun q hq => by rw [ho]; simp [hq]
    have hio : i ∈ o := by rw [ho]; simp
    have hndp : pre.Nodup := by rw [ho, List.nodup_append] at hnd; exact hnd.1
    have hip : i ∉ pre := by
      rw [ho, List.nodup_append] at hnd
      exact fun h => hnd.2.2 i h i (by simp) rfl
    have hrow : ∀ N, Direct.estimateAdj none (fun ps t p => predict (lin N) (lars N) (sampleOf R ω N) ps t (ps.idxOf p)) o i j =
        predict (lin N) (lars N) (sampleOf R ω N) pre i (pre.idxOf j) := by
      intro N
      rw [Direct.estimateAdj_row (ho ▸ hnd) ho]
      simp only [Direct.predictors, hj, if_true]
    simp only [hrow]
    set f : Ω → ℝ := fun x => R 0 x i - (pre.map (fun q => B i q * R 0 x q)).sum with hf
    have hYL : ∀ q, q < n → MemLp (fun x => R 0 x q) 2 P := fun q hq => by
      have := form_sq hR h2 (fun k => if k = q then 1 else 0)
      simpa only [form_single hq] using this
    have hfL : MemLp f 2 P := (hYL i (hlt i hio)).sub (memLp_list _ fun q hq => hYL q (hlt q (hsub q hq)))
    set β : Nat → ℝ := fun k => if k = n then meanOf P f else if k ∈ pre then B i k else 0 with hβ
    have hform : ∀ v : Nat → ℝ, form n β v = meanOf P f + (pre.map (fun q => B i q * v q)).sum := by
      intro v
      rw [form_split]
      congr 1
      · rw [hβ]; simp
      · rw [← List.sum_toFinset _ hndp]
        have hs : pre.toFinset ⊆ Finset.range n := fun q hq => Finset.mem_range.2 (hlt q (hsub q (by simpa using hq)))
        rw [← Finset.sum_subset hs (f := fun k => β k * v k)]
        · refine Finset.sum_congr rfl fun q hq => ?_
          have hq : q ∈ pre := by simpa using hq
          have := hlt q (hsub q hq)
          rw [hβ]
          beta_reduce
          rw [if_neg (by omega), if_pos hq]
        · intro k hk hkp
          have hkp : k ∉ pre := by simpa using hkp
          have := Finset.mem_range.1 hk
          rw [hβ]
          beta_reduce
          rw [if_neg (by omega), if_neg hkp, zero_mul]
    have hjn := hlt j (hsub j hj)
    have hβj : β j = B i j := by
      rw [hβ]
      beta_reduce
      rw [if_neg (by omega), if_pos hj]
    rw [← hβj]
    have hres : ∀ x, R 0 x i - form n β (R 0 x) = f x - meanOf P f := fun x => by rw [hform, hf]; ring
    have hint : ∫ x, (f x - meanOf P f) ∂P = 0 := by
      rw [integral_sub (hfL.integrable (by norm_num)) (integrable_const _)]
      simp [meanOf]
    refine row_tendsto hR hreg hω hndp (fun q hq => hlt q (hsub q hq)) (hlt i hio) hip (fun k hk hkn => ?_) (fun l hl => ?_) hlin hlars hj
    · rw [hβ]
      beta_reduce
      rw [if_neg hkn, if_neg hk]
    · simp only [hres]
      rcases hl with hl | rfl
      · have hln := hlt l (hsub l hl)
        have hc := hB.row pre i post ho l hl
        have e1 : ∀ x, (f x - meanOf P f) * ext n (R 0 x) l = (f x - meanOf P f) * (R 0 x l - meanOf P (fun x => R 0 x l)) +
            meanOf P (fun x => R 0 x l) * (f x - meanOf P f) := fun x => by rw [ext, if_pos hln]; ring
        simp only [e1]
        have i1 : MemLp (fun x => f x - meanOf P f) 2 P := hfL.sub (memLp_const _)
        have i2 : MemLp (fun x => R 0 x l - meanOf P (fun x => R 0 x l)) 2 P := (hYL l hln).sub (memLp_const _)
        have i3 : Integrable (fun x => (f x - meanOf P f) * (R 0 x l - meanOf P (fun x => R 0 x l))) P := i1.integrable_mul i2
        rw [integral_add i3 ((i1.integrable (by norm_num)).const_mul _), integral_const_mul, hint, mul_zero, add_zero]
        exact hc
      · have e1 : ∀ x, (f x - meanOf P f) * ext l (R 0 x) l = f x - meanOf P f := fun x => by simp [ext]
        simp only [e1]
        exact hint
  · rw [hB.zero i j hex]
    have hz : ∀ N, Direct.estimateAdj none (fun ps t p => predict (lin N) (lars N) (sampleOf R ω N) ps t (ps.idxOf p)) o i j = 0 := by
      intro N
      by_contra hne
      obtain ⟨⟨a, ha, hja⟩, -⟩ := Direct.estimateAdj_apply _ _ _ _ _ hne
      refine hex ⟨o.take a, o.drop (a + 1), ?_, hja⟩
      obtain ⟨hlt, hget⟩ := List.getElem?_eq_some_iff.1 ha
      rw [← hget, List.cons_getElem_drop_succ, List.take_append_drop]
    simp only [hz]
    exact tendsto_const_nhds

/-- C256: for independent rows from one distribution, `fit` almost surely finds the order of the distribution on all large
samples, and its adjacency matrix converges to the coefficients of the regressions in that order. -/
theorem C256_fit {cfg : Direct.Config} (hpk : cfg.pk = none) (hR : IidRows P R) (hreg : Regular P n (fun j ω => R 0 ω j)) {o : List Nat}
    (ho : PopulationOrder P (fun j ω => R 0 ω j) (List.range n) o) {B : Nat → Nat → ℝ} (hB : PopulationMatrix P (fun j ω => R 0 ω j) o B) :
    ∀ᵐ ω ∂P, ∀ (lin : ∀ N, Lin N) (lars : ∀ N, Lars N), (∀ N, RightRegression (lin N)) → (∀ N, RightPath (lars N)) →
      ∃ BN : Nat → Nat → Nat → ℝ, (∀ᶠ N in atTop, fitLasso cfg (lin N) (lars N) n (sampleOf R ω N) = .ok (o, BN N)) ∧
        ∀ i j, Tendsto (fun N => BN N i j) atTop (𝓝 (B i j)) := by
  have h1 := C254_order hpk hR hreg ho
  have hperm : o.Perm (List.range n) := by
    obtain ⟨ω, hω⟩ := (large_samples hR hreg ho).exists
    obtain ⟨N, hN⟩ := hω.exists
    exact pairwise_perm hN.2 List.nodup_range
  filter_upwards [h1, C256_given_order hR hreg hperm hB] with ω hω hm lin lars hlin hlars
  refine ⟨_, ?_, hm lin lars hlin hlars⟩
  filter_upwards [hω, eventually_gt_atTop (n + 1)] with N hN hbig
  unfold fitLasso
  rw [hN]
  have hlen : o.length = n := by rw [hperm.length_eq, List.length_range]
  have hany : ((List.range' 1 (o.length - 1)).any (fun i =>
      let m := (Direct.predictors cfg.pk (o.take i) (o.getD i 0)).length
      decide (m ≠ 0 ∧ N ≤ m + 1))) = false := by
    rw [List.any_eq_false]
    intro i _
    have : (Direct.predictors cfg.pk (o.take i) (o.getD i 0)).length ≤ n := by
      rw [hpk]
      simp only [Direct.predictors]
      rw [List.length_take]; omega
    simp only [decide_eq_true_eq]
    omega
  rw [hpk] at hany
  simp only [hpk]
  exact if_neg (by rw [hany]; exact Bool.false_ne_true)

/-- C256: for data from a linear model whose order is the one of the distribution, the entries for the effects that are there
have the right sign on all large samples, and the other entries become as small as wanted. -/
theorem C256_recovers {cfg : Direct.Config} (hpk : cfg.pk = none) (hR : IidRows P R) (hreg : Regular P n (fun j ω => R 0 ω j)) {o : List Nat}
    (ho : PopulationOrder P (fun j ω => R 0 ω j) (List.range n) o) {B : Nat → Nat → ℝ} {e : Nat → Ω → ℝ}
    (hmod : LinearModel P (fun j ω => R 0 ω j) o B e) :
    ∀ᵐ ω ∂P, ∀ (lin : ∀ N, Lin N) (lars : ∀ N, Lars N), (∀ N, RightRegression (lin N)) → (∀ N, RightPath (lars N)) → ∀ δ, 0 < δ →
      ∀ᶠ N in atTop, ∃ B', fitLasso cfg (lin N) (lars N) n (sampleOf R ω N) = .ok (o, B') ∧ ∀ i j, i < n → j < n →
        |B' i j - B i j| < δ ∧ (0 < B i j → 0 < B' i j) ∧ (B i j < 0 → B' i j < 0) := by
  have h2 := hreg.square
  have hperm : o.Perm (List.range n) := by
    obtain ⟨ω, hω⟩ := (large_samples hR hreg ho).exists
    obtain ⟨N, hN⟩ := hω.exists
    exact pairwise_perm hN.2 List.nodup_range
  have hB := C256_model (fun q hq => by
    have := form_sq hR h2 (fun k => if k = q then 1 else 0)
    simpa only [form_single (List.mem_range.1 (hperm.mem_iff.1 hq))] using this) (hperm.nodup_iff.2 List.nodup_range) hmod
  filter_upwards [C256_fit hpk hR hreg ho hB] with ω hω lin lars hlin hlars δ hδ
  obtain ⟨BN, hfit, ht⟩ := hω lin lars hlin hlars
  have hall : ∀ᶠ N in atTop, ∀ i ∈ Finset.range n, ∀ j ∈ Finset.range n,
      |BN N i j - B i j| < δ ∧ (0 < B i j → 0 < BN N i j) ∧ (B i j < 0 → BN N i j < 0) := by
    rw [eventually_all_finset]
    intro i _
    rw [eventually_all_finset]
    intro j _
    have h3 : ∀ᶠ N in atTop, |BN N i j - B i j| < δ := by
      have h := ((ht i j).sub_const (B i j)).abs
      rw [sub_self, abs_zero] at h
      exact h.eventually_lt_const hδ
    have h4 : ∀ᶠ N in atTop, 0 < B i j → 0 < BN N i j := by
      by_cases h : 0 < B i j
      · filter_upwards [(ht i j).eventually_const_lt h] with N hN _ using hN
      · exact Eventually.of_forall fun _ h' => absurd h' h
    have h5 : ∀ᶠ N in atTop, B i j < 0 → BN N i j < 0 := by
      by_cases h : B i j < 0
      · filter_upwards [(ht i j).eventually_lt_const h] with N hN _ using hN
      · exact Eventually.of_forall fun _ h' => absurd h' h
    filter_upwards [h3, h4, h5] with N a b c
    exact ⟨a, b, c⟩
  filter_upwards [hfit, hall] with N h3 h4
  exact ⟨BN N, h3, fun i j hi hj => h4 i (Finset.mem_range.2 hi) j (Finset.mem_range.2 hj)⟩

/-! ### Examples -/

/-- The matrix of the example: the effect of the second variable on the first one. -/
noncomputable def coinMatrix (i j : Nat) : ℝ := if i = 0 ∧ j = 1 then √2 / 2 else 0

/-- The disturbances of the example. -/
noncomputable def coinNoise (j : Nat) (i : Fin 4) : ℝ := if j = 0 then witnessX 0 i - √2 / 2 * witnessX 1 i else witnessX 1 i

theorem coin_model : LinearModel (draws 4) (fun j ω => drawn witnessX 0 ω j) [1, 0] coinMatrix (fun j ω => coinNoise j (ω 0)) where
  eq pre t post ho ω := by
    match pre, ho with
    | [], ho =>
      have ht : t = 1 := by simpa using (List.cons.inj ho).1.symm
      subst ht
      simp [drawn, coinNoise]
    | [a], ho =>
      simp only [List.cons_append, List.nil_append, List.cons.injEq] at ho
      obtain ⟨rfl, rfl, -⟩ := ho
      simp [drawn, coinNoise, coinMatrix]
    | a :: b :: l, ho =>
      have := congrArg List.length ho
      simp at this
  zero i j h := by
    unfold coinMatrix
    refine if_neg fun hij => h ⟨[1], [], ?_, ?_⟩
    · rw [hij.1]; rfl
    · rw [hij.2]; simp
  uncorrelated s hs t ht hst := by
    have key : covOf (draws 4) (fun ω => coinNoise 1 (ω 0)) (fun ω => coinNoise 0 (ω 0)) = 0 ∧
        covOf (draws 4) (fun ω => coinNoise 0 (ω 0)) (fun ω => coinNoise 1 (ω 0)) = 0 := by
      rw [cov_drawn, cov_drawn]
      unfold sampleMean
      constructor <;> simp [Fin.sum_univ_four, coinNoise, witnessX, causeZ, effectW] <;> ring
    simp only [List.mem_cons, List.not_mem_nil, or_false] at hs ht
    rcases hs with rfl | rfl <;> rcases ht with rfl | rfl
    · exact absurd rfl hst
    · exact key.1
    · exact key.2
    · exact absurd rfl hst

/-- The hypotheses of C256_recovers (and so of C256_fit, C256_given_order and C256_model) hold for an effect that adds one coin to
another. -/
example {cfg : Direct.Config} (hpk : cfg.pk = none) :
    ∀ᵐ ω ∂(draws 4), ∀ (lin : ∀ N, Lin N) (lars : ∀ N, Lars N), (∀ N, RightRegression (lin N)) → (∀ N, RightPath (lars N)) →
      ∀ᶠ N in atTop, ∃ B', fitLasso cfg (lin N) (lars N) 2 (sampleOf (drawn witnessX) ω N) = .ok ([1, 0], B') ∧
        |B' 0 1 - √2 / 2| < 1 / 100 ∧ 0 < B' 0 1 := by
  have h := C256_recovers hpk (drawn_iid witnessX) (drawn_regular witness_identified)
    (order_drawn witness_order List.nodup_range (indep_range witness_identified)) coin_model
  filter_upwards [h] with ω hω lin lars hlin hlars
  filter_upwards [hω lin lars hlin hlars (1 / 100) (by norm_num)] with N ⟨B', h1, h2⟩
  obtain ⟨a, b, -⟩ := h2 0 1 (by norm_num) (by norm_num)
  have e : coinMatrix 0 1 = √2 / 2 := by simp [coinMatrix]
  rw [e] at a b
  exact ⟨B', h1, a, b (by positivity)⟩

/-- Solvers as required exist for every number of rows. -/
example : ∃ (lin : ∀ N, Lin N) (lars : ∀ N, Lars N), (∀ N, RightRegression (lin N)) ∧ ∀ N, RightPath (lars N) := by
  choose lin lars h using exists_oracles
  exact ⟨lin, lars, fun N => (h N).1, fun N => (h N).2⟩

end Verif.Pairwise
