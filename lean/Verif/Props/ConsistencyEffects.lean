import Verif.Proofs.ConsistencyEffects

/-!
# Matrices in any causal order and total effects on ever larger samples (C258, C259)
-/
set_option linter.unusedSectionVars false
set_option autoImplicit false
namespace Verif.Pairwise
open MeasureTheory ProbabilityTheory Filter Topology Consistency

variable {Ω : Type*} [MeasurableSpace Ω] {P : Measure Ω} [IsProbabilityMeasure P] {R : Nat → Ω → Nat → ℝ} {n : Nat}

theorem finite_orders (B : Nat → Nat → ℝ) : {o | CausalOrder n B o}.Finite := by
  refine Set.Finite.subset (List.finite_toSet ((List.range n).permutations)) fun o ho => ?_
  exact List.mem_permutations.2 ho.1

/-- C258: whatever finds the order, and even if it finds another one on every sample: if the orders on large samples are causal
orders of the model, and the prior knowledge (if any) forbids none of its edges, the estimated matrix converges to that of the model. -/
theorem C258_any_order (hR : IidRows P R) (hreg : Regular P n (fun j ω => R 0 ω j)) {o : List Nat} (hperm : o.Perm (List.range n))
    {B : Nat → Nat → ℝ} {e : Nat → Ω → ℝ} (hmod : LinearModel P (fun j ω => R 0 ω j) o B e) :
    ∀ᵐ ω ∂P, ∀ (lin : ∀ N, Lin N) (lars : ∀ N, Lars N), (∀ N, RightRegression (lin N)) → (∀ N, RightPath (lars N)) →
      ∀ (pk : Option Direct.PK), (∀ q, pk = some q → ∀ i j, B i j ≠ 0 → q i j ≠ 0) →
      ∀ os : Nat → List Nat, (∀ᶠ N in atTop, CausalOrder n B (os N)) → ∀ i j,
        Tendsto (fun N => Direct.estimateAdj pk (fun ps t p => predict (lin N) (lars N) (sampleOf R ω N) ps t (ps.idxOf p)) (os N) i j)
          atTop (𝓝 (B i j)) := by
  filter_upwards [ae_good hR hreg.square] with ω hω lin lars hlin hlars pk hpk os hos i j
  exact tendsto_choice (finite_orders B) (f := fun o N =>
    Direct.estimateAdj pk (fun ps t p => predict (lin N) (lars N) (sampleOf R ω N) ps t (ps.idxOf p)) o i j)
    (fun o' ho' => order_tendsto hR hreg hω (reorder hmod hperm ho') ho' hpk hlin hlars i j) hos

/-- C258: DirectLiNGAM with prior knowledge that forbids no edge of the model: if the orders found on large samples are causal
orders of the model, the matrices converge to that of the model. -/
theorem C258_prior_knowledge {cfg : Direct.Config} (hR : IidRows P R) (hreg : Regular P n (fun j ω => R 0 ω j)) {o : List Nat}
    (hperm : o.Perm (List.range n)) {B : Nat → Nat → ℝ} {e : Nat → Ω → ℝ} (hmod : LinearModel P (fun j ω => R 0 ω j) o B e)
    (hpk : ∀ q, cfg.pk = some q → ∀ i j, B i j ≠ 0 → q i j ≠ 0) :
    ∀ᵐ ω ∂P, ∀ (lin : ∀ N, Lin N) (lars : ∀ N, Lars N), (∀ N, RightRegression (lin N)) → (∀ N, RightPath (lars N)) →
      ∀ (os : Nat → List Nat) (BN : Nat → Nat → Nat → ℝ),
      (∀ᶠ N in atTop, fitLasso cfg (lin N) (lars N) n (sampleOf R ω N) = .ok (os N, BN N) ∧ CausalOrder n B (os N)) →
      ∀ i j, Tendsto (fun N => BN N i j) atTop (𝓝 (B i j)) := by
  filter_upwards [C258_any_order hR hreg hperm hmod] with ω hω lin lars hlin hlars os BN hfit i j
  refine (hω lin lars hlin hlars cfg.pk hpk os (hfit.mono fun N h => h.2) i j).congr' ?_
  filter_upwards [hfit] with N hN
  have h := hN.1
  unfold fitLasso at h
  split at h
  · cases h
  · split_ifs at h
    simp only [Except.ok.injEq, Prod.mk.injEq] at h
    rw [← h.1, ← h.2]

/-! ### Total effects -/

/-- C259: `estimate_total_effect` converges to the total effect of the model if on large samples the estimated parents of the
source include its causes and all come before it in some causal order; the order of source and target does not matter. -/
theorem C259_regression (hR : IidRows P R) (hreg : Regular P n (fun j ω => R 0 ω j)) {o : List Nat} (hperm : o.Perm (List.range n))
    {B : Nat → Nat → ℝ} {e : Nat → Ω → ℝ} (hmod : LinearModel P (fun j ω => R 0 ω j) o B e) :
    ∀ᵐ ω ∂P, ∀ lin : ∀ N, Lin N, (∀ N, RightRegression (lin N)) → ∀ (src dst : Nat), src < n → dst < n →
      ∀ T : Nat → ℝ, TotalEffectOf n B src T → ∀ BN : Nat → Nat → Nat → ℝ,
      (∀ᶠ N in atTop, (∀ j, j < n → B src j ≠ 0 → BN N src j ≠ 0) ∧
        ∃ pre post, CausalOrder n B (pre ++ src :: post) ∧ ∀ j, j < n → BN N src j ≠ 0 → j ∈ pre) →
      Tendsto (fun N => totalEffect (lin N) n (sampleOf R ω N) (BN N) src dst) atTop (𝓝 (T dst)) := by
  filter_upwards [ae_good hR hreg.square] with ω hω lin hlin src dst hsrc hdst T hT BN hBN
  set S : Set (List Nat) := {l | l.Sublist (List.range n) ∧ (∀ j, j < n → B src j ≠ 0 → j ∈ l) ∧
    ∃ pre post, CausalOrder n B (pre ++ src :: post) ∧ ∀ j ∈ l, j ∈ pre} with hS
  have hfin : S.Finite := Set.Finite.subset (List.finite_toSet (List.range n).sublists) fun l hl => List.mem_sublists.2 hl.1
  refine tendsto_choice hfin (f := fun l N => lin N ((src :: l).map (sampleOf R ω N)) (sampleOf R ω N dst) 0)
    (c := fun N => (List.range n).filter (fun j => decide (0 < |BN N src j|))) (fun l hl => ?_) ?_
  · obtain ⟨h1, h2, pre, post, h3, h4⟩ := hl
    have hnd := causal_nodup h3
    have hsl : src ∉ l := fun h => by
      rw [List.nodup_append] at hnd
      exact hnd.2.2 src (h4 src h) src (by simp) rfl
    have hlnd : l.Nodup := h1.nodup List.nodup_range
    have hltl : ∀ q ∈ src :: l, q < n := by
      intro q hq
      rcases List.mem_cons.1 hq with rfl | hq
      · exact hsrc
      · exact List.mem_range.1 (h1.subset hq)
    obtain ⟨b, hb⟩ := exists_population hR hreg (List.nodup_cons.2 ⟨hsl, hlnd⟩) hltl dst hdst
    have hpar : ∀ q, B src q ≠ 0 → q ∈ l := fun q hq => by
      obtain ⟨pre', post', hp, hj⟩ := h3.2 src q hq
      refine h2 q (List.mem_range.1 (h3.1.mem_iff.1 ?_)) hq
      rw [hp]; simp [hj]
    have hT' := effect_coefficient hR hreg (reorder hmod hperm h3) h3 hdst rfl hlnd h4 hpar hT hb
    rw [← hT']
    have := lin_tendsto hR hreg hω (List.nodup_cons.2 ⟨hsl, hlnd⟩) hltl hdst hb hlin (p := src) (by simp)
    simpa using this
  · filter_upwards [hBN] with N ⟨h1, pre, post, h2, h3⟩
    refine ⟨List.filter_sublist, fun j hj hB => ?_, pre, post, h2, fun j hj => ?_⟩
    · exact List.mem_filter.2 ⟨List.mem_range.2 hj, by simpa using h1 j hj hB⟩
    · obtain ⟨h4, h5⟩ := List.mem_filter.1 hj
      exact h3 j (List.mem_range.1 h4) (by simpa using h5)

/-- C259: after `fit` on data from a linear model whose order is the one of the distribution, both ways to get total effects (the
regression of `estimate_total_effect` and the paths of `calculate_total_effect`) are right up to any deviation on all large samples. -/
theorem C259_fit {cfg : Direct.Config} (hpk : cfg.pk = none) (hR : IidRows P R) (hreg : Regular P n (fun j ω => R 0 ω j)) {o : List Nat}
    (ho : PopulationOrder P (fun j ω => R 0 ω j) (List.range n) o) {B : Nat → Nat → ℝ} {e : Nat → Ω → ℝ}
    (hmod : LinearModel P (fun j ω => R 0 ω j) o B e) :
    ∀ᵐ ω ∂P, ∀ (lin : ∀ N, Lin N) (lars : ∀ N, Lars N), (∀ N, RightRegression (lin N)) → (∀ N, RightPath (lars N)) →
      ∀ T : Nat → Nat → ℝ, (∀ src, src < n → TotalEffectOf n B src (T src)) → ∀ δ, 0 < δ → ∀ src dst, src < n → dst < n → src ≠ dst →
      ∀ᶠ N in atTop, ∃ B' v, fitLasso cfg (lin N) (lars N) n (sampleOf R ω N) = .ok (o, B') ∧
        |totalEffect (lin N) n (sampleOf R ω N) B' src dst - T src dst| < δ ∧
        Paths.calcTotalEffect n (fun i j => some (B' i j)) src dst = some (.ok (some v)) ∧ |v - T src dst| < δ := by
  have hperm : o.Perm (List.range n) := by
    obtain ⟨ω, hω⟩ := (large_samples hR hreg ho).exists
    obtain ⟨N, hN⟩ := hω.exists
    exact pairwise_perm hN.2 List.nodup_range
  have hnd : o.Nodup := hperm.nodup_iff.2 List.nodup_range
  have hco : CausalOrder n B o := ⟨hperm, fun i j hB => by by_contra hne; exact hB (hmod.zero i j hne)⟩
  have hB := C256_model (fun q hq => memLp_col hR hreg (List.mem_range.1 (hperm.mem_iff.1 hq))) hnd hmod
  filter_upwards [C256_fit hpk hR hreg ho hB, C259_regression hR hreg hperm hmod] with ω h1 h2 lin lars hlin hlars T hT δ hδ src dst hsrc hdst hne
  obtain ⟨BN, hfit, hBN⟩ := h1 lin lars hlin hlars
  have hcoN : ∀ᶠ N in atTop, CausalOrder n (BN N) o := by
    filter_upwards [hfit] with N hN
    refine ⟨hperm, fun i j hij => ?_⟩
    unfold fitLasso at hN
    split at hN
    · cases hN
    · split_ifs at hN
      simp only [Except.ok.injEq, Prod.mk.injEq] at hN
      obtain ⟨h3, h4⟩ := hN
      subst h3
      rw [← h4] at hij
      obtain ⟨⟨a, ha, hja⟩, -⟩ := Direct.estimateAdj_apply _ _ _ _ _ hij
      obtain ⟨hlt, hget⟩ := List.getElem?_eq_some_iff.1 ha
      exact ⟨_, List.drop (a + 1) _, by rw [← hget, List.cons_getElem_drop_succ, List.take_append_drop], hja⟩
  have hsplit := List.append_of_mem (hperm.mem_iff.2 (List.mem_range.2 hsrc))
  obtain ⟨pre, post, hs⟩ := hsplit
  have hkeep : ∀ᶠ N in atTop, ∀ j ∈ Finset.range n, B src j ≠ 0 → BN N src j ≠ 0 := by
    rw [eventually_all_finset]
    intro j _
    by_cases h0 : B src j = 0
    · exact Eventually.of_forall fun _ h => absurd h0 h
    · filter_upwards [(hBN src j).eventually_ne h0] with N hN _ using hN
  have t1 := h2 lin hlin src dst hsrc hdst (T src) (hT src hsrc) BN (by
    filter_upwards [hkeep, hcoN] with N h3 h4
    refine ⟨fun j hj => h3 j (Finset.mem_range.2 hj), pre, post, hs ▸ hco, fun j _ hj => ?_⟩
    exact order_row hnd h4.2 hs j hj)
  have hex : ∀ N, ∃ T' : Nat → ℝ, CausalOrder n (BN N) o → TotalEffectOf n (BN N) src T' ∧ ∀ dst, dst < n → src ≠ dst →
      Paths.calcTotalEffect n (fun i j => some (BN N i j)) src dst = some (.ok (some (T' dst))) := by
    intro N
    by_cases hc : CausalOrder n (BN N) o
    · obtain ⟨T', h⟩ := calc_effect hc hsrc
      exact ⟨T', fun _ => h⟩
    · exact ⟨fun _ => 0, fun h => absurd h hc⟩
  choose TN hTN using hex
  have t2 := effect_tendsto hco hcoN hBN (hT src hsrc) (hcoN.mono fun N h => (hTN N h).1) dst hdst
  have a1 := (t1.sub_const (T src dst)).abs
  have a2 := (t2.sub_const (T src dst)).abs
  rw [sub_self, abs_zero] at a1 a2
  filter_upwards [hfit, hcoN, a1.eventually_lt_const hδ, a2.eventually_lt_const hδ] with N h3 h4 h5 h6
  exact ⟨BN N, TN N dst, h3, h5, (hTN N h4).2 dst hdst hne, h6⟩

/-! ### Examples -/

/-- The total effects in the example of the coins. -/
theorem coin_effect : TotalEffectOf 2 coinMatrix 1 (fun i => if i = 1 then 1 else √2 / 2) := by
  intro i hi
  have : i = 0 ∨ i = 1 := by omega
  rcases this with rfl | rfl <;> simp [Finset.sum_range_succ, coinMatrix]

theorem coin_effect0 : TotalEffectOf 2 coinMatrix 0 (fun i => if i = 0 then 1 else 0) := by
  intro i hi
  have : i = 0 ∨ i = 1 := by omega
  rcases this with rfl | rfl <;> simp [coinMatrix]

/-- The hypotheses of C259_fit (and so of C259_regression) hold for the coins. -/
example {cfg : Direct.Config} (hpk : cfg.pk = none) :
    ∀ᵐ ω ∂(draws 4), ∀ (lin : ∀ N, Lin N) (lars : ∀ N, Lars N), (∀ N, RightRegression (lin N)) → (∀ N, RightPath (lars N)) →
      ∀ᶠ N in atTop, ∃ B' v, fitLasso cfg (lin N) (lars N) 2 (sampleOf (drawn witnessX) ω N) = .ok ([1, 0], B') ∧
        |totalEffect (lin N) 2 (sampleOf (drawn witnessX) ω N) B' 1 0 - √2 / 2| < 1 / 100 ∧
        Paths.calcTotalEffect 2 (fun i j => some (B' i j)) 1 0 = some (.ok (some v)) ∧ |v - √2 / 2| < 1 / 100 := by
  filter_upwards [C259_fit hpk (drawn_iid witnessX) (drawn_regular witness_identified)
    (order_drawn witness_order List.nodup_range (indep_range witness_identified)) coin_model] with ω hω lin lars hlin hlars
  have := hω lin lars hlin hlars (fun src i => if src = 1 then (if i = 1 then 1 else √2 / 2) else if i = 0 then 1 else 0) (fun src hsrc => by
    have : src = 0 ∨ src = 1 := by omega
    rcases this with rfl | rfl
    · exact coin_effect0
    · exact coin_effect) (1 / 100) (by norm_num) 1 0 (by norm_num) (by norm_num) (by norm_num)
  simpa using this

/-- The hypotheses of C258_any_order and C258_prior_knowledge hold for the coins, with prior knowledge that there is no path from the effect to the
cause. -/
example {cfg : Direct.Config} (hpk : cfg.pk = some (fun i j => if i = 1 ∧ j = 0 then 0 else -1)) :
    ∀ᵐ ω ∂(draws 4), ∀ (lin : ∀ N, Lin N) (lars : ∀ N, Lars N), (∀ N, RightRegression (lin N)) → (∀ N, RightPath (lars N)) →
      ∀ BN : Nat → Nat → Nat → ℝ, (∀ᶠ N in atTop, fitLasso cfg (lin N) (lars N) 2 (sampleOf (drawn witnessX) ω N) = .ok ([1, 0], BN N)) →
      Tendsto (fun N => BN N 0 1) atTop (𝓝 (√2 / 2)) := by
  have hco : CausalOrder 2 coinMatrix [1, 0] := ⟨by decide, fun i j h => by
    unfold coinMatrix at h
    split_ifs at h with hij
    · exact ⟨[1], [], by rw [hij.1]; rfl, by rw [hij.2]; simp⟩
    · exact absurd rfl h⟩
  filter_upwards [C258_prior_knowledge (cfg := cfg) (drawn_iid witnessX) (drawn_regular witness_identified) (o := [1, 0]) (by decide) coin_model
    (fun q hq i j h => by
      unfold coinMatrix at h
      split_ifs at h with hij
      · rw [hpk] at hq
        cases hq
        simp [hij.1, hij.2]
      · exact absurd rfl h)] with ω hω lin lars hlin hlars BN hfit
  have := hω lin lars hlin hlars (fun _ => [1, 0]) BN (hfit.mono fun N h => ⟨h, hco⟩) 0 1
  simpa [coinMatrix] using this

end Verif.Pairwise
