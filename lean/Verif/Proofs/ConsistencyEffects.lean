import Verif.Props.ConsistencyMatrix
import Verif.Model.TotalEffect
import Verif.Proofs.TotalEffect

/-! Regressions on ever larger samples, for any order of the variables (for C258 and C259). -/
set_option linter.unusedSectionVars false
set_option autoImplicit false
namespace Verif.Pairwise
open MeasureTheory ProbabilityTheory Filter Topology Consistency

variable {Ω : Type*} [MeasurableSpace Ω] {P : Measure Ω} [IsProbabilityMeasure P] {R : Nat → Ω → Nat → ℝ} {n : Nat}

theorem tendsto_choice {α : Type*} {S : Set α} (hS : S.Finite) {f : α → Nat → ℝ} {a : ℝ} (h : ∀ x ∈ S, Tendsto (f x) atTop (𝓝 a))
    {c : Nat → α} (hc : ∀ᶠ N in atTop, c N ∈ S) : Tendsto (fun N => f (c N) N) atTop (𝓝 a) := by
  intro U hU
  have h1 : ∀ᶠ N in atTop, ∀ x ∈ S, f x N ∈ U := (eventually_all_finite hS).2 fun x hx => h x hx hU
  show ∀ᶠ N in atTop, f (c N) N ∈ U
  filter_upwards [h1, hc] with N h1 h2
  exact h1 _ h2

theorem cov_comm (f g : Ω → ℝ) : covOf P f g = covOf P g f := by
  unfold covOf
  exact integral_congr_ae (Eventually.of_forall fun ω => mul_comm _ _)

theorem memLp_col (hR : IidRows P R) (hreg : Regular P n (fun j ω => R 0 ω j)) {q : Nat} (hq : q < n) : MemLp (fun x => R 0 x q) 2 P := by
  have := form_sq hR hreg.square (fun k => if k = q then 1 else 0)
  simpa only [form_single hq] using this

/-- Uncorrelated residuals solve the normal equations with an intercept. -/
theorem normal_of_cov (hR : IidRows P R) (hreg : Regular P n (fun j ω => R 0 ω j)) {ps : List Nat} {t : Nat} {b : Nat → ℝ}
    (hnd : ps.Nodup) (hlt : ∀ q ∈ ps, q < n) (ht : t < n)
    (hc : ∀ p ∈ ps, covOf P (fun x => R 0 x t - (ps.map (fun q => b q * R 0 x q)).sum) (fun x => R 0 x p) = 0) :
    ∃ β : Nat → ℝ, (∀ k, k ∉ ps → k ≠ n → β k = 0) ∧
      (∀ l, l ∈ ps ∨ l = n → ∫ x, (R 0 x t - form n β (R 0 x)) * ext n (R 0 x) l ∂P = 0) ∧ ∀ p ∈ ps, β p = b p := by
  set f : Ω → ℝ := fun x => R 0 x t - (ps.map (fun q => b q * R 0 x q)).sum with hf
  have hYL : ∀ q, q < n → MemLp (fun x => R 0 x q) 2 P := fun q hq => memLp_col hR hreg hq
  have hfL : MemLp f 2 P := (hYL t ht).sub (memLp_list _ fun q hq => hYL q (hlt q hq))
  set β : Nat → ℝ := fun k => if k = n then meanOf P f else if k ∈ ps then b k else 0 with hβ
  have hform : ∀ v : Nat → ℝ, form n β v = meanOf P f + (ps.map (fun q => b q * v q)).sum := by
    intro v
    rw [form_split]
    congr 1
    · rw [hβ]; simp
    · rw [← List.sum_toFinset _ hnd]
      have hs : ps.toFinset ⊆ Finset.range n := fun q hq => Finset.mem_range.2 (hlt q (by simpa using hq))
      rw [← Finset.sum_subset hs (f := fun k => β k * v k)]
      · refine Finset.sum_congr rfl fun q hq => ?_
        have hq : q ∈ ps := by simpa using hq
        have := hlt q hq
        rw [hβ]
        beta_reduce
        rw [if_neg (by omega), if_pos hq]
      · intro k hk hkp
        have hkp : k ∉ ps := by simpa using hkp
        have := Finset.mem_range.1 hk
        rw [hβ]
        beta_reduce
        rw [if_neg (by omega), if_neg hkp, zero_mul]
  have hres : ∀ x, R 0 x t - form n β (R 0 x) = f x - meanOf P f := fun x => by rw [hform, hf]; ring
  have hint : ∫ x, (f x - meanOf P f) ∂P = 0 := by
    rw [integral_sub (hfL.integrable (by norm_num)) (integrable_const _)]
    simp [meanOf]
  refine ⟨β, fun k hk hkn => ?_, fun l hl => ?_, fun p hp => ?_⟩
  · rw [hβ]
    beta_reduce
    rw [if_neg hkn, if_neg hk]
  · simp only [hres]
    rcases hl with hl | rfl
    · have hln := hlt l hl
      have hc := hc l hl
      have e1 : ∀ x, (f x - meanOf P f) * ext n (R 0 x) l = (f x - meanOf P f) * (R 0 x l - meanOf P (fun x => R 0 x l)) +
          meanOf P (fun x => R 0 x l) * (f x - meanOf P f) := fun x => by rw [ext, if_pos hln]; ring
      simp only [e1]
      have i1 : MemLp (fun x => f x - meanOf P f) 2 P := hfL.sub (memLp_const _)
      have i2 : MemLp (fun x => R 0 x l - meanOf P (fun x => R 0 x l)) 2 P := (hYL l hln).sub (memLp_const _)
      have i3 : Integrable (fun x => (f x - meanOf P f) * (R 0 x l - meanOf P (fun x => R 0 x l))) P := i1.integrable_mul i2
      rw [integral_add i3 ((i1.integrable (by norm_num)).const_mul _), integral_const_mul, hint, mul_zero, add_zero]
      exact hc
    · have e1 : ∀ x, (f x - meanOf P f) * ext l (R 0 x) l = f x - meanOf P f := fun x => by simp [ext]
      simp only [e1]
      exact hint
  · have := hlt p hp
    rw [hβ]
    beta_reduce
    rw [if_neg (by omega), if_pos hp]

/-- The coefficients of a regression without pruning converge. -/
theorem lin_tendsto (hR : IidRows P R) (hreg : Regular P n (fun j ω => R 0 ω j)) {ω : Ω} (hω : Good n P R ω) {ps : List Nat} {t : Nat}
    (hnd : ps.Nodup) (hlt : ∀ q ∈ ps, q < n) (ht : t < n) {b : Nat → ℝ}
    (hc : ∀ p ∈ ps, covOf P (fun x => R 0 x t - (ps.map (fun q => b q * R 0 x q)).sum) (fun x => R 0 x p) = 0)
    {lin : ∀ N, Lin N} (hlin : ∀ N, RightRegression (lin N)) {p : Nat} (hp : p ∈ ps) :
    Tendsto (fun N => lin N (ps.map (sampleOf R ω N)) (sampleOf R ω N t) (ps.idxOf p)) atTop (𝓝 (b p)) := by
  obtain ⟨β, hβ0, hβ, hβb⟩ := normal_of_cov hR hreg hnd hlt ht hc
  rw [← hβb p hp]
  have h2 := hreg.square
  obtain ⟨c, hc, hq⟩ := form_bound_sample hR hreg hω
  set ε : Nat → ℝ := mix 1 (-1) (fun k => if k = t then 1 else 0) β with hε
  have hform : ∀ v : Nat → ℝ, form n ε v = v t - form n β v := fun v => by rw [hε, form_mix, form_single ht]; ring
  have hext : ∀ l, l ≤ n → ∀ v, form n (fun k => if k = l then 1 else 0) v = ext n v l := by
    intro l hl v
    unfold form
    rw [Finset.sum_eq_single l]
    · simp
    · intro k _ h; simp [h]
    · intro h; exact absurd (Finset.mem_range.2 (by omega)) h
  have hle : ∀ l, l ∈ ps ∨ l = n → l ≤ n := fun l hl => by
    rcases hl with h | h
    · exact (hlt l h).le
    · exact h.le
  set g : Nat → Nat → ℝ := fun N l => (∑ r : Fin N, (R r ω t - form n β (R r ω)) * ext n (R r ω) l) / N with hg
  have hgl : ∀ l, l ∈ ps ∨ l = n → Tendsto (fun N => g N l) atTop (𝓝 0) := by
    intro l hl
    have h := form_mul_tendsto hR h2 hω (conv_const n ε) (conv_const n (fun k => if k = l then 1 else 0))
    simp only [hform, hext l (hle l hl)] at h
    rwa [hβ l hl] at h
  set γ : Nat → ℝ := fun N => ∑ l ∈ Finset.range (n + 1), if l ∈ ps ∨ l = n then |g N l| else 0 with hγ
  have hγ0 : Tendsto γ atTop (𝓝 0) := by
    have e : (0 : ℝ) = ∑ l ∈ Finset.range (n + 1), (0 : ℝ) := by simp
    rw [e]
    refine tendsto_finsetSum _ fun l _ => ?_
    by_cases hl : l ∈ ps ∨ l = n
    · simp only [hl, if_true]
      have := (hgl l hl).abs
      rwa [abs_zero] at this
    · simp only [hl, if_false]
      exact tendsto_const_nhds
  have hγn : ∀ N, 0 ≤ γ N := fun N => Finset.sum_nonneg fun l _ => by split_ifs <;> positivity
  have hγl : ∀ N l, l ∈ ps ∨ l = n → |g N l| ≤ γ N := fun N l hl => by
    have := Finset.single_le_sum (s := Finset.range (n + 1)) (f := fun l => if l ∈ ps ∨ l = n then |g N l| else 0)
      (fun l _ => by split_ifs <;> positivity) (Finset.mem_range.2 (show l < n + 1 by have := hle l hl; omega))
    beta_reduce at this
    rwa [if_pos hl] at this
  have hbound : Tendsto (fun N => ((n : ℝ) + 1) * γ N / c) atTop (𝓝 0) := by
    have := (hγ0.const_mul ((n : ℝ) + 1)).div_const c
    simpa using this
  refine tendsto_iff_norm_sub_tendsto_zero.2 (squeeze_zero' (Eventually.of_forall fun _ => norm_nonneg _) ?_ hbound)
  filter_upwards [hq] with N hq
  obtain ⟨b0, hw⟩ := hlin N (ps.map (sampleOf R ω N)) (sampleOf R ω N t)
  have hpn := hlt p hp
  have := close hc hq (t := t) (D := coefs n ps b0 (lin N (ps.map (sampleOf R ω N)) (sampleOf R ω N t))) (β := β)
    (A := fun l => l ∈ ps ∨ l = n) (fun k _ hA => by
      push Not at hA
      rw [coefs, if_neg hA.2, if_neg hA.1, hβ0 k hA.1 hA.2])
    (fun l _ hA => normal_equations hnd hlt hw hA) (hγn N) (fun l _ hA => hγl N l hA) hpn.le
  rw [coefs, if_neg (by omega), if_pos hp] at this
  exact this

/-! ### Orders -/

theorem split_unique {o pre post pre' post' : List Nat} {t : Nat} (hnd : o.Nodup) (h : o = pre ++ t :: post) (h' : o = pre' ++ t :: post') :
    pre = pre' := by
  have key : ∀ {a b : List Nat}, o = a ++ t :: b → List.idxOf t o = a.length := by
    intro a b e
    rw [e, List.idxOf_append_of_notMem]
    · simp
    · rw [e, List.nodup_append] at hnd
      exact fun h => hnd.2.2 t h t (by simp) rfl
  exact (List.append_inj (h.symm.trans h') ((key h).symm.trans (key h'))).1

theorem sum_pre {o pre post : List Nat} {t : Nat} (hnd : o.Nodup) (h : o = pre ++ t :: post) {b : Nat → ℝ} (hb : ∀ j, b j ≠ 0 → j ∈ pre)
    (v : Nat → ℝ) : (pre.map (fun q => b q * v q)).sum = ∑ q ∈ o.toFinset, b q * v q := by
  have hndp : pre.Nodup := by rw [h, List.nodup_append] at hnd; exact hnd.1
  rw [← List.sum_toFinset _ hndp]
  refine Finset.sum_subset (fun q hq => ?_) fun q _ hq => ?_
  · have : q ∈ pre := by simpa using hq
    rw [h]; simp [this]
  · have hq : q ∉ pre := by simpa using hq
    have : b q = 0 := by by_contra h0; exact hq (hb q h0)
    rw [this, zero_mul]

theorem order_row {B : Nat → Nat → ℝ} {o pre post : List Nat} {t : Nat} (hnd : o.Nodup)
    (ho : ∀ i j, B i j ≠ 0 → ∃ pre post, o = pre ++ i :: post ∧ j ∈ pre) (h : o = pre ++ t :: post) (j : Nat) (hj : B t j ≠ 0) : j ∈ pre := by
  obtain ⟨pre', post', h', hj'⟩ := ho t j hj
  rw [split_unique hnd h h']
  exact hj'

theorem causal_nodup {B : Nat → Nat → ℝ} {o : List Nat} (h : CausalOrder n B o) : o.Nodup := h.1.nodup_iff.2 List.nodup_range

/-- A linear model in one order is one in every causal order. -/
theorem reorder {Y e : Nat → Ω → ℝ} {o o' : List Nat} {B : Nat → Nat → ℝ} (h : LinearModel P Y o B e) (ho : o.Perm (List.range n))
    (ho' : CausalOrder n B o') : LinearModel P Y o' B e where
  eq pre' t post' hs' ω := by
    have hnd : o.Nodup := ho.nodup_iff.2 List.nodup_range
    have hmem : t ∈ o := (ho.trans ho'.1.symm).mem_iff.2 (by rw [hs']; simp)
    obtain ⟨pre, post, hs⟩ := List.append_of_mem hmem
    have hz : ∀ i j, B i j ≠ 0 → ∃ pre post, o = pre ++ i :: post ∧ j ∈ pre := fun i j hB => by
      by_contra hne; exact hB (h.zero i j hne)
    rw [h.eq pre t post hs ω, sum_pre hnd hs (order_row hnd hz hs) (fun q => Y q ω),
      sum_pre (causal_nodup ho') hs' (order_row (causal_nodup ho') ho'.2 hs') (fun q => Y q ω),
      List.toFinset_eq_of_perm _ _ (ho.trans ho'.1.symm)]
  zero i j hne := by
    by_contra hB; exact hne (ho'.2 i j hB)
  uncorrelated s hs t ht := h.uncorrelated s ((ho.trans ho'.1.symm).mem_iff.2 hs) t ((ho.trans ho'.1.symm).mem_iff.2 ht)

/-- The matrix estimated in a fixed causal order, with or without prior knowledge, converges. -/
theorem order_tendsto (hR : IidRows P R) (hreg : Regular P n (fun j ω => R 0 ω j)) {ω : Ω} (hω : Good n P R ω) {o : List Nat}
    {B : Nat → Nat → ℝ} {e : Nat → Ω → ℝ} (hmod : LinearModel P (fun j ω => R 0 ω j) o B e) (ho : CausalOrder n B o)
    {pk : Option Direct.PK} (hpk : ∀ q, pk = some q → ∀ i j, B i j ≠ 0 → q i j ≠ 0)
    {lin : ∀ N, Lin N} {lars : ∀ N, Lars N} (hlin : ∀ N, RightRegression (lin N)) (hlars : ∀ N, RightPath (lars N)) (i j : Nat) :
    Tendsto (fun N => Direct.estimateAdj pk (fun ps t p => predict (lin N) (lars N) (sampleOf R ω N) ps t (ps.idxOf p)) o i j)
      atTop (𝓝 (B i j)) := by
  have hnd := causal_nodup ho
  have hlt : ∀ q ∈ o, q < n := fun q hq => List.mem_range.1 (ho.1.mem_iff.1 hq)
  have hYL : ∀ q, q < n → MemLp (fun x => R 0 x q) 2 P := fun q hq => memLp_col hR hreg hq
  have hB := C256_model (fun q hq => hYL q (hlt q hq)) hnd hmod
  by_cases hex : ∃ pre post, o = pre ++ i :: post ∧ j ∈ pre
  · obtain ⟨pre, post, hs, hj⟩ := hex
    have hsub : ∀ q ∈ pre, q ∈ o := fun q hq => by rw [hs]; simp [hq]
    have hio : i ∈ o := by rw [hs]; simp
    have hndp : pre.Nodup := by rw [hs, List.nodup_append] at hnd; exact hnd.1
    have hip : i ∉ pre := by
      rw [hs, List.nodup_append] at hnd
      exact fun h => hnd.2.2 i h i (by simp) rfl
    have hrow := fun N => Direct.estimateAdj_row (pk := pk)
      (lasso := fun ps t p => predict (lin N) (lars N) (sampleOf R ω N) ps t (ps.idxOf p)) (hs ▸ hnd) hs j
    simp only [hrow]
    set ps := Direct.predictors pk pre i with hps
    have hpsub : ps.Sublist pre := by
      rw [hps]
      cases pk with
      | none => exact List.Sublist.refl _
      | some q => exact List.filter_sublist
    have hpsmem : ∀ q ∈ pre, B i q ≠ 0 → q ∈ ps := by
      intro q hq hBq
      rw [hps]
      cases pk with
      | none => exact hq
      | some k =>
        have hne : i ≠ q := fun h => hip (h ▸ hq)
        refine List.mem_filter.2 ⟨hq, ?_⟩
        simp only [hne, if_false]
        simpa using hpk k rfl i q hBq
    by_cases hjp : j ∈ ps
    · simp only [hjp, if_true]
      have hsum : ∀ v : Nat → ℝ, (ps.map (fun q => B i q * v q)).sum = (pre.map (fun q => B i q * v q)).sum := by
        intro v
        rw [← List.sum_toFinset _ hndp, ← List.sum_toFinset _ (hpsub.nodup hndp)]
        refine Finset.sum_subset (fun q hq => ?_) fun q hq hq' => ?_
        · have := hpsub.subset (by simpa using hq : q ∈ ps)
          simpa using this
        · have h1 : q ∈ pre := by simpa using hq
          have h2 : q ∉ ps := by simpa using hq'
          have : B i q = 0 := by by_contra h0; exact h2 (hpsmem q h1 h0)
          rw [this, zero_mul]
      obtain ⟨β, h1, h2, h3⟩ := normal_of_cov hR hreg (hpsub.nodup hndp) (fun q hq => hlt q (hsub q (hpsub.subset hq))) (hlt i hio) (b := B i)
        (fun p hp => by
          have := hB.row pre i post hs p (hpsub.subset hp)
          simpa only [hsum] using this)
      rw [← h3 j hjp]
      exact row_tendsto hR hreg hω (hpsub.nodup hndp) (fun q hq => hlt q (hsub q (hpsub.subset hq))) (hlt i hio)
        (fun h => hip (hpsub.subset h)) h1 h2 hlin hlars hjp
    · simp only [hjp, if_false]
      have : B i j = 0 := by by_contra h0; exact hjp (hpsmem j hj h0)
      rw [this]
      exact tendsto_const_nhds
  · rw [hB.zero i j hex]
    have hz : ∀ N, Direct.estimateAdj pk (fun ps t p => predict (lin N) (lars N) (sampleOf R ω N) ps t (ps.idxOf p)) o i j = 0 := by
      intro N
      by_contra hne
      obtain ⟨⟨a, ha, hja⟩, -⟩ := Direct.estimateAdj_apply _ _ _ _ _ hne
      refine hex ⟨o.take a, o.drop (a + 1), ?_, hja⟩
      obtain ⟨hlt, hget⟩ := List.getElem?_eq_some_iff.1 ha
      rw [← hget, List.cons_getElem_drop_succ, List.take_append_drop]
    simp only [hz]
    exact tendsto_const_nhds

/-! ### Regressions of the distribution -/

/-- What a regression on other variables leaves has positive variance. -/
theorem rest_var (hR : IidRows P R) (hreg : Regular P n (fun j ω => R 0 ω j)) {ps : List Nat} (hnd : ps.Nodup) (hlt : ∀ q ∈ ps, q < n)
    {t : Nat} (ht : t < n) (htp : t ∉ ps) (c : Nat → ℝ) :
    0 < covOf P (fun x => R 0 x t - (ps.map (fun q => c q * R 0 x q)).sum) (fun x => R 0 x t - (ps.map (fun q => c q * R 0 x q)).sum) := by
  set f : Ω → ℝ := fun x => R 0 x t - (ps.map (fun q => c q * R 0 x q)).sum with hf
  have hfL : MemLp f 2 P := (memLp_col hR hreg ht).sub (memLp_list _ fun q hq => memLp_col hR hreg (hlt q hq))
  unfold covOf
  refine integral_sq_pos (hfL.sub (memLp_const _)) fun h0 => ?_
  have := hreg.free (fun j => (if j = t then 1 else 0) - (if j ∈ ps then c j else 0)) (-meanOf P f) (by
    filter_upwards [h0] with x hx
    have e1 : ∑ j ∈ Finset.range n, ((if j = t then 1 else 0) - (if j ∈ ps then c j else 0)) * R 0 x j = f x := by
      simp only [sub_mul, Finset.sum_sub_distrib, ite_mul, one_mul, zero_mul, Finset.sum_ite_eq', Finset.mem_range, ht, if_true, hf]
      congr 1
      rw [← List.sum_toFinset _ hnd, ← Finset.sum_filter]
      refine Finset.sum_congr ?_ fun _ _ => rfl
      ext q
      simp only [Finset.mem_filter, Finset.mem_range, List.mem_toFinset]
      exact ⟨fun h => h.2, fun h => ⟨hlt q h, h⟩⟩
    rw [e1]
    simp only [Pi.zero_apply] at hx
    linarith) t ht
  rw [if_pos rfl, if_neg htp] at this
  norm_num at this

/-- Covariance with a linear combination. -/
theorem cov_comb {f : Ω → ℝ} {l : List Nat} {Y : Nat → Ω → ℝ} (b : Nat → ℝ) (hf : MemLp f 2 P) (hY : ∀ q ∈ l, MemLp (Y q) 2 P) :
    covOf P f (fun ω => (l.map (fun q => b q * Y q ω)).sum) = (l.map (fun q => b q * covOf P f (Y q))).sum := by
  have h := cov_list (h := fun _ => 0) b hf (memLp_const 0) hY
  have h0 : covOf P f (fun _ => 0) = 0 := by simp [covOf, meanOf]
  simpa only [add_zero, h0] using h

theorem cov_sub {f g h : Ω → ℝ} (hf : MemLp f 2 P) (hg : MemLp g 2 P) (hh : MemLp h 2 P) :
    covOf P f (fun ω => g ω - h ω) = covOf P f g - covOf P f h := by
  have := cov_lin hf hh hg (-1)
  have e : (fun ω => g ω - h ω) = fun ω => -1 * h ω + g ω := by funext ω; ring
  rw [e, this]; ring

/-- The regression of a variable on any others exists. -/
theorem exists_population (hR : IidRows P R) (hreg : Regular P n (fun j ω => R 0 ω j)) {ps : List Nat} :
    ps.Nodup → (∀ q ∈ ps, q < n) → ∀ t, t < n →
    ∃ b : Nat → ℝ, ∀ p ∈ ps, covOf P (fun x => R 0 x t - (ps.map (fun q => b q * R 0 x q)).sum) (fun x => R 0 x p) = 0 := by
  induction ps with
  | nil => intro _ _ t _; exact ⟨fun _ => 0, fun p hp => by simp at hp⟩
  | cons q ps ih =>
    intro hnd hlt t ht
    have hnd' := (List.nodup_cons.1 hnd)
    have hlt' : ∀ p ∈ ps, p < n := fun p hp => hlt p (by simp [hp])
    have hq : q < n := hlt q (by simp)
    obtain ⟨b, hb⟩ := ih hnd'.2 hlt' t ht
    obtain ⟨c, hc⟩ := ih hnd'.2 hlt' q hq
    have hYL : ∀ q, q < n → MemLp (fun x => R 0 x q) 2 P := fun q hq => memLp_col hR hreg hq
    set f : Ω → ℝ := fun x => R 0 x t - (ps.map (fun q => b q * R 0 x q)).sum with hf
    set g : Ω → ℝ := fun x => R 0 x q - (ps.map (fun q => c q * R 0 x q)).sum with hg
    have hfL : MemLp f 2 P := (hYL t ht).sub (memLp_list _ fun q hq => hYL q (hlt' q hq))
    have hgL : MemLp g 2 P := (hYL q hq).sub (memLp_list _ fun q hq => hYL q (hlt' q hq))
    have hv : 0 < covOf P g g := rest_var hR hreg hnd'.2 hlt' hq hnd'.1 c
    set s := covOf P f g / covOf P g g with hs
    have hres : (fun x => R 0 x t - ((q :: ps).map (fun p => (if p = q then s else b p - s * c p) * R 0 x p)).sum) = fun x => f x - s * g x := by
      funext x
      have e : ps.map (fun p => (if p = q then s else b p - s * c p) * R 0 x p) = ps.map (fun p => b p * R 0 x p + (-s) * (c p * R 0 x p)) :=
        List.map_congr_left fun p hp => by
          have : p ≠ q := fun h => hnd'.1 (h ▸ hp)
          rw [if_neg this]; ring
      rw [List.map_cons, List.sum_cons, if_pos rfl, e, List.sum_map_add, List.sum_map_mul_left, hf, hg]
      ring
    refine ⟨fun p => if p = q then s else b p - s * c p, ?_⟩
    rw [hres]
    have hcov : ∀ h : Ω → ℝ, MemLp h 2 P → covOf P (fun x => f x - s * g x) h = covOf P f h - s * covOf P g h := by
      intro h hh
      rw [cov_comm, cov_sub hh hfL (hgL.const_mul s), cov_comm h f]
      congr 1
      have := cov_lin hh hgL (memLp_const 0) s
      have h0 : covOf P h (fun _ => 0) = 0 := by simp [covOf, meanOf]
      simp only [add_zero, h0] at this
      rw [this, cov_comm h g]
    have hps : ∀ p ∈ ps, covOf P (fun x => f x - s * g x) (fun x => R 0 x p) = 0 := fun p hp => by
      rw [hcov _ (hYL p (hlt' p hp)), hb p hp, hc p hp]; ring
    intro p hp
    rcases List.mem_cons.1 hp with rfl | hp
    · have hrL : MemLp (fun x => f x - s * g x) 2 P := hfL.sub (hgL.const_mul s)
      have e : (fun x => R 0 x p) = fun x => (ps.map (fun q => c q * R 0 x q)).sum + g x := by funext x; rw [hg]; ring
      rw [e, cov_list (Y := fun q x => R 0 x q) c hrL hgL fun q hq => hYL q (hlt' q hq), hcov _ hgL, hs, div_mul_cancel₀ _ hv.ne', sub_self, add_zero]
      refine List.sum_eq_zero fun v hv => ?_
      obtain ⟨q, hq, rfl⟩ := List.mem_map.1 hv
      rw [hps q hq, mul_zero]
    · exact hps p hp

/-! ### Total effects -/

theorem effect_unique {B : Nat → Nat → ℝ} {o : List Nat} (ho : CausalOrder n B o) {src : Nat} {T T' : Nat → ℝ} (h : TotalEffectOf n B src T)
    (h' : TotalEffectOf n B src T') : ∀ i, i < n → T i = T' i := by
  have key : ∀ (m : Nat) (pre : List Nat) (i : Nat) (post : List Nat), pre.length = m → o = pre ++ i :: post → T i = T' i := by
    intro m
    induction m using Nat.strong_induction_on with
    | _ m ih =>
      intro pre i post hm hs
      have hi : i < n := List.mem_range.1 (ho.1.mem_iff.1 (by rw [hs]; simp))
      rw [h i hi, h' i hi]
      congr 1
      refine Finset.sum_congr rfl fun j _ => ?_
      by_cases hB : B i j = 0
      · rw [hB, zero_mul, zero_mul]
      · have hj := order_row (causal_nodup ho) ho.2 hs j hB
        obtain ⟨pre', post', hp⟩ := List.append_of_mem hj
        rw [ih pre'.length (by rw [← hm, hp]; simp) pre' j (post' ++ i :: post) rfl (by rw [hs, hp]; simp)]
  intro i hi
  obtain ⟨pre, post, hs⟩ := List.append_of_mem (ho.1.mem_iff.2 (List.mem_range.2 hi))
  exact key _ pre i post rfl hs

/-- The first coefficient of the regression on the source, its causes and further variables before it is the total effect. -/
theorem effect_coefficient (hR : IidRows P R) (hreg : Regular P n (fun j ω => R 0 ω j)) {o : List Nat} {B : Nat → Nat → ℝ} {e : Nat → Ω → ℝ}
    (hmod : LinearModel P (fun j ω => R 0 ω j) o B e) (ho : CausalOrder n B o) {src dst : Nat} (hdst : dst < n) {pre post S : List Nat}
    (hs : o = pre ++ src :: post) (hSnd : S.Nodup) (hS : ∀ q ∈ S, q ∈ pre) (hpar : ∀ q, B src q ≠ 0 → q ∈ S) {T : Nat → ℝ}
    (hT : TotalEffectOf n B src T) {b : Nat → ℝ}
    (hb : ∀ p ∈ src :: S, covOf P (fun x => R 0 x dst - ((src :: S).map (fun q => b q * R 0 x q)).sum) (fun x => R 0 x p) = 0) : b src = T dst := by
  have hnd := causal_nodup ho
  have hlt : ∀ q ∈ o, q < n := fun q hq => List.mem_range.1 (ho.1.mem_iff.1 hq)
  have hYL : ∀ q, q < n → MemLp (fun x => R 0 x q) 2 P := fun q hq => memLp_col hR hreg hq
  have hpop := C256_model (fun q hq => hYL q (hlt q hq)) hnd hmod
  have hpreo : ∀ q ∈ pre, q ∈ o := fun q hq => by rw [hs]; simp [hq]
  have hso : src ∈ o := by rw [hs]; simp
  have hndp : pre.Nodup := by rw [hs, List.nodup_append] at hnd; exact hnd.1
  have hsp : src ∉ pre := by
    have h := hnd
    rw [hs, List.nodup_append] at h
    exact fun hh => h.2.2 src hh src (by simp) rfl
  have he : ∀ pre t post, o = pre ++ t :: post → e t = fun x => R 0 x t - (pre.map (fun q => B t q * R 0 x q)).sum := by
    intro pre t post h
    funext x
    have := hmod.eq pre t post h x
    beta_reduce at this
    rw [this]; ring
  have heL : ∀ t ∈ o, MemLp (e t) 2 P := by
    intro t ht
    obtain ⟨pre, post, h⟩ := List.append_of_mem ht
    rw [he pre t post h]
    exact (hYL t (hlt t ht)).sub (memLp_list _ fun q hq => hYL q (hlt q (by rw [h]; simp [hq])))
  have hv : 0 < covOf P (e src) (e src) := by
    rw [he pre src post hs]
    exact rest_var hR hreg hndp (fun q hq => hlt q (hpreo q hq)) (hlt src hso) hsp _
  have F1 : ∀ q ∈ pre, covOf P (e src) (fun x => R 0 x q) = 0 := fun q hq => by
    rw [he pre src post hs]; exact hpop.row pre src post hs q hq
  have frec : ∀ i, i < n → covOf P (e src) (fun x => R 0 x i) =
      ∑ j ∈ Finset.range n, B i j * covOf P (e src) (fun x => R 0 x j) + covOf P (e src) (e i) := by
    intro i hi
    have hio : i ∈ o := ho.1.mem_iff.2 (List.mem_range.2 hi)
    obtain ⟨pre', post', h⟩ := List.append_of_mem hio
    have e1 : (fun x => R 0 x i) = fun x => (pre'.map (fun q => B i q * R 0 x q)).sum + e i x := funext fun x => hmod.eq pre' i post' h x
    conv_lhs => rw [e1]
    rw [cov_list (Y := fun q x => R 0 x q) (B i) (heL src hso) (heL i hio) fun q hq => hYL q (hlt q (by rw [h]; simp [hq])),
      sum_pre hnd h (order_row hnd ho.2 h) (fun q => covOf P (e src) (fun x => R 0 x q)), List.toFinset_eq_of_perm _ _ ho.1]
    congr 2
    ext q; simp
  have hT' : TotalEffectOf n B src (fun i => covOf P (e src) (fun x => R 0 x i) / covOf P (e src) (e src)) := by
    intro i hi
    beta_reduce
    rw [frec i hi, add_div, add_comm]
    congr 1
    · by_cases h : i = src
      · rw [if_pos h, h, div_self hv.ne']
      · rw [if_neg h, hmod.uncorrelated src hso i (ho.1.mem_iff.2 (List.mem_range.2 hi)) (Ne.symm h), zero_div]
    · rw [Finset.sum_div]
      exact Finset.sum_congr rfl fun j _ => mul_div_assoc _ _ _
  rw [effect_unique ho hT hT' dst hdst, eq_div_iff hv.ne']
  have F2 : covOf P (e src) (fun x => R 0 x src) = covOf P (e src) (e src) := by
    have e1 : (fun x => R 0 x src) = fun x => (pre.map (fun q => B src q * R 0 x q)).sum + e src x := funext fun x => hmod.eq pre src post hs x
    rw [e1, cov_list (Y := fun q x => R 0 x q) (B src) (heL src hso) (heL src hso) fun q hq => hYL q (hlt q (hpreo q hq))]
    have : (pre.map (fun q => B src q * covOf P (e src) (fun x => R 0 x q))).sum = 0 := by
      refine List.sum_eq_zero fun v hv => ?_
      obtain ⟨q, hq, rfl⟩ := List.mem_map.1 hv
      rw [F1 q hq, mul_zero]
    rw [this, zero_add]
  set r : Ω → ℝ := fun x => R 0 x dst - ((src :: S).map (fun q => b q * R 0 x q)).sum with hr
  have hltS : ∀ q ∈ src :: S, q < n := by
    intro q hq
    rcases List.mem_cons.1 hq with rfl | hq
    · exact hlt q hso
    · exact hlt q (hpreo q (hS q hq))
  have hrL : MemLp r 2 P := (hYL dst hdst).sub (memLp_list _ fun q hq => hYL q (hltS q hq))
  have F5 : covOf P (e src) r = 0 := by
    rw [cov_comm]
    have e1 : e src = fun x => ((src :: S).map (fun q => (if q = src then 1 else -(B src q)) * R 0 x q)).sum := by
      rw [he pre src post hs]
      funext x
      have h1 : S.map (fun q => (if q = src then 1 else -(B src q)) * R 0 x q) = S.map (fun q => (-1) * (B src q * R 0 x q)) :=
        List.map_congr_left fun q hq => by
          have : q ≠ src := fun h => hsp (h ▸ hS q hq)
          rw [if_neg this]; ring
      have h2 : (S.map (fun q => B src q * R 0 x q)).sum = (pre.map (fun q => B src q * R 0 x q)).sum := by
        rw [← List.sum_toFinset _ hndp, ← List.sum_toFinset _ hSnd]
        refine Finset.sum_subset (fun q hq => ?_) fun q _ hq' => ?_
        · have := hS q (by simpa using hq)
          simpa using this
        · have h2 : q ∉ S := by simpa using hq'
          have : B src q = 0 := by by_contra h0; exact h2 (hpar q h0)
          rw [this, zero_mul]
      rw [List.map_cons, List.sum_cons, if_pos rfl, h1, List.sum_map_mul_left, h2]
      ring
    rw [e1, cov_comb (Y := fun q x => R 0 x q) _ hrL fun q hq => hYL q (hltS q hq)]
    refine List.sum_eq_zero fun v hv => ?_
    obtain ⟨q, hq, rfl⟩ := List.mem_map.1 hv
    rw [hb q hq, mul_zero]
  have e2 : (fun x => R 0 x dst) = fun x => ((src :: S).map (fun q => b q * R 0 x q)).sum + r x := by funext x; rw [hr]; ring
  rw [e2, cov_list (Y := fun q x => R 0 x q) b (heL src hso) hrL fun q hq => hYL q (hltS q hq), F5, add_zero, List.map_cons, List.sum_cons, F2]
  have : (S.map (fun q => b q * covOf P (e src) (fun x => R 0 x q))).sum = 0 := by
    refine List.sum_eq_zero fun v hv => ?_
    obtain ⟨q, hq, rfl⟩ := List.mem_map.1 hv
    rw [F1 q (hS q hq), mul_zero]
  rw [this, add_zero]

/-- Total effects depend continuously on the matrix. -/
theorem effect_tendsto {B : Nat → Nat → ℝ} {o : List Nat} (ho : CausalOrder n B o) {BN : Nat → Nat → Nat → ℝ}
    (hoN : ∀ᶠ N in atTop, CausalOrder n (BN N) o) (hB : ∀ i j, Tendsto (fun N => BN N i j) atTop (𝓝 (B i j))) {src : Nat} {T : Nat → ℝ}
    {TN : Nat → Nat → ℝ} (hT : TotalEffectOf n B src T) (hTN : ∀ᶠ N in atTop, TotalEffectOf n (BN N) src (TN N)) :
    ∀ i, i < n → Tendsto (fun N => TN N i) atTop (𝓝 (T i)) := by
  have key : ∀ (m : Nat) (pre : List Nat) (i : Nat) (post : List Nat), pre.length = m → o = pre ++ i :: post →
      Tendsto (fun N => TN N i) atTop (𝓝 (T i)) := by
    intro m
    induction m using Nat.strong_induction_on with
    | _ m ih =>
      intro pre i post hm hs
      have hi : i < n := List.mem_range.1 (ho.1.mem_iff.1 (by rw [hs]; simp))
      have hnd := causal_nodup ho
      have hrange : o.toFinset = Finset.range n := by rw [List.toFinset_eq_of_perm _ _ ho.1]; ext q; simp
      have h1 : Tendsto (fun N => (if i = src then (1 : ℝ) else 0) + (pre.map (fun j => BN N i j * TN N j)).sum) atTop
          (𝓝 ((if i = src then 1 else 0) + (pre.map (fun j => B i j * T j)).sum)) := by
        refine tendsto_const_nhds.add (list_tendsto pre fun j hj => ?_)
        obtain ⟨pre', post', hp⟩ := List.append_of_mem hj
        exact (hB i j).mul (ih pre'.length (by rw [← hm, hp]; simp) pre' j (post' ++ i :: post) rfl (by rw [hs, hp]; simp))
      rw [hT i hi, ← hrange, ← sum_pre hnd hs (order_row hnd ho.2 hs) T]
      refine h1.congr' ?_
      filter_upwards [hoN, hTN] with N h2 h3
      rw [h3 i hi, ← hrange, ← sum_pre hnd hs (order_row hnd h2.2 hs) (TN N)]
  intro i hi
  obtain ⟨pre, post, hs⟩ := List.append_of_mem (ho.1.mem_iff.2 (List.mem_range.2 hi))
  exact key _ pre i post rfl hs

/-- `calculate_total_effect` gives the total effect of a matrix with a causal order. -/
theorem calc_effect {B : Nat → Nat → ℝ} {o : List Nat} (ho : CausalOrder n B o) {src : Nat} (hsrc : src < n) :
    ∃ T, TotalEffectOf n B src T ∧ ∀ dst, dst < n → src ≠ dst →
      Paths.calcTotalEffect n (fun i j => some (B i j)) src dst = some (.ok (some (T dst))) := by
  have hE : Acyclic (Edge n (Paths.clean (fun i j => some (B i j))) 0) := by
    refine acyclic_of_before (causal_nodup ho) ?_
    rintro a b ⟨ha, hb, hw⟩
    obtain ⟨pre, post, hs, hj⟩ := ho.2 b a (abs_pos.1 hw)
    obtain ⟨pre', post', hp⟩ := List.append_of_mem hj
    exact ⟨pre', post', post, by rw [hs, hp]; simp⟩
  set M : Matrix (Fin n) (Fin n) ℝ := Matrix.of fun i j : Fin n => Paths.clean (fun i j => some (B i j)) i j with hM
  have hu : IsUnit (1 - M).det := Matrix.isUnit_det_of_left_inverse (Paths.pathSum_mul hE)
  refine ⟨fun i => if h : i < n then (1 - M)⁻¹ ⟨i, h⟩ ⟨src, hsrc⟩ else 0, fun i hi => ?_, fun dst hdst hne => ?_⟩
  · have h1 : (1 - M) * (1 - M)⁻¹ = 1 := Matrix.mul_nonsing_inv _ hu
    have h2 := congrFun (congrFun h1 ⟨i, hi⟩) ⟨src, hsrc⟩
    rw [sub_mul, one_mul, Matrix.sub_apply, Matrix.mul_apply, Matrix.one_apply, sub_eq_iff_eq_add] at h2
    beta_reduce
    rw [dif_pos hi, h2, Finset.sum_range]
    simp only [Fin.mk.injEq, Fin.is_lt, dif_pos]
    rfl
  · beta_reduce
    rw [Paths.calcTotalEffect_acyclic hE hsrc hdst hne, dif_pos hdst, hM, Paths.inv_apply hE]
    rfl

end Verif.Pairwise
