import Verif.Proofs.AdaptiveLasso
import Verif.Props.Pairwise

/-!
# The pruning by the adaptive Lasso (C197, C198)
-/
set_option linter.unusedSectionVars false
set_option autoImplicit false
namespace Verif.Pairwise
open Finset

variable {N : Nat} {lin : Lin N} {lars : Lars N} {X : Nat → Fin N → ℝ} {ps : List Nat} {t : Nat}

theorem col_get (X : Nat → Fin N → ℝ) {ps : List Nat} {k : Nat} (hk : k < ps.length) :
    (ps.map X).getD k 0 = X (ps.getD k 0) := list_getD_map X ps hk 0 0

theorem scaled_get (X : Nat → Fin N → ℝ) {ps : List Nat} {k : Nat} (hk : k < ps.length) :
    (ps.map (fun p => scaled (X p))).getD k 0 = scaled (X (ps.getD k 0)) := list_getD_map _ ps hk 0 0

theorem kept_lt {cols : List (Fin N → ℝ)} {y : Fin N → ℝ} {k : Nat} (h : k ∈ kept lin lars cols y) : k < cols.length :=
  (mem_kept.1 h).1

/-- C197: the coefficients are those of one least squares regression on a subset of the predictors, in the original units, and
0 for the other predictors. -/
theorem C197_least_squares (hlin : RightRegression lin) (lars : Lars N) (X : Nat → Fin N → ℝ) (ps : List Nat) (t : Nat) :
    ∃ S : List Nat, S.Nodup ∧ (∀ k ∈ S, k < ps.length) ∧ (∀ k, k ∉ S → predict lin lars X ps t k = 0) ∧
      ∃ b0, SolvesRegression (S.map (fun k => X (ps.getD k 0))) (X t) b0 (fun i => predict lin lars X ps t (S.getD i 0)) := by
  set S := kept lin lars (ps.map (fun p => scaled (X p))) (scaled (X t)) with hS
  refine ⟨S, kept_nodup _ _ _ _, fun k hk => by simpa using kept_lt hk, fun k hk => ?_, ?_⟩
  · unfold predict
    exact if_neg hk
  · obtain ⟨b0, hb⟩ := hlin (S.map (fun k => X (ps.getD k 0))) (X t)
    refine ⟨b0, ?_⟩
    have hw : ∀ i, i < S.length → predict lin lars X ps t (S.getD i 0) =
        lin (S.map (fun k => X (ps.getD k 0))) (X t) i := by
      intro i hi
      unfold predict
      simp only
      rw [← hS, getD_of_lt hi, if_pos (List.getElem_mem hi), (kept_nodup _ _ _ _).idxOf_getElem i hi]
    have hu : unexplained (S.map (fun k => X (ps.getD k 0))) (X t) b0 (fun i => predict lin lars X ps t (S.getD i 0)) =
        unexplained (S.map (fun k => X (ps.getD k 0))) (X t) b0 (lin (S.map (fun k => X (ps.getD k 0))) (X t)) := by
      funext r
      unfold unexplained
      congr 1
      refine sum_congr rfl fun i hi => ?_
      beta_reduce
      rw [hw i (by simpa using hi)]
    unfold SolvesRegression
    rw [hu]
    exact hb

/-- C197: a predictor whose coefficient in the regression on all predictors is 0 gets the coefficient 0. -/
theorem C197_no_effect (hlin : RightRegression lin) (lars : Lars N) (hi : IndependentCols (ps.map X)) {b0 : ℝ} {w : Nat → ℝ}
    (hw : SolvesRegression (ps.map X) (X t) b0 w) {k : Nat} (hk : k < ps.length) (h0 : w k = 0) :
    predict lin lars X ps t k = 0 := by
  unfold predict
  refine if_neg fun hmem => (mem_kept.1 hmem).2.2 ?_
  obtain ⟨b1, h1, _⟩ := leastSquares_units (cols := ps.map X) (cols' := ps.map (fun p => scaled (X p))) (by simp) (y' := scaled (X t))
    (s := fun k => scale (X (ps.getD k 0))) (a := fun k => mean (X (ps.getD k 0))) (scale_ne (X t)) (fun k _ => scale_ne _)
    (fun k hk r => by
      have hk : k < ps.length := by simpa using hk
      rw [col_get X hk, scaled_get X hk]
      exact scaled_eq _ r) (fun r => scaled_eq (X t) r) hw
  obtain ⟨b2, h2⟩ := hlin (ps.map (fun p => scaled (X p))) (scaled (X t))
  have hi' : IndependentCols (ps.map (fun p => scaled (X p))) :=
    independent_units (cols := ps.map X) (by simp) (s := fun k => scale (X (ps.getD k 0))) (a := fun k => mean (X (ps.getD k 0)))
      (fun k hk r => by
        have hk : k < ps.length := by simpa using hk
        rw [col_get X hk, scaled_get X hk]
        exact scaled_eq _ r) (fun k _ => scale_ne _) hi
  rw [leastSquares_unique hi' h2 h1 (by simpa using hk), h0, zero_mul, zero_div]

/-- Other units and origins convert the coefficients if the columns that are kept are independent. -/
theorem predict_units (hlin : RightRegression lin) (lars : Lars N)
    (hi : IndependentCols ((kept lin lars (ps.map (fun p => scaled (X p))) (scaled (X t))).map (fun i => X (ps.getD i 0)))) {c a : Nat → ℝ}
    (hc : ∀ j, j ∈ ps ∨ j = t → 0 < c j) (k : Nat) :
    predict lin lars (fun j r => c j * X j r + a j) ps t k = predict lin lars X ps t k * (c t / c (ps.getD k 0)) := by
  have hs : (ps.map fun p => scaled (fun r => c p * X p r + a p)) = ps.map (fun p => scaled (X p)) :=
    List.map_congr_left fun p hp => scaled_units _ (hc p (Or.inl hp))
  have ht : scaled (fun r => c t * X t r + a t) = scaled (X t) := scaled_units _ (hc t (Or.inr rfl))
  unfold predict
  simp only [hs, ht]
  set S := kept lin lars (ps.map (fun p => scaled (X p))) (scaled (X t)) with hS
  have hnd : S.Nodup := kept_nodup _ _ _ _
  have hlt : ∀ i ∈ S, i < ps.length := fun i hi => by simpa using kept_lt hi
  by_cases hmem : k ∈ S
  · rw [if_pos hmem, if_pos hmem]
    have hpos := List.idxOf_lt_length_of_mem hmem
    obtain ⟨b0, h0⟩ := hlin (S.map (fun i => X (ps.getD i 0))) (X t)
    obtain ⟨b1, h1⟩ := hlin (S.map (fun i r => c (ps.getD i 0) * X (ps.getD i 0) r + a (ps.getD i 0)))
      (fun r => c t * X t r + a t)
    have hcp : ∀ i, i < S.length → 0 < c (ps.getD (S.getD i 0) 0) := by
      intro i hi
      refine hc _ (Or.inl ?_)
      rw [getD_of_lt hi, getD_of_lt (hlt _ (List.getElem_mem hi))]
      exact List.getElem_mem _
    obtain ⟨b2, h2, _⟩ := leastSquares_units (cols := S.map (fun i r => c (ps.getD i 0) * X (ps.getD i 0) r + a (ps.getD i 0)))
      (cols' := S.map (fun i => X (ps.getD i 0))) (by simp) (y' := X t)
      (s := fun i => c (ps.getD (S.getD i 0) 0)) (a := fun i => a (ps.getD (S.getD i 0) 0)) (s0 := c t) (a0 := a t)
      (hc t (Or.inr rfl)).ne' (fun i hi => (hcp i (by simpa using hi)).ne') (fun i hi r => by
        have hi : i < S.length := by simpa using hi
        rw [list_getD_map _ S hi 0 0, list_getD_map _ S hi 0 0]) (fun r => rfl) h1
    have hu := leastSquares_unique hi h0 h2 (k := S.idxOf k) (by simpa using hpos)
    have hk' : S.getD (S.idxOf k) 0 = k := by rw [getD_of_lt hpos, List.getElem_idxOf]
    simp only [hk'] at hu
    rw [hu]
    have h3 := hcp _ hpos
    rw [hk'] at h3
    have h4 := hc t (Or.inr rfl)
    field_simp
  · rw [if_neg hmem, if_neg hmem, zero_mul]

/-- C197: other units and origins (for the target and the predictors) only convert the coefficients. -/
theorem C197_units (hlin : RightRegression lin) (lars : Lars N) (hi : IndependentCols (ps.map X)) {c a : Nat → ℝ}
    (hc : ∀ j, j ∈ ps ∨ j = t → 0 < c j) (k : Nat) :
    predict lin lars (fun j r => c j * X j r + a j) ps t k = predict lin lars X ps t k * (c t / c (ps.getD k 0)) := by
  refine predict_units hlin lars ?_ hc k
  have hlt : ∀ i ∈ kept lin lars (ps.map (fun p => scaled (X p))) (scaled (X t)), i < ps.length := fun i hi => by simpa using kept_lt hi
  have := independent_sub hi (kept_nodup lin lars _ _) (fun i hi => by simpa using hlt i hi)
  rwa [List.map_congr_left fun i hi => col_get X (hlt i hi)] at this

theorem independent_of_identified {n : Nat} (hid : Identified n X) (hnd : ps.Nodup) (hlt : ∀ p ∈ ps, p < n) :
    IndependentCols (ps.map X) := by
  have h0 : IndependentCols ((List.range n).map X) := by
    intro b0 w h k hk
    simp only [List.length_map, List.length_range] at h hk
    refine hid w b0 (fun r => ?_) k hk
    rw [← h r]
    congr 1
    refine sum_congr rfl fun j hj => ?_
    rw [list_getD_map X _ (by simpa using hj) 0 0, getD_of_lt (by simpa using hj), List.getElem_range]
  have := independent_sub h0 hnd (fun i hi => by simpa using hlt i hi)
  rwa [List.map_congr_left (g := X) fun i hi => by
    rw [list_getD_map X _ (by simpa using hlt i hi) 0 0, getD_of_lt (by simpa using hlt i hi), List.getElem_range]] at this

/-- C197: `fit` in other units and with other origins: the same order or the same exception, and converted coefficients. -/
theorem C197_fit (cfg : Direct.Config) (hlin : RightRegression lin) (lars : Lars N) {n : Nat} (hid : Identified n X)
    {c a : Nat → ℝ} (hc : ∀ j, j < n → 0 < c j) :
    (∀ e, fitLasso cfg lin lars n X = .error e → fitLasso cfg lin lars n (fun j r => c j * X j r + a j) = .error e) ∧
    ∀ o B, fitLasso cfg lin lars n X = .ok (o, B) →
      ∃ B', fitLasso cfg lin lars n (fun j r => c j * X j r + a j) = .ok (o, B') ∧ ∀ i j, B' i j = B i j * (c i / c j) := by
  unfold fitLasso
  rw [C140_order cfg n X (fun j hj => (hc j hj).ne')]
  cases ho : fitOrder cfg n X with
  | error e => exact ⟨fun e' h => h, fun o B h => by cases h⟩
  | ok order =>
    simp only
    split
    · refine ⟨fun e' h => h, fun o B h => ?_⟩
      cases h
    · refine ⟨fun e h => (by cases h), fun o B h => ?_⟩
      simp only [Except.ok.injEq, Prod.mk.injEq] at h
      obtain ⟨rfl, rfl⟩ := h
      have hperm := fitOrder_perm ho
      have hlt : ∀ q ∈ order, q < n := fun q hq => List.mem_range.1 (hperm.mem_iff.1 hq)
      refine ⟨_, rfl, fun i j => estimateAdj_scale (k := fun i j => c i / c j) (hperm.nodup_iff.2 List.nodup_range) ?_ i j⟩
      intro ps t p hnd hsub ht htp hp
      have hpos := List.idxOf_lt_length_of_mem hp
      rw [C197_units hlin lars (independent_of_identified hid hnd fun q hq => hlt q (hsub q hq))
        (fun j hj => hc j (hj.elim (fun h => hlt j (hsub j h)) fun h => h ▸ hlt t ht)), getD_of_lt hpos, List.getElem_idxOf]

/-! ### C198: when an edge is kept -/

theorem slope_eq (x y : Fin N → ℝ) : cov y x / var x = slope x y := by
  have h1 : cov y x = (∑ r, (x r - sampleMean x) * (y r - sampleMean y)) / N := by
    unfold cov
    rw [mean]
    congr 1
    exact sum_congr rfl fun r _ => mul_comm _ _
  have h2 : var x = (∑ r, (x r - sampleMean x) ^ 2) / N := rfl
  by_cases hN : N = 0
  · subst hN
    simp [slope, cov, mean]
  · have hN' : (N : ℝ) ≠ 0 := by exact_mod_cast hN
    rw [h1, h2, slope, div_div_div_cancel_right₀ hN']

/-- C198: a single predictor with correlation `ρ` to the target, neither constant nor collinear with it, is kept exactly if
`(N - 2) ρ² > (1 - ρ²) log N` (the squared t-statistic exceeds `log N`); the coefficient is that of simple regression. -/
theorem C198_one_predictor (hlin : RightRegression lin) (hlars : RightPath lars) (hN : 2 < N) {p t : Nat} (hp : sampleVar (X p) ≠ 0)
    (ht : sampleVar (X t) ≠ 0) (h1 : correlation (X p) (X t) ^ 2 < 1) :
    predict lin lars X [p] t 0 =
      if (1 - correlation (X p) (X t) ^ 2) * Real.log N < (N - 2) * correlation (X p) (X t) ^ 2
      then slope (X p) (X t) else 0 := by
  have hp : var (X p) ≠ 0 := hp
  have ht : var (X t) ≠ 0 := ht
  rw [← slope_eq]
  have hN0 : N ≠ 0 := by omega
  have hN' : (N : ℝ) ≠ 0 := by exact_mod_cast hN0
  have hN2 : (0 : ℝ) < N - 2 := by
    have : (2 : ℝ) < N := by exact_mod_cast hN
    linarith
  have hlog : 0 < Real.log N := Real.log_pos (by
    have : (2 : ℝ) < N := by exact_mod_cast hN
    linarith)
  have hzx := zscore_standard hN0 (lt_of_le_of_ne (var_nonneg _) (Ne.symm hp))
  have hzy := zscore_standard hN0 (lt_of_le_of_ne (var_nonneg _) (Ne.symm ht))
  set ρ := correlation (X p) (X t) with hρdef
  set x := zscore (X p)
  set y := zscore (X t)
  have hρ : ∑ r, x r * y r = N * ρ := by
    have : ρ = (∑ r, x r * y r) / N := rfl
    rw [this, mul_div_cancel₀ _ hN']
  have hl : lin [x] y 0 = ρ := by
    obtain ⟨b0, hb⟩ := hlin [x] y
    rw [intercept_zero hN0 hzy.1 (by simpa using hzx.1) hb] at hb
    have := one_column hb
    rw [hzx.2, hρ, mul_comm] at this
    exact mul_left_cancel₀ hN' this
  have hcols : ([p].map (fun p => scaled (X p))) = [x] := by simp [scaled_zscore hp, x]
  have hty : scaled (X t) = y := scaled_zscore ht
  have hwt : weighted lin [x] y = [fun r => x r * |ρ|] := by simp [weighted, weight, hl]
  have hcoef : lin [X p] (X t) 0 = cov (X t) (X p) / var (X p) := by
    obtain ⟨b0, hb⟩ := hlin [X p] (X t)
    obtain ⟨b1, h1, _⟩ := leastSquares_units (cols := [X p]) (cols' := [fun r => X p r - mean (X p)]) rfl
      (y' := fun r => X t r - mean (X t)) (s := fun _ => 1) (a := fun _ => mean (X p)) (s0 := 1) (a0 := mean (X t)) one_ne_zero
      (fun _ _ => one_ne_zero) (fun k hk r => by
        have : k = 0 := by simpa using hk
        subst this
        simp) (fun r => by ring) hb
    have hz : ∀ z : Fin N → ℝ, ∑ r, (z r - mean z) = 0 := by
      intro z
      rw [sum_sub_distrib]
      simp only [sum_const, card_univ, Fintype.card_fin, nsmul_eq_mul, mean]
      field_simp
      ring
    rw [intercept_zero hN0 (hz _) (by simpa using hz (X p)) h1] at h1
    have := one_column h1
    have hv : var (X p) = (∑ r, (X p r - mean (X p)) ^ 2) / N := rfl
    have hc : cov (X t) (X p) = (∑ r, (X p r - mean (X p)) * (X t r - mean (X t))) / N := by
      unfold cov
      rw [mean]
      congr 1
      exact sum_congr rfl fun r _ => mul_comm _ _
    rw [hc, ← this, hv]
    have hv0 : ∑ r, (X p r - mean (X p)) ^ 2 ≠ 0 := fun h0 => hp (by rw [hv, h0, zero_div])
    field_simp
  have hmem : 0 ∈ kept lin lars [x] y ↔ (1 - ρ ^ 2) * Real.log N < (N - 2) * ρ ^ 2 := by
    rw [mem_kept, hl, hwt]
    by_cases hρ0 : ρ = 0
    · rw [hρ0]
      simp only [List.length_singleton, zero_lt_one, ne_eq, not_true, and_false, false_iff, not_lt]
      nlinarith
    set x' : Fin N → ℝ := fun r => x r * |ρ| with hx'
    have habs : |ρ| ≠ 0 := abs_ne_zero.2 hρ0
    have hx0 : ∑ r, x' r = 0 := by rw [hx', ← sum_mul, hzx.1, zero_mul]
    have hx2 : ∑ r, x' r ^ 2 = N * ρ ^ 2 := by
      simp only [hx', mul_pow, sq_abs]
      rw [← sum_mul, hzx.2]
    have hxy : ∑ r, x' r * y r = N * ρ * |ρ| := by
      rw [← hρ, sum_mul]
      exact sum_congr rfl fun r _ => by simp only [hx']; ring
    -- every least squares solution
    have hsol : ∀ w : Nat → ℝ, SolvesRegression [x'] y 0 w → w 0 * |ρ| = ρ := by
      intro w hw
      have := one_column hw
      rw [hx2, hxy, ← sq_abs] at this
      have h2 : (N : ℝ) * |ρ| ≠ 0 := mul_ne_zero hN' habs
      refine mul_left_cancel₀ h2 ?_
      linear_combination this
    have hrss : ∀ w : Nat → ℝ, rss [x'] y w = N - 2 * (w 0 * |ρ|) * (N * ρ) + (w 0 * |ρ|) ^ 2 * N := by
      intro w
      unfold rss comb
      simp only [List.length_singleton, sum_range_one, List.getD_cons_zero]
      have e : ∀ r, (y r - w 0 * x' r) ^ 2 = y r ^ 2 - 2 * (w 0 * |ρ|) * (x r * y r) + (w 0 * |ρ|) ^ 2 * x r ^ 2 := by
        intro r
        simp only [hx']
        ring
      simp only [e, sum_add_distrib, sum_sub_distrib, ← mul_sum, hzy.2, hρ, hzx.2]
    have hnoise : noise lin [x'] y = N * (1 - ρ ^ 2) / (N - 2) := by
      unfold noise
      obtain ⟨b0, hb⟩ := hlin [x'] y
      rw [intercept_zero hN0 hzy.1 (by simpa using hx0) hb] at hb
      rw [hrss, hsol _ hb]
      simp only [List.length_singleton, Nat.cast_one]
      congr 1
      · ring
      · ring
    have h1' : 0 < 1 - ρ ^ 2 := by linarith
    have hnpos : 0 < noise lin [x'] y := by
      rw [hnoise]
      have : (0 : ℝ) < N := by positivity
      positivity
    have hdof : ∀ w : Nat → ℝ, dof 1 w = if w 0 = 0 then 0 else 1 := by
      intro w
      unfold dof
      by_cases h : w 0 = 0
      · simp [h, filter_eq_empty_iff]
      · rw [if_neg h, filter_true_of_mem (by simpa using h)]
        simp
    have hbic : ∀ w : Nat → ℝ, bic lin [x'] y w =
        N * Real.log (2 * Real.pi * noise lin [x'] y) + rss [x'] y w / noise lin [x'] y + Real.log N * dof 1 w := fun w => rfl
    have hzero : ∀ w : Nat → ℝ, w 0 = 0 → bic lin [x'] y w =
        N * Real.log (2 * Real.pi * noise lin [x'] y) + (N - 2) / (1 - ρ ^ 2) := by
      intro w hw
      rw [hbic, hdof, if_pos hw, hrss, hw, hnoise]
      simp only [zero_mul, mul_zero, sub_zero, Nat.cast_zero, add_zero]
      field_simp
      ring
    have hfull : ∀ w : Nat → ℝ, w 0 * |ρ| = ρ → bic lin [x'] y w =
        N * Real.log (2 * Real.pi * noise lin [x'] y) + (N - 2) + Real.log N := by
      intro w hw
      have hw0 : w 0 ≠ 0 := fun h => hρ0 (by rw [← hw, h, zero_mul])
      rw [hbic, hdof, if_neg hw0, hrss, hw, hnoise]
      simp only [Nat.cast_one, mul_one]
      field_simp
      ring
    have hcmp : (N - 2) + Real.log N < (N - 2) / (1 - ρ ^ 2) ↔ (1 - ρ ^ 2) * Real.log N < (N - 2) * ρ ^ 2 := by
      rw [lt_div_iff₀ h1']
      constructor <;> intro h <;> nlinarith
    obtain ⟨b, l, hbl, hb0⟩ := hlars.start [x'] y
    have hb0 : b 0 = 0 := hb0 0 (by simp)
    obtain ⟨ws, hws, hws'⟩ := hlars.stop [x'] y (by simpa using hx0) hzy.1
    have hone : ∀ w ∈ b :: l, w 0 = 0 ∨ w 0 * |ρ| = ρ := by
      intro w hw
      rcases hlars.one x' y hx0 hzy.1 w (by rw [hbl]; exact hw) with h | h
      · exact Or.inl h
      · exact Or.inr (hsol w h)
    have hIC : larsIC lin lars [x'] y = firstMin (bic lin [x'] y) b l := by
      unfold larsIC
      rw [hbl]
      exact if_neg hnpos.ne'
    rw [hIC]
    simp only [List.length_singleton, zero_lt_one, true_and]
    constructor
    · rintro ⟨hne, _⟩
      by_contra hcon
      have hge : ∀ w ∈ l, bic lin [x'] y b ≤ bic lin [x'] y w := by
        intro w hw
        rcases hone w (by simp [hw]) with h | h
        · rw [hzero b hb0, hzero w h]
        · rw [hzero b hb0, hfull w h]
          have := mt hcmp.1 hcon
          linarith [not_lt.1 this]
      rw [firstMin_head _ _ _ hge] at hne
      exact hne hb0
    · intro hlt
      refine ⟨fun h0 => ?_, hρ0⟩
      have hle := firstMin_le (bic lin [x'] y) b l ws (by rw [← hbl]; exact hws)
      rw [hzero _ h0, hfull ws (hsol ws hws')] at hle
      linarith [hcmp.2 hlt]
  unfold predict
  simp only [hcols, hty]
  by_cases hk : 0 ∈ kept lin lars [x] y
  · rw [if_pos hk, if_pos (hmem.1 hk)]
    have hke : kept lin lars [x] y = [0] := by
      unfold kept at hk ⊢
      simp only [List.length_singleton, List.range_one, List.mem_filter, List.mem_singleton, true_and] at hk
      simp only [List.length_singleton, List.range_one]
      exact List.filter_eq_self.2 (by simpa using hk)
    rw [hke]
    simpa using hcoef
  · rw [if_neg hk, if_neg (fun h => hk (hmem.2 h))]

theorem scaled_centred (X : Nat → Fin N → ℝ) (ps : List Nat) : ∀ x ∈ ps.map (fun p => scaled (X p)), ∑ r, x r = 0 := by
  intro x hx
  obtain ⟨p, _, rfl⟩ := List.mem_map.1 hx
  exact sum_scaled _

/-- The regression in the original units and the one on the weighted columns. -/
theorem rss_raw (hN : N ≠ 0) (hlin : RightRegression lin) {b0 : ℝ} {w v : Nat → ℝ} (hw : SolvesRegression (ps.map X) (X t) b0 w)
    (hv : SolvesRegression (weighted lin (ps.map (fun p => scaled (X p))) (scaled (X t))) (scaled (X t)) 0 v) :
    rss (weighted lin (ps.map (fun p => scaled (X p))) (scaled (X t))) (scaled (X t)) v =
      (∑ r, unexplained (ps.map X) (X t) b0 w r ^ 2) / scale (X t) ^ 2 := by
  obtain ⟨b1, h1, h2⟩ := leastSquares_units (cols := ps.map X) (cols' := ps.map (fun p => scaled (X p))) (by simp) (y' := scaled (X t))
    (s := fun k => scale (X (ps.getD k 0))) (a := fun k => mean (X (ps.getD k 0))) (scale_ne (X t)) (fun k _ => scale_ne _)
    (fun k hk r => by
      have hk : k < ps.length := by simpa using hk
      rw [col_get X hk, scaled_get X hk]
      exact scaled_eq _ r) (fun r => scaled_eq (X t) r) hw
  rw [rss_weighted hN hlin (scaled_centred X ps) (sum_scaled _) h1 hv, sum_div]
  exact sum_congr rfl fun r _ => by rw [h2 r, div_pow]

/-- C198: a target that is an exact linear function of its predictors loses them all. -/
theorem C198_exact_target (hlin : RightRegression lin) (hlars : RightPath lars) {b0 : ℝ} {w : Nat → ℝ}
    (hw : ∀ r, X t r = b0 + ∑ k ∈ range ps.length, w k * X (ps.getD k 0) r) (k : Nat) : predict lin lars X ps t k = 0 := by
  unfold predict
  refine if_neg fun hmem => ?_
  obtain ⟨hk, h1, h2⟩ := mem_kept.1 hmem
  refine h1 ?_
  set W := weighted lin (ps.map (fun p => scaled (X p))) (scaled (X t)) with hW
  have hn : noise lin W (scaled (X t)) = 0 := by
    by_cases hN : N = 0
    · subst hN
      simp [noise, rss]
    · obtain ⟨b1, hb⟩ := hlin W (scaled (X t))
      rw [intercept_zero hN (sum_scaled _) (weighted_centred (scaled_centred X ps)) hb] at hb
      have hu : ∀ r, unexplained (ps.map X) (X t) b0 w r = 0 := by
        intro r
        unfold unexplained
        have e : ∑ k ∈ range (ps.map X).length, w k * (ps.map X).getD k 0 r = ∑ k ∈ range ps.length, w k * X (ps.getD k 0) r := by
          rw [List.length_map]
          exact sum_congr rfl fun k hk => by rw [col_get X (mem_range.1 hk)]
        rw [e, hw r]
        ring
      unfold noise
      rw [rss_raw hN hlin (w := w) (b0 := b0) ⟨by simp [hu], fun k _ => by simp [hu]⟩ hb]
      simp [hu]
  obtain ⟨b, l, hbl, hb0⟩ := hlars.start W (scaled (X t))
  unfold larsIC
  rw [hbl]
  simp only [hn, if_true]
  exact hb0 k (by rw [hW, weighted_length]; exact hk)

/-- C198: if the regression of the target on all `m` predictors has an F-statistic above `log N`, at least one predictor keeps a
coefficient other than 0. -/
theorem C198_keeps_some (hlin : RightRegression lin) (hlars : RightPath lars) (hN : ps.length + 1 < N) {b0 : ℝ} {w : Nat → ℝ}
    (hw : SolvesRegression (ps.map X) (X t) b0 w) {R : ℝ} (hR : R = ∑ r, unexplained (ps.map X) (X t) b0 w r ^ 2) (hR0 : R ≠ 0)
    (hF : ps.length * Real.log N * R < (N - ps.length - 1) * (N * sampleVar (X t) - R)) :
    ∃ k, k < ps.length ∧ predict lin lars X ps t k ≠ 0 := by
  have hF : ps.length * Real.log N * R < (N - ps.length - 1) * (N * var (X t) - R) := hF
  have hN0 : N ≠ 0 := by omega
  have hN1 : (0 : ℝ) < N - ps.length - 1 := by
    have : (ps.length : ℝ) + 1 < N := by exact_mod_cast hN
    linarith
  have hlog : 0 ≤ Real.log N := Real.log_natCast_nonneg N
  have hRpos : 0 < R := lt_of_le_of_ne (hR ▸ sum_nonneg fun r _ => sq_nonneg _) (Ne.symm hR0)
  have hv : var (X t) ≠ 0 := by
    intro h0
    rw [h0] at hF
    have h1 : 0 ≤ ps.length * Real.log N * R := by positivity
    have h2 : 0 < (N - ps.length - 1) * R := by positivity
    linarith
  by_contra hcon
  push Not at hcon
  set cols := ps.map (fun p => scaled (X p)) with hcols
  set y := scaled (X t) with hy
  set W := weighted lin cols y with hW
  have hlen : cols.length = ps.length := by simp [hcols]
  have hWlen : W.length = ps.length := by rw [hW, weighted_length, hlen]
  have hst : IsStandard y := by
    rw [hy, scaled_zscore hv]
    exact zscore_standard hN0 (lt_of_le_of_ne (var_nonneg _) (Ne.symm hv))
  have hs2 : scale (X t) ^ 2 = var (X t) := by
    unfold scale
    rw [if_neg hv, Real.sq_sqrt (var_nonneg _)]
  have hvpos : 0 < var (X t) := lt_of_le_of_ne (var_nonneg _) (Ne.symm hv)
  have hWc : ∀ x ∈ W, ∑ r, x r = 0 := weighted_centred (scaled_centred X ps)
  have hnoise : noise lin W y = R / var (X t) / (N - ps.length - 1) := by
    obtain ⟨b1, hb⟩ := hlin W y
    rw [intercept_zero hN0 (sum_scaled _) hWc hb] at hb
    unfold noise
    rw [rss_raw hN0 hlin hw hb, hs2, ← hR, hWlen]
  have hnpos : 0 < noise lin W y := by rw [hnoise]; positivity
  obtain ⟨b, l, hbl, hb0⟩ := hlars.start W y
  obtain ⟨ws, hws, hws'⟩ := hlars.stop W y hWc (sum_scaled _)
  have hIC : larsIC lin lars W y = firstMin (bic lin W y) b l := by
    unfold larsIC
    rw [hbl]
    exact if_neg hnpos.ne'
  have hle := firstMin_le (bic lin W y) b l ws (by rw [← hbl]; exact hws)
  rw [← hIC] at hle
  set v := larsIC lin lars W y with hvdef
  -- the columns that are kept have no correlation with the target
  have horth : ∀ k, k < ps.length → v k * weight lin cols y k ≠ 0 → ∑ r, y r * cols.getD k 0 r = 0 := by
    intro k hk hne
    have hmem : k ∈ kept lin lars cols y := by
      rw [mem_kept]
      refine ⟨by rw [hlen]; exact hk, left_ne_zero_of_mul hne, fun h => right_ne_zero_of_mul hne ?_⟩
      rw [weight, h, abs_zero]
    obtain ⟨S, hSdef⟩ : ∃ S, S = kept lin lars cols y := ⟨_, rfl⟩
    rw [← hSdef] at hmem
    have hnd : S.Nodup := hSdef ▸ kept_nodup _ _ _ _
    have hSlt : ∀ i ∈ S, i < ps.length := fun i hi => by
      rw [hSdef] at hi
      simpa [hlen] using kept_lt hi
    obtain ⟨c0, hc⟩ := hlin (S.map (fun i => X (ps.getD i 0))) (X t)
    have hz : ∀ i, i < S.length → lin (S.map (fun i => X (ps.getD i 0))) (X t) i = 0 := by
      intro i hi
      have h0 := hcon (S.getD i 0) (hSlt _ (by rw [getD_of_lt hi]; exact List.getElem_mem hi))
      unfold predict at h0
      simp only at h0
      rw [← hcols, ← hy, ← hSdef, getD_of_lt hi, if_pos (List.getElem_mem hi), hnd.idxOf_getElem i hi] at h0
      exact h0
    have hu : ∀ r, unexplained (S.map (fun i => X (ps.getD i 0))) (X t) c0 (lin (S.map (fun i => X (ps.getD i 0))) (X t)) r =
        X t r - c0 := by
      intro r
      unfold unexplained
      rw [sum_eq_zero fun i hi => by rw [hz i (by simpa using hi), zero_mul], sub_zero]
    have h1 := hc.1
    have h2 := hc.2 (S.idxOf k) (by simpa using List.idxOf_lt_length_of_mem hmem)
    simp only [hu] at h1 h2
    rw [list_getD_map _ S (List.idxOf_lt_length_of_mem hmem) 0 0, getD_of_lt (List.idxOf_lt_length_of_mem hmem), List.getElem_idxOf] at h2
    have h3 : scaled (X (ps.getD k 0)) = cols.getD k 0 := (scaled_get X hk).symm
    have e : ∀ r, (X t r - c0) * X (ps.getD k 0) r =
        scale (X (ps.getD k 0)) * scale (X t) * (y r * cols.getD k 0 r) +
          scale (X (ps.getD k 0)) * (mean (X t) - c0) * cols.getD k 0 r + mean (X (ps.getD k 0)) * (X t r - c0) := by
      intro r
      rw [← h3, hy]
      have e1 := scaled_eq (X t) r
      have e2 := scaled_eq (X (ps.getD k 0)) r
      linear_combination (scaled (X (ps.getD k 0)) r * scale (X (ps.getD k 0))) * e1 + (X t r - c0) * e2
    simp only [e, sum_add_distrib, ← mul_sum] at h2
    rw [h1, ← h3, sum_scaled, mul_zero, mul_zero, add_zero, add_zero, h3] at h2
    exact (mul_eq_zero.1 h2).resolve_left (mul_ne_zero (scale_ne _) (scale_ne _))
  have hrss : (N : ℝ) ≤ rss W y v := by
    have e : ∀ r, comb v W r = ∑ k ∈ range ps.length, v k * weight lin cols y k * cols.getD k 0 r := by
      intro r
      unfold comb
      rw [hWlen]
      refine sum_congr rfl fun k hk => ?_
      rw [hW, weighted_get _ _ _ (by rw [hlen]; exact mem_range.1 hk)]
      ring
    have h0 : ∑ r, y r * comb v W r = 0 := by
      simp only [e, mul_sum]
      rw [sum_comm]
      refine sum_eq_zero fun k hk => ?_
      by_cases hk0 : v k * weight lin cols y k = 0
      · simp [hk0]
      · rw [← mul_zero (v k * weight lin cols y k), ← horth k (mem_range.1 hk) hk0, mul_sum]
        exact sum_congr rfl fun r _ => by ring
    unfold rss
    have e2 : ∀ r, (y r - comb v W r) ^ 2 = y r ^ 2 - 2 * (y r * comb v W r) + comb v W r ^ 2 := fun r => by ring
    simp only [e2, sum_add_distrib, sum_sub_distrib, ← mul_sum, h0, hst.2]
    have : 0 ≤ ∑ r, comb v W r ^ 2 := sum_nonneg fun r _ => sq_nonneg _
    linarith
  have hd : (dof W.length ws : ℝ) ≤ ps.length := by
    unfold dof
    have := card_filter_le (range W.length) (fun k => ws k ≠ 0)
    rw [card_range, hWlen] at this
    rw [hWlen]
    exact_mod_cast this
  unfold bic at hle
  rw [rss_raw hN0 hlin hw hws', hs2, ← hR] at hle
  have hdv : (0 : ℝ) ≤ Real.log N * dof W.length v := by positivity
  have h1 : (N : ℝ) / noise lin W y ≤ rss W y v / noise lin W y := by gcongr
  have h2 : Real.log N * dof W.length ws ≤ Real.log N * ps.length := by gcongr
  have h3 : (N : ℝ) / noise lin W y ≤ R / var (X t) / noise lin W y + Real.log N * ps.length := by linarith
  rw [div_le_iff₀ hnpos, add_mul, div_mul_cancel₀ _ hnpos.ne', hnoise] at h3
  have h4 := mul_le_mul_of_nonneg_right h3 (mul_pos hvpos hN1).le
  have h5 : (R / var (X t) + Real.log N * ps.length * (R / var (X t) / (N - ps.length - 1))) * (var (X t) * (N - ps.length - 1)) =
      R * (N - ps.length - 1) + Real.log N * ps.length * R := by
    field_simp
  rw [h5] at h4
  nlinarith

/-- C198: for two variables and without prior knowledge: `fit` refuses fewer than three rows; otherwise the only entry that can
be other than 0 is the one from the first to the second variable of the order, and it is so exactly if the squared t-statistic
exceeds `log N`. -/
theorem C198_two_variables (hlin : RightRegression lin) (hlars : RightPath lars) {cfg : Direct.Config} (hpk : cfg.pk = none)
    (h0 : sampleVar (X 0) ≠ 0) (h1 : sampleVar (X 1) ≠ 0) (hc : correlation (X 0) (X 1) ^ 2 < 1) :
    (N ≤ 2 → fitLasso cfg lin lars 2 X = .error .tooFewRows) ∧
    (2 < N → ∃ a b B, ((a = 0 ∧ b = 1) ∨ (a = 1 ∧ b = 0)) ∧ fitLasso cfg lin lars 2 X = .ok ([a, b], B) ∧
      (∀ i j, ¬ (i = b ∧ j = a) → B i j = 0) ∧
      B b a = if (1 - correlation (X 0) (X 1) ^ 2) * Real.log N < (N - 2) * correlation (X 0) (X 1) ^ 2
        then slope (X a) (X b) else 0) := by
  obtain ⟨o, ho⟩ := C144_found hpk 2 X
  have hperm := fitOrder_perm ho
  have hcases : o = [0, 1] ∨ o = [1, 0] := by
    have hl := hperm.length_eq
    have hm : ∀ x ∈ o, x < 2 := fun x hx => List.mem_range.1 (hperm.mem_iff.1 hx)
    have hn := hperm.nodup_iff.2 List.nodup_range
    match o, hl with
    | [a, b], _ =>
      have ha := hm a (by simp)
      have hb := hm b (by simp)
      have : a ≠ b := by simpa using hn
      have : (a = 0 ∧ b = 1) ∨ (a = 1 ∧ b = 0) := by omega
      rcases this with ⟨rfl, rfl⟩ | ⟨rfl, rfl⟩ <;> simp
  have hsym : correlation (X 1) (X 0) = correlation (X 0) (X 1) := by
    unfold correlation
    congr 1
    exact sum_congr rfl fun r _ => mul_comm _ _
  have hgen : ∀ a b, o = [a, b] → fitLasso cfg lin lars 2 X =
      if N ≤ 2 then .error .tooFewRows else .ok ([a, b], fun i j => if i = b ∧ j = a then predict lin lars X [a] b 0 else 0) := by
    intro a b hab
    unfold fitLasso
    rw [ho, hab]
    have hB : Direct.estimateAdj none (fun ps t p => predict lin lars X ps t (ps.idxOf p)) [a, b] =
        fun i j => if i = b ∧ j = a then predict lin lars X [a] b 0 else 0 := by
      funext i j
      simp only [Direct.estimateAdj, List.length_cons, List.length_nil, Direct.adjIter, Direct.adjStep, Direct.predictors,
        List.range', List.foldl_cons, List.foldl_nil]
      by_cases h : i = b ∧ j = a
      · simp [h.1, h.2]
      · simp [h]
    simp only [hpk, hB]
    by_cases hN : N ≤ 2
    · simp [hN, Direct.predictors]
    · simp [hN, Direct.predictors]
  refine ⟨fun hN => ?_, fun hN => ?_⟩
  · rcases hcases with h | h <;> rw [hgen _ _ h, if_pos hN]
  · rcases hcases with h | h
    · refine ⟨0, 1, _, Or.inl ⟨rfl, rfl⟩, by rw [hgen _ _ h, if_neg (by omega)], fun i j hij => if_neg hij, ?_⟩
      simp only [and_self, if_true]
      exact C198_one_predictor hlin hlars hN h0 h1 hc
    · refine ⟨1, 0, _, Or.inr ⟨rfl, rfl⟩, by rw [hgen _ _ h, if_neg (by omega)], fun i j hij => if_neg hij, ?_⟩
      simp only [and_self, if_true]
      rw [C198_one_predictor hlin hlars hN h1 h0 (by rw [hsym]; exact hc), hsym]

/-! ### Examples -/

/-- The data of the examples: a strong and a weak effect of column 0, and an exact copy. -/
noncomputable def lassoData : Nat → Fin 4 → ℝ
  | 0 => ![1, 1, -1, -1]
  | 1 => ![2, 0, 0, -2]
  | 2 => ![3, -1, -1, -1]
  | _ => ![5, 5, 1, 1]

theorem lassoData_stats : mean (lassoData 0) = 0 ∧ mean (lassoData 1) = 0 ∧ mean (lassoData 2) = 0 ∧ var (lassoData 0) = 1 ∧
    var (lassoData 1) = 2 ∧ var (lassoData 2) = 3 ∧ cov (lassoData 1) (lassoData 0) = 1 ∧ cov (lassoData 2) (lassoData 0) = 1 := by
  have h0 : mean (lassoData 0) = 0 := by simp [mean, lassoData, Fin.sum_univ_four]
  have h1 : mean (lassoData 1) = 0 := by simp [mean, lassoData, Fin.sum_univ_four]
  have h2 : mean (lassoData 2) = 0 := by simp [mean, lassoData, Fin.sum_univ_four]; norm_num
  refine ⟨h0, h1, h2, ?_, ?_, ?_, ?_, ?_⟩
  · unfold var; rw [h0]; simp [mean, lassoData, Fin.sum_univ_four]; norm_num
  · unfold var; rw [h1]; simp [mean, lassoData, Fin.sum_univ_four]; norm_num
  · unfold var; rw [h2]; simp [mean, lassoData, Fin.sum_univ_four]; norm_num
  · unfold cov; rw [h0, h1]; simp [mean, lassoData, Fin.sum_univ_four]; norm_num
  · unfold cov; rw [h0, h2]; simp [mean, lassoData, Fin.sum_univ_four]; norm_num

theorem correlation_sq {x y : Fin N → ℝ} (hN : N ≠ 0) (hx : var x ≠ 0) (hy : var y ≠ 0) :
    correlation x y ^ 2 = cov y x ^ 2 / (var x * var y) := by
  have hN' : (N : ℝ) ≠ 0 := by exact_mod_cast hN
  have hsx := Real.sq_sqrt (var_nonneg x)
  have hsy := Real.sq_sqrt (var_nonneg y)
  have hx0 : √(var x) ≠ 0 := fun h => hx (by rw [← hsx, h]; ring)
  have hy0 : √(var y) ≠ 0 := fun h => hy (by rw [← hsy, h]; ring)
  have e : correlation x y = cov y x / (√(var x) * √(var y)) := by
    have hc : cov y x = (∑ r, (y r - mean y) * (x r - mean x)) / N := rfl
    have hr : correlation x y = (∑ r, (x r - mean x) / √(var x) * ((y r - mean y) / √(var y))) / N := rfl
    rw [hc, hr, div_right_comm (∑ r, (y r - mean y) * (x r - mean x))]
    congr 1
    rw [sum_div]
    refine sum_congr rfl fun r _ => ?_
    field_simp
  rw [e, div_pow, mul_pow, hsx, hsy]

theorem log_four : 1 < Real.log (4 : ℕ) ∧ Real.log (4 : ℕ) < 2 := by
  have h : Real.log (4 : ℕ) = 2 * Real.log 2 := by
    rw [show ((4 : ℕ) : ℝ) = 2 ^ 2 by norm_num, Real.log_pow]
    norm_num
  rw [h]
  constructor
  · linarith [Real.log_two_gt_d9]
  · linarith [Real.log_two_lt_d9]

theorem lassoData_identified : Identified 3 lassoData := by
  intro w b0 h j hj
  have h0 := h 0
  have h1 := h 1
  have h2 := h 2
  have h3 := h 3
  simp [lassoData, Finset.sum_range_succ] at h0 h1 h2 h3
  interval_cases j <;> linarith

/-- The strong effect is kept with its coefficient, the weak one is dropped although the correlation is not 0, and the exact one is
dropped too. -/
example (hlin : RightRegression lin) (hlars : RightPath lars) (hN : N = 4) :
    (∀ X : Nat → Fin N → ℝ, (∀ j r, X j r = lassoData j (Fin.cast hN r)) →
      predict lin lars X [0] 1 0 = 1 ∧ predict lin lars X [0] 2 0 = 0 ∧ predict lin lars X [0] 3 0 = 0) := by
  subst hN
  intro X hX
  have hX : X = lassoData := by funext j r; exact hX j r
  subst hX
  obtain ⟨-, -, -, v0, v1, v2, c1, c2⟩ := lassoData_stats
  have s0 : sampleVar (lassoData 0) = 1 := v0
  have s1 : sampleVar (lassoData 1) = 2 := v1
  have s2 : sampleVar (lassoData 2) = 3 := v2
  have r1 : correlation (lassoData 0) (lassoData 1) ^ 2 = 1 / 2 := by
    rw [correlation_sq (by norm_num) (by rw [v0]; norm_num) (by rw [v1]; norm_num), c1, v0, v1]; norm_num
  have r2 : correlation (lassoData 0) (lassoData 2) ^ 2 = 1 / 3 := by
    rw [correlation_sq (by norm_num) (by rw [v0]; norm_num) (by rw [v2]; norm_num), c2, v0, v2]; norm_num
  refine ⟨?_, ?_, ?_⟩
  · rw [C198_one_predictor hlin hlars (by norm_num) (by rw [s0]; norm_num) (by rw [s1]; norm_num) (by rw [r1]; norm_num), r1, ← slope_eq, c1, v0,
      if_pos (by push_cast; have := log_four.2; push_cast at this; linarith)]
    norm_num
  · rw [C198_one_predictor hlin hlars (by norm_num) (by rw [s0]; norm_num) (by rw [s2]; norm_num) (by rw [r2]; norm_num), r2,
      if_neg (by push_cast; have := log_four.1; push_cast at this; linarith)]
  · refine C198_exact_target hlin hlars (b0 := 3) (w := fun _ => 2) (fun r => ?_) 0
    fin_cases r <;> simp [lassoData] <;> norm_num

/-- The hypotheses of C198_keeps_some hold for the strong effect. -/
example {lin : Lin 4} {lars : Lars 4} (hlin : RightRegression lin) (hlars : RightPath lars) :
    ∃ k, k < 1 ∧ predict lin lars lassoData [0] 1 k ≠ 0 := by
  obtain ⟨-, -, -, v0, v1, v2, c1, c2⟩ := lassoData_stats
  have s0 : sampleVar (lassoData 0) = 1 := v0
  have s1 : sampleVar (lassoData 1) = 2 := v1
  have s2 : sampleVar (lassoData 2) = 3 := v2
  have hu : unexplained ([0].map lassoData) (lassoData 1) 0 (fun _ => 1) = ![1, -1, 1, -1] := by
    funext r
    fin_cases r <;> simp [unexplained, lassoData] <;> norm_num
  refine C198_keeps_some hlin hlars (ps := [0]) (R := 4) (by simp) (b0 := 0) (w := fun _ => 1) ⟨?_, ?_⟩ ?_ (by norm_num) ?_
  · rw [hu]; simp [Fin.sum_univ_four]
  · rw [hu]; intro k hk
    have : k = 0 := by simpa using hk
    subst this
    simp [lassoData, Fin.sum_univ_four]
  · rw [hu]; simp [Fin.sum_univ_four]; norm_num
  · rw [s1]
    have := log_four.2
    simp only [List.length_singleton]
    push_cast at this ⊢
    linarith

/-- The two variables of the strong effect: an edge is reported. -/
example {lin : Lin 4} {lars : Lars 4} (hlin : RightRegression lin) (hlars : RightPath lars) {cfg : Direct.Config}
    (hpk : cfg.pk = none) : ∃ a b B, fitLasso cfg lin lars 2 lassoData = .ok ([a, b], B) ∧ B b a ≠ 0 := by
  obtain ⟨-, -, -, v0, v1, v2, c1, c2⟩ := lassoData_stats
  have s0 : sampleVar (lassoData 0) = 1 := v0
  have s1 : sampleVar (lassoData 1) = 2 := v1
  have s2 : sampleVar (lassoData 2) = 3 := v2
  have r1 : correlation (lassoData 0) (lassoData 1) ^ 2 = 1 / 2 := by
    rw [correlation_sq (by norm_num) (by rw [v0]; norm_num) (by rw [v1]; norm_num), c1, v0, v1]; norm_num
  obtain ⟨a, b, B, hab, hf, -, hB⟩ := (C198_two_variables hlin hlars hpk (X := lassoData) (by rw [s0]; norm_num) (by rw [s1]; norm_num)
    (by rw [r1]; norm_num)).2 (by norm_num)
  refine ⟨a, b, B, hf, ?_⟩
  rw [hB, r1, if_pos (by push_cast; have := log_four.2; push_cast at this; linarith)]
  have hc : cov (lassoData 0) (lassoData 1) = 1 := by
    rw [← c1]
    unfold cov
    congr 1
    funext r
    ring
  rcases hab with ⟨rfl, rfl⟩ | ⟨rfl, rfl⟩
  · rw [← slope_eq, c1, v0]; norm_num
  · rw [← slope_eq, hc, v1]; norm_num

/-- C197 with other units for the data above: oracles exist, and the coefficient of the strong effect is converted. -/
example : ∃ (lin : Lin 4) (lars : Lars 4), RightRegression lin ∧ RightPath lars ∧
    (∀ k, predict lin lars (fun j r => (j + 2 : ℝ) * lassoData j r + 7) [0, 1] 2 k =
      predict lin lars lassoData [0, 1] 2 k * ((2 + 2) / (([0, 1].getD k 0 : ℕ) + 2))) ∧
    ∀ o B, fitLasso { } lin lars 3 lassoData = .ok (o, B) → ∃ B', fitLasso { } lin lars 3 (fun j r => (j + 2 : ℝ) * lassoData j r + 7) =
      .ok (o, B') ∧ ∀ i j : ℕ, B' i j = B i j * ((i + 2) / (j + 2)) := by
  obtain ⟨lin, lars, h1, h2⟩ := exists_oracles 4
  refine ⟨lin, lars, h1, h2, fun k => ?_, (C197_fit { } h1 lars lassoData_identified (c := fun j => j + 2) (a := fun _ => 7)
    (fun j _ => by positivity)).2⟩
  have := C197_units h1 lars (X := lassoData) (ps := [0, 1]) (t := 2) (c := fun j => (j + 2 : ℝ)) (a := fun _ => 7)
    (independent_of_identified lassoData_identified (by simp) (by simp)) (fun j _ => by positivity) k
  exact_mod_cast this

end Verif.Pairwise
