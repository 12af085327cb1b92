import Verif.Props.AdaptiveLasso

/-!
# Predictors that the pruning keeps (C255)
-/
set_option linter.unusedSectionVars false
set_option autoImplicit false
namespace Verif.Pairwise
open Finset

variable {N : Nat} {lin : Lin N} {lars : Lars N} {X : Nat → Fin N → ℝ} {ps : List Nat} {t : Nat}

/-- Any coefficients for the weighted columns leave what some coefficients in the original units leave, converted. -/
theorem rss_any (v : Nat → ℝ) :
    ∃ c0 u, (∀ k, k < ps.length → (v k * weight lin (ps.map (fun p => scaled (X p))) (scaled (X t)) k = 0 → u k = 0)) ∧
      rss (weighted lin (ps.map (fun p => scaled (X p))) (scaled (X t))) (scaled (X t)) v =
        (∑ r, unexplained (ps.map X) (X t) c0 u r ^ 2) / scale (X t) ^ 2 := by
  set wt := weight lin (ps.map (fun p => scaled (X p))) (scaled (X t)) with hwt
  refine ⟨mean (X t) - ∑ k ∈ range ps.length, scale (X t) * (v k * wt k) / scale (X (ps.getD k 0)) * mean (X (ps.getD k 0)),
    fun k => scale (X t) * (v k * wt k) / scale (X (ps.getD k 0)), fun k _ h => by beta_reduce; rw [h]; simp, ?_⟩
  unfold rss
  rw [sum_div]
  refine sum_congr rfl fun r _ => ?_
  rw [← div_pow]
  congr 1
  have hs := scale_ne (X t)
  rw [eq_div_iff hs]
  unfold unexplained comb
  rw [weighted_length, List.length_map, List.length_map]
  have e1 := scaled_eq (X t) r
  have e2 : ∑ k ∈ range ps.length, v k * (weighted lin (ps.map (fun p => scaled (X p))) (scaled (X t))).getD k 0 r =
      ∑ k ∈ range ps.length, v k * wt k * scaled (X (ps.getD k 0)) r := by
    refine sum_congr rfl fun k hk => ?_
    have hk := mem_range.1 hk
    rw [weighted_get _ _ _ (by simpa using hk), scaled_get X hk, ← hwt]; ring
  have e3 : ∑ k ∈ range ps.length, scale (X t) * (v k * wt k) / scale (X (ps.getD k 0)) * (ps.map X).getD k 0 r =
      scale (X t) * (∑ k ∈ range ps.length, v k * wt k * scaled (X (ps.getD k 0)) r) +
      ∑ k ∈ range ps.length, scale (X t) * (v k * wt k) / scale (X (ps.getD k 0)) * mean (X (ps.getD k 0)) := by
    rw [mul_sum, ← sum_add_distrib]
    refine sum_congr rfl fun k hk => ?_
    have hk := mem_range.1 hk
    have h0 := scale_ne (X (ps.getD k 0))
    rw [col_get X hk, scaled_eq (X (ps.getD k 0)) r]
    field_simp
  rw [e2, e3, e1]
  ring

/-- The coefficients are those of the regression on the columns that are kept. -/
theorem kept_regression (hlin : RightRegression lin) :
    ∃ c0, SolvesRegression ((kept lin lars (ps.map (fun p => scaled (X p))) (scaled (X t))).map (fun k => X (ps.getD k 0))) (X t) c0
      (fun i => predict lin lars X ps t ((kept lin lars (ps.map (fun p => scaled (X p))) (scaled (X t))).getD i 0)) := by
  set S := kept lin lars (ps.map (fun p => scaled (X p))) (scaled (X t)) with hS
  obtain ⟨c0, hb⟩ := hlin (S.map (fun k => X (ps.getD k 0))) (X t)
  refine ⟨c0, ?_⟩
  have hw : ∀ i, i < S.length → predict lin lars X ps t (S.getD i 0) =
      lin (S.map (fun k => X (ps.getD k 0))) (X t) i := by
    intro i hi
    unfold predict
    simp only
    rw [← hS, getD_of_lt hi, if_pos (List.getElem_mem hi), (kept_nodup _ _ _ _).idxOf_getElem i hi]
  have hu : unexplained (S.map (fun k => X (ps.getD k 0))) (X t) c0 (fun i => predict lin lars X ps t (S.getD i 0)) =
      unexplained (S.map (fun k => X (ps.getD k 0))) (X t) c0 (lin (S.map (fun k => X (ps.getD k 0))) (X t)) := by
    funext r
    unfold unexplained
    congr 1
    refine sum_congr rfl fun i hi => ?_
    beta_reduce
    rw [hw i (by simpa using hi)]
  unfold SolvesRegression
  rw [hu]
  exact hb

/-- A column whose omission raises the errors enough is kept. -/
theorem kept_of_raise (hlin : RightRegression lin) (hlars : RightPath lars) (hN : ps.length + 1 < N) {b0 : ℝ} {w : Nat → ℝ}
    (hw : SolvesRegression (ps.map X) (X t) b0 w) {R : ℝ} (hR : R = ∑ r, unexplained (ps.map X) (X t) b0 w r ^ 2) (hR0 : R ≠ 0) {k : Nat} (hk : k < ps.length) {R' : ℝ}
    (hR' : ∀ c0 u, u k = 0 → R' ≤ ∑ r, unexplained (ps.map X) (X t) c0 u r ^ 2)
    (hF : ps.length * Real.log N * R < (N - ps.length - 1) * (R' - R)) :
    k ∈ kept lin lars (ps.map (fun p => scaled (X p))) (scaled (X t)) := by
  set S := kept lin lars (ps.map (fun p => scaled (X p))) (scaled (X t)) with hS
  by_contra hnot
  have hN0 : N ≠ 0 := by omega
  have hN1 : (0 : ℝ) < N - ps.length - 1 := by
    have : (ps.length : ℝ) + 1 < N := by exact_mod_cast hN
    linarith
  have hlog : 0 ≤ Real.log N := Real.log_natCast_nonneg N
  have hRpos : 0 < R := lt_of_le_of_ne (hR ▸ sum_nonneg fun r _ => sq_nonneg _) (Ne.symm hR0)
  set cols := ps.map (fun p => scaled (X p)) with hcols
  set y := scaled (X t) with hy
  set W := weighted lin cols y with hW
  have hlen : cols.length = ps.length := by simp [hcols]
  have hWlen : W.length = ps.length := by rw [hW, weighted_length, hlen]
  have hWc : ∀ x ∈ W, ∑ r, x r = 0 := weighted_centred (scaled_centred X ps)
  have hs : 0 < scale (X t) ^ 2 := by have := scale_ne (X t); positivity
  have hnoise : noise lin W y = R / scale (X t) ^ 2 / (N - ps.length - 1) := by
    obtain ⟨b1, hb⟩ := hlin W y
    rw [intercept_zero hN0 (sum_scaled _) hWc hb] at hb
    unfold noise
    rw [rss_raw hN0 hlin hw hb, ← hR, hWlen]
  have hnpos : 0 < noise lin W y := by rw [hnoise]; positivity
  obtain ⟨b, l, hbl, hb0⟩ := hlars.start W y
  obtain ⟨ws, hws, hws'⟩ := hlars.stop W y hWc (sum_scaled _)
  have hIC : larsIC lin lars W y = firstMin (bic lin W y) b l := by
    unfold larsIC
    rw [hbl]
    exact if_neg hnpos.ne'
  have hle := firstMin_le (bic lin W y) b l ws (by rw [← hbl]; exact hws)
  rw [← hIC] at hle
  set v := larsIC lin lars W y with hvdef
  have hv0 : v k * weight lin cols y k = 0 := by
    by_contra hne
    refine hnot ?_
    rw [hS, mem_kept]
    refine ⟨by rw [hlen]; exact hk, left_ne_zero_of_mul hne, fun h => right_ne_zero_of_mul hne ?_⟩
    rw [weight, h, abs_zero]
  obtain ⟨c0, u, hu0, hu⟩ := rss_any (lin := lin) (X := X) (ps := ps) (t := t) v
  have hrss : R' / scale (X t) ^ 2 ≤ rss W y v := by
    rw [hu]
    exact div_le_div_of_nonneg_right (hR' c0 u (hu0 k hk hv0)) hs.le
  have hd : (dof W.length ws : ℝ) ≤ ps.length := by
    unfold dof
    have := card_filter_le (range W.length) (fun k => ws k ≠ 0)
    rw [card_range, hWlen] at this
    rw [hWlen]
    exact_mod_cast this
  unfold bic at hle
  rw [rss_raw hN0 hlin hw hws', ← hR] at hle
  have hdv : (0 : ℝ) ≤ Real.log N * dof W.length v := by positivity
  have h1 : R' / scale (X t) ^ 2 / noise lin W y ≤ rss W y v / noise lin W y := by gcongr
  have h2 : Real.log N * dof W.length ws ≤ Real.log N * ps.length := by gcongr
  have h3 : R' / scale (X t) ^ 2 / noise lin W y ≤ R / scale (X t) ^ 2 / noise lin W y + Real.log N * ps.length := by linarith
  rw [div_le_iff₀ hnpos, add_mul, div_mul_cancel₀ _ hnpos.ne', hnoise] at h3
  have h4 := mul_le_mul_of_nonneg_right h3 (mul_pos hs hN1).le
  have hsc := scale_ne (X t)
  have hN1' := hN1.ne'
  have h5 : (R / scale (X t) ^ 2 + Real.log N * ps.length * (R / scale (X t) ^ 2 / (N - ps.length - 1))) * (scale (X t) ^ 2 * (N - ps.length - 1)) =
      R * (N - ps.length - 1) + Real.log N * ps.length * R := by
    field_simp
  have h6 : R' / scale (X t) ^ 2 * (scale (X t) ^ 2 * (N - ps.length - 1)) = R' * (N - ps.length - 1) := by field_simp
  rw [h5, h6] at h4
  nlinarith

/-- C255: the pruning keeps every predictor whose omission would raise the residual sum of squares from `R` to at least `R'`, where
`(N - m - 1) (R' - R) > m log N R` with `m` predictors: it is in the set of predictors on which the target is finally regressed. -/
theorem C255_keeps (hlin : RightRegression lin) (hlars : RightPath lars) (hN : ps.length + 1 < N) {b0 : ℝ} {w : Nat → ℝ}
    (hw : SolvesRegression (ps.map X) (X t) b0 w) {R : ℝ} (hR : R = ∑ r, unexplained (ps.map X) (X t) b0 w r ^ 2) (hR0 : R ≠ 0) :
    ∃ S : List Nat, S.Nodup ∧ (∀ k ∈ S, k < ps.length) ∧ (∀ k, k ∉ S → predict lin lars X ps t k = 0) ∧
      (∃ c0, SolvesRegression (S.map (fun k => X (ps.getD k 0))) (X t) c0 (fun i => predict lin lars X ps t (S.getD i 0))) ∧
      ∀ k, k < ps.length → ∀ R', (∀ c0 u, u k = 0 → R' ≤ ∑ r, unexplained (ps.map X) (X t) c0 u r ^ 2) →
        ps.length * Real.log N * R < (N - ps.length - 1) * (R' - R) → k ∈ S := by
  exact ⟨_, kept_nodup _ _ _ _, fun k hk => by simpa using kept_lt hk, fun k hk => by unfold predict; exact if_neg hk, kept_regression hlin,
    fun k hk R' hR' hF => kept_of_raise hlin hlars hN hw hR hR0 hk hR' hF⟩

/-- The hypotheses of C255_keeps hold for the strong effect in `lassoData`, and the predictor is kept. -/
example {lin : Lin 4} {lars : Lars 4} (hlin : RightRegression lin) (hlars : RightPath lars) :
    ∃ S : List Nat, 0 ∈ S ∧ ∃ c0, SolvesRegression (S.map (fun k => lassoData ([0].getD k 0))) (lassoData 1) c0
      (fun i => predict lin lars lassoData [0] 1 (S.getD i 0)) := by
  have hu : ∀ c0 u r, unexplained ([0].map lassoData) (lassoData 1) c0 u r = lassoData 1 r - c0 - u 0 * lassoData 0 r := by
    intro c0 u r
    unfold unexplained
    simp
  obtain ⟨S, -, -, -, hS, hk⟩ := C255_keeps hlin hlars (ps := [0]) (X := lassoData) (t := 1) (R := 4) (by simp) (b0 := 0) (w := fun _ => 1)
    ⟨by simp only [hu]; simp [lassoData, Fin.sum_univ_four],
      by
        intro k hk
        have : k = 0 := by simpa using hk
        subst this
        simp only [hu]
        simp [lassoData, Fin.sum_univ_four]
        norm_num⟩
    (by simp only [hu]; simp [lassoData, Fin.sum_univ_four]; norm_num) (by norm_num)
  refine ⟨S, hk 0 (by simp) 8 (fun c0 u h0 => ?_) ?_, hS⟩
  · simp only [hu, h0]
    simp [lassoData, Fin.sum_univ_four]
    nlinarith [sq_nonneg c0]
  · have h4 : Real.log 4 = 2 * Real.log 2 := by
      rw [show (4 : ℝ) = 2 ^ 2 by norm_num, Real.log_pow]; norm_num
    have := Real.log_two_lt_d9
    norm_num
    rw [h4]
    linarith

end Verif.Pairwise
