import Verif.Proofs.LassoPath
import Verif.Proofs.LassoWalk
import Verif.Props.Unrelated
import Verif.Props.ConsistencyEffects

/-!
# Exactly the edges of the model (C261)
-/
set_option linter.unusedSectionVars false
set_option autoImplicit false
namespace Verif.Pairwise
open MeasureTheory ProbabilityTheory Filter Topology Consistency

section Sample

variable {N : Nat} {lin : Lin N} {lars : Lars N} {X : Nat → Fin N → ℝ} {ps : List Nat} {t : Nat}

theorem sum_scaled_sq (hN : N ≠ 0) (x : Fin N → ℝ) : (∑ r, scaled x r ^ 2) * scale x ^ 2 = N * sampleVar x := by
  have hN' : (N : ℝ) ≠ 0 := by exact_mod_cast hN
  have e : ∀ r, scaled x r ^ 2 * scale x ^ 2 = (x r - mean x) ^ 2 := by
    intro r
    have := scaled_eq x r
    rw [← mul_pow]
    congr 1
    linarith
  rw [Finset.sum_mul]
  simp only [e]
  have : sampleVar x = (∑ r, (x r - mean x) ^ 2) / N := rfl
  rw [this, mul_div_cancel₀ _ hN']

/-- C261: which of `m` predictors the pruning keeps if the path is a Lasso path: a predictor whose omission raises the errors enough is
kept, and one with a coefficient `w` in the full regression is dropped if `16 m² N (N - m - 1) w²` times its variance is at most `log N`
times the errors of the full regression.  If each predictor is of one of these kinds, the coefficients are those of the regression on
exactly the first kind. -/
theorem C261_exact (hlin : RightRegression lin) (hlars : RightPath lars) {n : Nat} (hpath : RightLasso n lars) (hn : ps.length < n)
    (hN : ps.length + 1 < N) (hi : IndependentCols (ps.map X)) {b0 : ℝ} {w : Nat → ℝ}
    (hw : SolvesRegression (ps.map X) (X t) b0 w) {R : ℝ} (hR : R = ∑ r, unexplained (ps.map X) (X t) b0 w r ^ 2) (hR0 : R ≠ 0)
    {F : Nat → Prop}
    (hkeep : ∀ k, k < ps.length → ¬ F k → ∃ R', (∀ c0 u, u k = 0 → R' ≤ ∑ r, unexplained (ps.map X) (X t) c0 u r ^ 2) ∧
      ps.length * Real.log N * R < (N - ps.length - 1) * (R' - R))
    (hdrop : ∀ k, k < ps.length → F k →
      16 * (ps.length : ℝ) ^ 2 * N * (N - ps.length - 1) * w k ^ 2 * sampleVar (X (ps.getD k 0)) ≤ Real.log N * R) :
    ∃ S : List Nat, S.Nodup ∧ (∀ k, k ∈ S ↔ k < ps.length ∧ ¬ F k) ∧ (∀ k, k ∉ S → predict lin lars X ps t k = 0) ∧
      ∃ c0, SolvesRegression (S.map (fun k => X (ps.getD k 0))) (X t) c0 (fun i => predict lin lars X ps t (S.getD i 0)) := by
  have hN0 : N ≠ 0 := by omega
  have hNp : (0 : ℝ) < N := by positivity
  have hN1 : (0 : ℝ) < N - ps.length - 1 := by
    have : (ps.length : ℝ) + 1 < N := by exact_mod_cast hN
    linarith
  have hlog : 0 < Real.log N := Real.log_pos (by exact_mod_cast (by omega : 1 < N))
  have hRpos : 0 < R := lt_of_le_of_ne (hR ▸ Finset.sum_nonneg fun r _ => sq_nonneg _) (Ne.symm hR0)
  set cols := ps.map (fun p => scaled (X p)) with hcols
  set y := scaled (X t) with hy
  set W := weighted lin cols y with hW
  have hlen : cols.length = ps.length := by simp [hcols]
  have hWlen : W.length = ps.length := by rw [hW, weighted_length, hlen]
  have hcc : ∀ x ∈ cols, ∑ r, x r = 0 := scaled_centred X ps
  have hWc : ∀ x ∈ W, ∑ r, x r = 0 := weighted_centred hcc
  have hs : 0 < scale (X t) ^ 2 := by have := scale_ne (X t); positivity
  have hnoise : noise lin W y = R / scale (X t) ^ 2 / (N - ps.length - 1) := by
    obtain ⟨b1, hb⟩ := hlin W y
    rw [intercept_zero hN0 (sum_scaled _) hWc hb] at hb
    unfold noise
    rw [rss_raw hN0 hlin hw hb, ← hR, hWlen]
  have hnpos : 0 < noise lin W y := by rw [hnoise]; positivity
  obtain ⟨b, l, hbl, hb0⟩ := hlars.start W y
  have hIC : larsIC lin lars W y = firstMin (bic lin W y) b l := by
    unfold larsIC
    rw [hbl]
    exact if_neg hnpos.ne'
  -- the full regression in the coordinates of the Lasso
  obtain ⟨b1, h1⟩ := hlin cols y
  have hb1 := intercept_zero hN0 (sum_scaled _) hcc h1
  subst hb1
  set sg : Nat → ℝ := fun k => SignType.sign (lin cols y k) with hsg
  have e : unexplained W y 0 sg = unexplained cols y 0 (lin cols y) := by
    funext r
    unfold unexplained
    rw [hW, weighted_length]
    congr 1
    refine Finset.sum_congr rfl fun k hk => ?_
    rw [weighted_get _ _ _ (Finset.mem_range.1 hk), weight]
    have := sign_mul_abs (lin cols y k)
    linear_combination (cols.getD k 0 r) * this
  have hsol : SolvesRegression W y 0 sg := by
    unfold SolvesRegression
    rw [e, hW, weighted_length]
    refine ⟨h1.1, fun k hk => ?_⟩
    simp only [weighted_get _ _ _ hk, ← mul_assoc]
    rw [← Finset.sum_mul, h1.2 k hk, zero_mul]
  have hsg1 : ∀ k, k < W.length → |sg k| ≤ 1 := by
    intro k _
    rw [hsg]
    beta_reduce
    cases SignType.sign (lin cols y k) <;> simp
  have hfull : ∑ r, unexplained W y 0 sg r ^ 2 = R / scale (X t) ^ 2 := by
    rw [← rss_unexplained, rss_raw hN0 hlin hw hsol, ← hR]
  -- the weights
  have hwt : ∀ k, k < ps.length → ∑ r, W.getD k 0 r ^ 2 = w k ^ 2 * (N * sampleVar (X (ps.getD k 0))) / scale (X t) ^ 2 := by
    intro k hk
    obtain ⟨b2, h2, -⟩ := leastSquares_units (cols := ps.map X) (cols' := cols) (by simp [hcols]) (y' := y)
      (s := fun k => scale (X (ps.getD k 0))) (a := fun k => mean (X (ps.getD k 0))) (scale_ne (X t)) (fun k _ => scale_ne _)
      (fun k hk r => by
        have hk : k < ps.length := by simpa using hk
        rw [col_get X hk, scaled_get X hk]
        exact scaled_eq _ r) (fun r => scaled_eq (X t) r) hw
    have hi' : IndependentCols cols := independent_units (cols := ps.map X) (cols' := cols) (by simp [hcols])
      (s := fun k => scale (X (ps.getD k 0))) (a := fun k => mean (X (ps.getD k 0)))
      (fun k hk r => by
        have hk : k < ps.length := by simpa using hk
        rw [col_get X hk, scaled_get X hk]
        exact scaled_eq _ r) (fun k _ => scale_ne _) hi
    have h3 := leastSquares_unique hi' h1 h2 (k := k) (by rw [hlen]; exact hk)
    have e1 : ∀ r, W.getD k 0 r ^ 2 = scaled (X (ps.getD k 0)) r ^ 2 * lin cols y k ^ 2 := by
      intro r
      rw [hW, weighted_get _ _ _ (by rw [hlen]; exact hk), weight, mul_pow, sq_abs, hcols, scaled_get X hk]
    simp only [e1]
    rw [← Finset.sum_mul, h3, ← sum_scaled_sq hN0]
    ring
  -- the vector of the path that uses only predictors of the first kind
  set Λ := noise lin W y * Real.log N / (4 * (ps.length + 1)) with hΛ
  have hΛ0 : 0 ≤ Λ := by positivity
  obtain ⟨z, hz, hzF, hzr⟩ := path_select (F := F) (hpath W y (by rw [hWlen]; exact hn) hWc (sum_scaled _)) (by rw [hbl]; simp)
    (fun k hk => by rw [hbl]; exact hb0 k hk) hsol hsg1 hΛ0 (fun k hk hFk => by
      rw [hWlen] at hk ⊢
      have hd := hdrop k hk hFk
      have hm : (1 : ℝ) ≤ ps.length := by exact_mod_cast (by omega : 1 ≤ ps.length)
      rw [hwt k hk, hΛ, hnoise]
      set q := w k ^ 2 * (N * sampleVar (X (ps.getD k 0))) with hq
      have hq0 : 0 ≤ q := by
        have : 0 ≤ sampleVar (X (ps.getD k 0)) := var_nonneg _
        positivity
      have hd' : 16 * (ps.length : ℝ) ^ 2 * (N - ps.length - 1) * q ≤ Real.log N * R := by
        rw [hq]; linarith
      have e2 : R / scale (X t) ^ 2 / (N - ps.length - 1) * Real.log N / (4 * (ps.length + 1)) =
          (Real.log N * R / (4 * (ps.length + 1) * (N - ps.length - 1))) / scale (X t) ^ 2 := by
        have := hs.ne'
        have := hN1.ne'
        field_simp
      rw [e2, ← mul_div_assoc]
      refine div_le_div_of_nonneg_right ?_ hs.le
      rw [le_div_iff₀ (by positivity)]
      refine le_trans ?_ hd'
      have h5 : 0 ≤ (N - ps.length - 1 : ℝ) * q := mul_nonneg hN1.le hq0
      have h6 : 2 * (ps.length : ℝ) * (4 * (ps.length + 1)) ≤ 16 * (ps.length : ℝ) ^ 2 := by nlinarith
      nlinarith)
  have hle := firstMin_le (bic lin W y) b l z (by rw [← hbl]; exact hz)
  rw [← hIC] at hle
  set v := larsIC lin lars W y with hvdef
  have hall : ∀ k, k < ps.length → ¬ F k → k ∈ kept lin lars cols y := by
    intro k hk hFk
    obtain ⟨R', hR', hlt⟩ := hkeep k hk hFk
    exact kept_of_raise hlin hlars hN hw hR hR0 hk hR' hlt
  have hnone : ∀ k, k < ps.length → F k → k ∉ kept lin lars cols y := by
    intro k0 hk0 hFk0 hmem
    have hvk0 : v k0 ≠ 0 := (mem_kept.1 hmem).2.1
    have hdz : dof W.length z + 1 ≤ dof W.length v := by
      unfold dof
      rw [← Finset.card_insert_of_notMem (a := k0) (s := (Finset.range W.length).filter (fun k => z k ≠ 0)) (by
        simp only [Finset.mem_filter, not_and, not_not]
        intro h
        exact hzF k0 (Finset.mem_range.1 h) hFk0)]
      refine Finset.card_le_card fun k hk => ?_
      rcases Finset.mem_insert.1 hk with rfl | hk
      · exact Finset.mem_filter.2 ⟨Finset.mem_range.2 (by rw [hWlen]; exact hk0), hvk0⟩
      · obtain ⟨hkr, hkz⟩ := Finset.mem_filter.1 hk
        have hkW := Finset.mem_range.1 hkr
        exact Finset.mem_filter.2 ⟨hkr, (mem_kept.1 (hall k (by rw [← hWlen]; exact hkW) fun hFk => hkz (hzF k hkW hFk))).2.1⟩
    have hdz' : (dof W.length z : ℝ) + 1 ≤ dof W.length v := by exact_mod_cast hdz
    obtain ⟨c0, u, -, hu⟩ := rss_any (lin := lin) (X := X) (ps := ps) (t := t) v
    have hrv : R / scale (X t) ^ 2 ≤ rss W y v := by
      rw [hu, hR]
      exact div_le_div_of_nonneg_right (least_rss hw c0 u) hs.le
    have hrz : rss W y z ≤ R / scale (X t) ^ 2 + noise lin W y * Real.log N / 2 := by
      rw [rss_unexplained, ← hfull]
      refine hzr.trans (by
        have h7 : 2 * (W.length : ℝ) * Λ ≤ noise lin W y * Real.log N / 2 := by
          rw [hWlen, hΛ, ← mul_div_assoc, div_le_div_iff₀ (by positivity) two_pos]
          have : 0 ≤ noise lin W y * Real.log N := by positivity
          nlinarith
        linarith)
    unfold bic at hle
    have h8 : rss W y v / noise lin W y + Real.log N * dof W.length v ≤ rss W y z / noise lin W y + Real.log N * dof W.length z := by linarith
    have h9 : rss W y z / noise lin W y ≤ rss W y v / noise lin W y + Real.log N / 2 := by
      rw [div_le_iff₀ hnpos, add_mul, div_mul_cancel₀ _ hnpos.ne']
      linarith
    have h10 : Real.log N * (dof W.length z + 1) ≤ Real.log N * dof W.length v := mul_le_mul_of_nonneg_left hdz' hlog.le
    linarith
  refine ⟨kept lin lars cols y, kept_nodup _ _ _ _, fun k => ⟨fun hk => ?_, fun hk => hall k hk.1 hk.2⟩, fun k hk => ?_, ?_⟩
  · have hk' : k < ps.length := by rw [← hlen]; exact kept_lt hk
    exact ⟨hk', fun hF => hnone k hk' hF hk⟩
  · unfold predict; exact if_neg hk
  · exact kept_regression hlin

/-- Two columns of which the third one uses only the first. -/
def eightData (j : Nat) : Fin 8 → ℝ :=
  if j = 0 then ![1, 1, 1, 1, -1, -1, -1, -1] else if j = 1 then ![1, 1, -1, -1, 1, 1, -1, -1] else ![4, 2, 4, 2, -2, -4, -2, -4]

theorem eight_unexplained (c0 : ℝ) (u : Nat → ℝ) (r : Fin 8) : unexplained ([0, 1].map eightData) (eightData 2) c0 u r =
    eightData 2 r - c0 - (u 0 * eightData 0 r + u 1 * eightData 1 r) := by
  unfold unexplained
  simp [Finset.sum_range_succ]

/-- The hypotheses of C261_exact hold for `eightData`: the first predictor is kept and the second one is dropped. -/
example {lin : Lin 8} {lars : Lars 8} (hlin : RightRegression lin) (hlars : RightPath lars) (hpath : RightLasso 3 lars) :
    predict lin lars eightData [0, 1] 2 1 = 0 := by
  have hR : (8 : ℝ) = ∑ r, unexplained ([0, 1].map eightData) (eightData 2) 0 (fun k => if k = 0 then 3 else 0) r ^ 2 := by
    simp only [eight_unexplained]
    simp [eightData, Fin.sum_univ_eight]
    norm_num
  obtain ⟨S, -, hS, h0, -⟩ := C261_exact (X := eightData) (t := 2) (ps := [0, 1]) hlin hlars hpath (by simp) (by simp) (b0 := 0)
    (w := fun k => if k = 0 then 3 else 0) (R := 8) (F := fun k => k = 1)
    (by
      intro b0 w h k hk
      have h1 := h 0
      have h2 := h 2
      have h3 := h 4
      have h4 := h 6
      simp [Finset.sum_range_succ, eightData] at h1 h2 h3 h4 hk
      have : k = 0 ∨ k = 1 := by omega
      rcases this with rfl | rfl <;> linarith)
    ⟨by
      simp only [eight_unexplained]
      simp [eightData, Fin.sum_univ_eight], by
      intro k hk
      have : k = 0 ∨ k = 1 := by simp at hk; omega
      simp only [eight_unexplained]
      rcases this with rfl | rfl <;> simp [eightData, Fin.sum_univ_eight] <;> norm_num⟩ hR (by norm_num)
    (by
      intro k hk hF
      have : k = 0 := by simp at hk; omega
      subst this
      refine ⟨80, fun c0 u hu => ?_, ?_⟩
      · simp only [eight_unexplained, hu]
        simp [eightData, Fin.sum_univ_eight]
        nlinarith [sq_nonneg c0, sq_nonneg (u 1)]
      · have h8 : Real.log 8 = 3 * Real.log 2 := by
          rw [show (8 : ℝ) = 2 ^ 3 by norm_num, Real.log_pow]; norm_num
        have := Real.log_two_lt_d9
        norm_num
        rw [h8]
        linarith)
    (by
      intro k hk hF
      subst hF
      have : 0 ≤ Real.log 8 := Real.log_nonneg (by norm_num)
      simp
      positivity)
  exact h0 1 fun h => ((hS 1).1 h).2 rfl

end Sample

variable {Ω : Type*} [MeasurableSpace Ω] {P : Measure Ω} [IsProbabilityMeasure P] {R : Nat → Ω → Nat → ℝ} {n : Nat}

/-- The predictors kept for one target, if the averages of the products of the disturbance with the predictors are small. -/
theorem row_support {N : Nat} {ω : Ω} {c : ℝ} (hc : 0 < c)
    (hq : ∀ d : Nat → ℝ, c * size n d ^ 2 ≤ (∑ r : Fin N, form n d (R r ω) * form n d (R r ω)) / N) {ps : List Nat} {t : Nat}
    (hnd : ps.Nodup) (hlt : ∀ q ∈ ps, q < n) (ht : t < n) (htp : t ∉ ps) (hn : ps.length < n) (hN : ps.length + 1 < N) {β : Nat → ℝ}
    (hβ0 : ∀ k, k ∉ ps → k ≠ n → β k = 0) {γ K : ℝ} (hγ0 : 0 ≤ γ)
    (hγ : ∀ l, l ∈ ps ∨ l = n → |(∑ r : Fin N, (R r ω t - form n β (R r ω)) * ext n (R r ω) l) / N| ≤ γ)
    (hK : ∀ j, j < n → ∑ r : Fin N, R r ω j ^ 2 ≤ N * K)
    (hbig : ∀ q ∈ ps, β q ≠ 0 → (ps.length * Real.log N * K < (N - ps.length - 1) * (c * (|β q| / 2) ^ 2) ∧ (n + 1) * γ / c < |β q| / 2))
    (hsmall : 16 * (n : ℝ) ^ 2 * N * ((n + 1) * γ / c) ^ 2 * K ≤ Real.log N * c)
    {lin : Lin N} {lars : Lars N} (hlin : RightRegression lin) (hlars : RightPath lars) (hpath : RightLasso n lars)
    {p : Nat} (hp : p ∈ ps) : (predict lin lars (sampleOf R ω N) ps t (ps.idxOf p) ≠ 0 ↔ β p ≠ 0) ∧
      |predict lin lars (sampleOf R ω N) ps t (ps.idxOf p) - β p| ≤ (n + 1) * γ / c := by
  set X := sampleOf R ω N with hX
  have hN0 : N ≠ 0 := by omega
  have hNp : (0 : ℝ) < N := by positivity
  obtain ⟨b0, w, hw⟩ := exists_regression (ps.map X) (X t)
  have hnorm := fun l (hl : l ∈ ps ∨ l = n) => normal_equations hnd hlt hw hl
  have hfull : ∀ k, k ≤ n → |coefs n ps b0 w k - β k| ≤ ((n : ℝ) + 1) * γ / c := by
    intro k hk
    refine close hc hq (A := fun l => l ∈ ps ∨ l = n) (fun k _ hA => ?_) (fun l _ hA => hnorm l hA) hγ0 (fun l _ hA => hγ l hA) hk
    push Not at hA
    rw [coefs, if_neg hA.2, if_neg hA.1, hβ0 k hA.1 hA.2]
  have hcoef : ∀ k, k < ps.length → coefs n ps b0 w (ps.getD k 0) = w k := by
    intro k hk
    rw [getD_of_lt hk]
    have := hlt _ (List.getElem_mem hk)
    rw [coefs, if_neg (by omega), if_pos (List.getElem_mem hk), hnd.idxOf_getElem k hk]
  have hi : IndependentCols (ps.map X) := by
    intro c0 u h k hk
    have hk : k < ps.length := by simpa using hk
    have hz : ∀ r : Fin N, form n (coefs n ps c0 u) (R r ω) = 0 := by
      intro r
      have h1 := unexplained_form (R := R) (ω := ω) hnd hlt t c0 u r
      have h2 := h r
      unfold unexplained at h1
      have h3 : sampleOf R ω N t r = R r ω t := rfl
      rw [h3] at h1
      linarith
    have h1 := hq (coefs n ps c0 u)
    simp only [hz, mul_zero, Finset.sum_const_zero, zero_div] at h1
    have h2 : size n (coefs n ps c0 u) ^ 2 ≤ 0 := by
      by_contra hcon
      push Not at hcon
      have := mul_pos hc hcon
      linarith
    have h3 : size n (coefs n ps c0 u) = 0 := pow_eq_zero_iff two_ne_zero |>.1 (le_antisymm h2 (sq_nonneg _))
    have hmem := List.getElem_mem hk
    have h4 := le_size (n := n) (coefs n ps c0 u) (hlt _ hmem).le
    rw [h3] at h4
    have h5 := abs_eq_zero.1 (le_antisymm h4 (abs_nonneg _))
    have := hlt _ hmem
    rwa [coefs, if_neg (by omega), if_pos hmem, hnd.idxOf_getElem k hk] at h5
  set Rss := ∑ r, unexplained (ps.map X) (X t) b0 w r ^ 2 with hRss
  have hRss' : Rss = ∑ r : Fin N, (R r ω t - form n (coefs n ps b0 w) (R r ω)) ^ 2 := by
    rw [hRss]
    exact Finset.sum_congr rfl fun r _ => by rw [unexplained_form hnd hlt]
  have hRssle : Rss ≤ N * K := by
    have := raise hq hc.le hN0 (D := coefs n ps b0 w) (D' := fun _ => 0) (A := fun l => l ∈ ps ∨ l = n) (fun k _ hA => by
      push Not at hA
      rw [coefs, if_neg hA.2, if_neg hA.1]) (fun l _ hA => hnorm l hA) (k := n) le_rfl
    have e : ∀ r : Fin N, form n (fun _ => 0) (R r ω) = 0 := fun r => by simp [form]
    simp only [e, sub_zero] at this
    have h5 : 0 ≤ N * (c * (coefs n ps b0 w n) ^ 2) := by positivity
    rw [← hRss'] at this
    have := hK t ht
    linarith
  have hRssge : c * N ≤ Rss := by
    set d : Nat → ℝ := mix 1 (-1) (fun k => if k = t then 1 else 0) (coefs n ps b0 w) with hd
    have hf : ∀ v : Nat → ℝ, form n d v = v t - form n (coefs n ps b0 w) v := fun v => by rw [hd, form_mix, form_single ht]; ring
    have h1 := hq d
    simp only [hf, ← sq] at h1
    rw [← hRss', le_div_iff₀ hNp] at h1
    have h2 := le_size (n := n) d ht.le
    have h3 : d t = 1 := by
      rw [hd, mix, if_pos rfl, coefs, if_neg (by omega), if_neg htp]
      norm_num
    rw [h3, abs_one] at h2
    refine le_trans ?_ h1
    have := mul_le_mul_of_nonneg_left (one_le_pow₀ h2 (n := 2)) hc.le
    rw [mul_one] at this
    exact mul_le_mul_of_nonneg_right this hNp.le
  have hRss0 : Rss ≠ 0 := (lt_of_lt_of_le (mul_pos hc hNp) hRssge).ne'
  have hlog : 0 ≤ Real.log N := Real.log_natCast_nonneg N
  obtain ⟨S, hSnd, hSiff, hS0, c0, hS⟩ := C261_exact hlin hlars hpath hn hN hi hw hRss hRss0 (F := fun k => β (ps.getD k 0) = 0)
    (fun k hk hF => by
      have hqp : ps.getD k 0 ∈ ps := by rw [getD_of_lt hk]; exact List.getElem_mem hk
      set q := ps.getD k 0 with hqdef
      obtain ⟨g1, g2⟩ := hbig q hqp hF
      have hDq : |β q| / 2 ≤ |coefs n ps b0 w q| := by
        have h6 := hfull q (hlt q hqp).le
        have h7 := abs_sub_abs_le_abs_sub (β q) (coefs n ps b0 w q)
        rw [abs_sub_comm] at h7
        linarith
      refine ⟨Rss + N * (c * (|β q| / 2) ^ 2), fun c0 u hu => ?_, ?_⟩
      · have h8 := raise hq hc.le hN0 (D := coefs n ps b0 w) (D' := coefs n ps c0 u) (A := fun l => l ∈ ps ∨ l = n) (fun k _ hA => by
          push Not at hA
          rw [coefs, coefs, if_neg hA.2, if_neg hA.1, if_neg hA.2, if_neg hA.1]) (fun l _ hA => hnorm l hA) (k := q) (hlt q hqp).le
        have h9 : coefs n ps c0 u q = 0 := by
          have h := hlt q hqp
          have hidx : ps.idxOf q = k := by rw [hqdef, getD_of_lt hk]; exact hnd.idxOf_getElem k hk
          rw [coefs, if_neg (by omega), if_pos hqp, hidx, hu]
        rw [h9, sub_zero, ← hRss'] at h8
        have e : ∑ r : Fin N, (R r ω t - form n (coefs n ps c0 u) (R r ω)) ^ 2 = ∑ r, unexplained (ps.map X) (X t) c0 u r ^ 2 :=
          Finset.sum_congr rfl fun r _ => by rw [unexplained_form hnd hlt]
        rw [e] at h8
        have h10 : (|β q| / 2) ^ 2 ≤ (coefs n ps b0 w q) ^ 2 := by
          rw [← sq_abs (coefs n ps b0 w q)]
          exact pow_le_pow_left₀ (by positivity) hDq 2
        have h11 : N * (c * (|β q| / 2) ^ 2) ≤ N * (c * (coefs n ps b0 w q) ^ 2) :=
          mul_le_mul_of_nonneg_left (mul_le_mul_of_nonneg_left h10 hc.le) hNp.le
        linarith
      · have hl : 0 ≤ ps.length * Real.log N := mul_nonneg (Nat.cast_nonneg _) hlog
        have h12 : ps.length * Real.log N * Rss ≤ ps.length * Real.log N * (N * K) := mul_le_mul_of_nonneg_left hRssle hl
        have h13 := mul_lt_mul_of_pos_left g1 hNp
        have h14 : (N - ps.length - 1 : ℝ) * (Rss + N * (c * (|β q| / 2) ^ 2) - Rss) = N * ((N - ps.length - 1) * (c * (|β q| / 2) ^ 2)) := by ring
        rw [h14]
        have h15 : ps.length * Real.log N * (N * K) = N * (ps.length * Real.log N * K) := by ring
        linarith)
    (fun k hk hF => by
      have hqp : ps.getD k 0 ∈ ps := by rw [getD_of_lt hk]; exact List.getElem_mem hk
      have h6 := hfull (ps.getD k 0) (hlt _ hqp).le
      rw [hcoef k hk, hF, sub_zero] at h6
      set g := ((n : ℝ) + 1) * γ / c with hg
      have hg2 : w k ^ 2 ≤ g ^ 2 := by
        rw [← sq_abs (w k)]
        exact pow_le_pow_left₀ (abs_nonneg _) h6 2
      have hv0 : 0 ≤ sampleVar (X (ps.getD k 0)) := var_nonneg _
      have hv : sampleVar (X (ps.getD k 0)) ≤ K := by
        have hs : SolvesRegression (N := N) [] (X (ps.getD k 0)) (sampleMean (X (ps.getD k 0))) (fun _ => 0) := by
          refine ⟨?_, fun k hk => absurd hk (by simp)⟩
          unfold unexplained sampleMean
          simp only [List.length_nil, Finset.range_zero, Finset.sum_empty, Finset.sum_sub_distrib, Finset.sum_const, Finset.card_univ,
            Fintype.card_fin, nsmul_eq_mul, sub_zero]
          field_simp
          ring
        have h1 := least_rss hs 0 (fun _ => 0)
        unfold unexplained at h1
        simp only [List.length_nil, Finset.range_zero, Finset.sum_empty, sub_zero] at h1
        unfold sampleVar
        rw [div_le_iff₀ hNp, mul_comm]
        exact h1.trans (hK _ (hlt _ hqp))
      have hm1 : (N : ℝ) - ps.length - 1 ≤ N := by
        have : (0 : ℝ) ≤ ps.length := Nat.cast_nonneg _
        linarith
      have hm0 : (0 : ℝ) ≤ N - ps.length - 1 := by
        have : (ps.length : ℝ) + 1 < N := by exact_mod_cast hN
        linarith
      have hm2 : (ps.length : ℝ) ^ 2 ≤ (n : ℝ) ^ 2 := pow_le_pow_left₀ (Nat.cast_nonneg _) (by exact_mod_cast hn.le) 2
      calc 16 * (ps.length : ℝ) ^ 2 * N * (N - ps.length - 1) * w k ^ 2 * sampleVar (X (ps.getD k 0))
          ≤ 16 * (n : ℝ) ^ 2 * N * N * g ^ 2 * K := by gcongr
        _ = N * (16 * (n : ℝ) ^ 2 * N * g ^ 2 * K) := by ring
        _ ≤ N * (Real.log N * c) := mul_le_mul_of_nonneg_left hsmall hNp.le
        _ = Real.log N * (c * N) := by ring
        _ ≤ Real.log N * Rss := mul_le_mul_of_nonneg_left hRssge hlog)
  have hSlt : ∀ k ∈ S, k < ps.length := fun k hk => ((hSiff k).1 hk).1
  have hgetp : ∀ q ∈ ps, ps.getD (ps.idxOf q) 0 = q := fun q hq => by
    rw [getD_of_lt (List.idxOf_lt_length_of_mem hq), List.getElem_idxOf]
  have hmem : ∀ q ∈ ps, (ps.idxOf q ∈ S ↔ β q ≠ 0) := fun q hqp => by
    rw [hSiff, hgetp q hqp]
    exact ⟨fun h => h.2, fun h => ⟨List.idxOf_lt_length_of_mem hqp, h⟩⟩
  -- the regression on the predictors that are kept
  set S' := S.map (fun k => ps.getD k 0) with hS'
  have hS'nd : S'.Nodup := by
    refine (List.nodup_map_iff_inj_on hSnd).2 fun a ha b hb hab => ?_
    rw [getD_of_lt (hSlt a ha), getD_of_lt (hSlt b hb)] at hab
    exact (hnd.getElem_inj_iff).1 hab
  have hS'ps : ∀ q ∈ S', q ∈ ps := by
    intro q hq
    obtain ⟨k, hk, rfl⟩ := List.mem_map.1 hq
    rw [getD_of_lt (hSlt k hk)]
    exact List.getElem_mem _
  have hS'lt : ∀ q ∈ S', q < n := fun q hq => hlt q (hS'ps q hq)
  have hmap : S.map (fun k => X (ps.getD k 0)) = S'.map X := by rw [hS', List.map_map]; rfl
  rw [hmap] at hS
  set w' : Nat → ℝ := fun i => predict lin lars X ps t (S.getD i 0) with hw'
  have hin : ∀ q ∈ ps, q ∈ S' ↔ ps.idxOf q ∈ S := by
    intro q hqp
    have hiq := List.idxOf_lt_length_of_mem hqp
    constructor
    · intro h
      obtain ⟨k, hk, he⟩ := List.mem_map.1 h
      rw [← he, getD_of_lt (hSlt k hk), hnd.idxOf_getElem k (hSlt k hk)]
      exact hk
    · intro h
      refine List.mem_map.2 ⟨_, h, ?_⟩
      rw [getD_of_lt hiq, List.getElem_idxOf]
  have hval : ∀ q ∈ ps, coefs n S' c0 w' q = predict lin lars X ps t (ps.idxOf q) := by
    intro q hqp
    have := hlt q hqp
    rw [coefs, if_neg (by omega)]
    by_cases hqS : q ∈ S'
    · rw [if_pos hqS, hw']
      beta_reduce
      congr 1
      have hi := List.idxOf_lt_length_of_mem hqS
      have hi' : S'.idxOf q < S.length := by simpa [hS'] using hi
      have h16 : S'[S'.idxOf q] = q := List.getElem_idxOf hi
      rw [getD_of_lt hi']
      have hgen : ∀ i (hi : i < S'.length) (hi' : i < S.length), ps.getD S[i] 0 = S'[i] := by
        intro i hi hi'
        simp [hS']
      have h17 : ps.getD S[S'.idxOf q] 0 = q := (hgen _ hi hi').trans h16
      have hlt' := hSlt _ (List.getElem_mem hi')
      rw [getD_of_lt hlt'] at h17
      rw [← hnd.idxOf_getElem _ hlt', h17]
    · rw [if_neg hqS, hS0 _ fun h => hqS ((hin q hqp).2 h)]
  have h1 : |coefs n S' c0 w' p - β p| ≤ ((n : ℝ) + 1) * γ / c := by
    refine close hc hq (A := fun l => l ∈ S' ∨ l = n) (fun k _ hA => ?_) (fun l _ hA => normal_equations hS'nd hS'lt hS hA) hγ0
      (fun l _ hA => hγ l (hA.imp_left (hS'ps l))) (hlt p hp).le
    push Not at hA
    rw [coefs, if_neg hA.2, if_neg hA.1]
    by_cases hkp : k ∈ ps
    · by_contra hne
      exact hA.1 ((hin k hkp).2 ((hmem k hkp).2 fun h => hne h.symm))
    · exact (hβ0 k hkp hA.2).symm
  rw [hval p hp] at h1
  refine ⟨⟨fun h hz => h (hS0 _ fun hin' => (hmem p hp).1 hin' hz), fun hb hz => ?_⟩, h1⟩
  rw [hz, zero_sub, abs_neg] at h1
  have := (hbig p hp hb).2
  have := abs_pos.2 hb
  linarith

theorem sqrt_log_small : Tendsto (fun N : Nat => √(Real.log N / N)) atTop (𝓝 0) := by
  have h := (Real.isLittleO_log_id_atTop.tendsto_div_nhds_zero).comp tendsto_natCast_atTop_atTop
  have h2 := (Real.continuous_sqrt.tendsto 0).comp h
  rw [Real.sqrt_zero] at h2
  exact h2

/-- C261: if a variable is a linear function of the predictors plus a disturbance that is independent of each of them, the probability
that the pruning keeps anything else than exactly the predictors with a coefficient other than 0, or that an estimate differs from its
coefficient by more than any multiple of the square root of `log N / N`, tends to 0 with the number of rows, for whatever solvers. -/
theorem C261_row (hR : IidRows P R) (hreg : Regular P n (fun j ω => R 0 ω j)) {ps : List Nat} {t : Nat}
    (hnd : ps.Nodup) (hlt : ∀ q ∈ ps, q < n) (ht : t < n) (htp : t ∉ ps) {b : Nat → ℝ} {E : Ω → ℝ}
    (hE : ∀ ω, R 0 ω t = (ps.map (fun q => b q * R 0 ω q)).sum + E ω) (hind : ∀ p ∈ ps, IndepFun E (fun ω => R 0 ω p) P)
    {ε : ℝ} (hε : 0 < ε) :
    Tendsto (fun N => P {ω | ¬ ∀ (lin : Lin N) (lars : Lars N), RightRegression lin → RightPath lars → RightLasso n lars →
      ∀ p ∈ ps, (predict lin lars (sampleOf R ω N) ps t (ps.idxOf p) ≠ 0 ↔ b p ≠ 0) ∧
        |predict lin lars (sampleOf R ω N) ps t (ps.idxOf p) - b p| ≤ ε * √(Real.log N / N)}) atTop (𝓝 0) := by
  have h2 := hreg.square
  have hm : ∀ j, Measurable (fun ω => R 0 ω j) := fun j => (measurable_pi_apply j).comp (hR.measurable 0)
  have hL : ∀ j, j < n → MemLp (fun ω => R 0 ω j) 2 P := fun j hj =>
    (memLp_two_iff_integrable_sq (hm j).aestronglyMeasurable).2 (h2 j hj)
  have hlen : ps.length < n := by
    have h := (List.subperm_of_subset (l₂ := List.range n) (List.nodup_cons.2 ⟨htp, hnd⟩) (fun q hq => List.mem_range.2 (by
      rcases List.mem_cons.1 hq with rfl | hq
      · exact ht
      · exact hlt q hq))).length_le
    simp only [List.length_cons, List.length_range] at h
    omega
  have hsum : ∀ v : Nat → ℝ, (ps.map (fun q => b q * v q)).sum = ∑ k ∈ Finset.range n, (if k ∈ ps then b k else 0) * v k := by
    intro v
    rw [← List.sum_toFinset _ hnd]
    have hsub : ps.toFinset ⊆ Finset.range n := fun q hq => Finset.mem_range.2 (hlt q (List.mem_toFinset.1 hq))
    rw [← Finset.sum_subset hsub (f := fun k => (if k ∈ ps then b k else 0) * v k) (fun k _ hk => by
      rw [if_neg (fun h => hk (List.mem_toFinset.2 h)), zero_mul])]
    exact Finset.sum_congr rfl fun k hk => by rw [if_pos (List.mem_toFinset.1 hk)]
  have hEe : ∀ ω, E ω = R 0 ω t - ∑ k ∈ Finset.range n, (if k ∈ ps then b k else 0) * R 0 ω k := fun ω => by
    have := hE ω
    rw [hsum] at this
    linarith
  have hEL : MemLp E 2 P := by
    rw [show E = fun ω => R 0 ω t - ∑ k ∈ Finset.range n, (if k ∈ ps then b k else 0) * R 0 ω k from funext hEe]
    exact (hL t ht).sub (memLp_finsetSum _ fun k hk => (hL k (Finset.mem_range.1 hk)).const_mul _)
  set μ := meanOf P E with hμ
  have hcL : MemLp (fun ω => E ω - μ) 2 P := hEL.sub (memLp_const _)
  have hc0 : ∫ ω, (E ω - μ) ∂P = 0 := by
    rw [integral_sub (hEL.integrable (by norm_num)) (integrable_const _)]
    simp [hμ, meanOf]
  set β : Nat → ℝ := fun k => if k = n then μ else if k ∈ ps then b k else 0 with hβ
  have hβp : ∀ q ∈ ps, β q = b q := fun q hq => by
    have := hlt q hq
    rw [hβ]
    beta_reduce
    rw [if_neg (by omega), if_pos hq]
  have hres : ∀ ω, R 0 ω t - form n β (R 0 ω) = E ω - μ := by
    intro ω
    rw [form_split, hEe]
    have e1 : ∑ k ∈ Finset.range n, β k * R 0 ω k = ∑ k ∈ Finset.range n, (if k ∈ ps then b k else 0) * R 0 ω k := by
      refine Finset.sum_congr rfl fun k hk => ?_
      have := Finset.mem_range.1 hk
      rw [hβ]
      beta_reduce
      rw [if_neg (by omega : k ≠ n)]
    have e2 : β n = μ := by rw [hβ]; exact if_pos rfl
    rw [e1, e2]; ring
  have hprod : ∀ l, l ∈ ps ∨ l = n → MemLp (fun ω => (R 0 ω t - form n β (R 0 ω)) * ext n (R 0 ω) l) 2 P ∧
      ∫ ω, (R 0 ω t - form n β (R 0 ω)) * ext n (R 0 ω) l ∂P = 0 := by
    intro l hl
    simp only [hres]
    rcases hl with hl | rfl
    · have hln := hlt l hl
      simp only [ext, hln, if_true]
      have hi : IndepFun (fun ω => E ω - μ) (fun ω => R 0 ω l) P :=
        (hind l hl).comp (φ := fun x => x - μ) (ψ := id) (measurable_id.sub_const μ) measurable_id
      have hi2 : IndepFun (fun ω => (E ω - μ) ^ 2) (fun ω => R 0 ω l ^ 2) P :=
        (hind l hl).comp (φ := fun x => (x - μ) ^ 2) (ψ := fun x => x ^ 2) ((measurable_id.sub_const μ).pow_const 2) (measurable_id.pow_const 2)
      constructor
      · refine (memLp_two_iff_integrable_sq (hcL.1.mul (hm l).aestronglyMeasurable)).2 ?_
        have := hi2.integrable_mul ((memLp_two_iff_integrable_sq hcL.1).1 hcL) (h2 l hln)
        refine this.congr (Eventually.of_forall fun ω => ?_)
        simp only [Pi.mul_apply]; ring
      · rw [hi.integral_fun_mul_eq_mul_integral hcL.1 (hm l).aestronglyMeasurable, hc0, zero_mul]
    · simp only [ext, lt_irrefl, if_false, mul_one]
      exact ⟨hcL, hc0⟩
  obtain ⟨c, hc, hform⟩ := form_bound_gap hR hreg
  set K := (∑ j ∈ Finset.range n, ∫ x, R 0 x j * R 0 x j ∂P) + 1 with hK
  have hKj : ∀ j, j < n → (∫ x, R 0 x j * R 0 x j ∂P) + 1 ≤ K := fun j hj => by
    have := Finset.single_le_sum (s := Finset.range n) (f := fun j => ∫ x, R 0 x j * R 0 x j ∂P)
      (fun j _ => integral_nonneg fun x => mul_self_nonneg _) (Finset.mem_range.2 hj)
    rw [hK]
    beta_reduce at this
    linarith
  have hK1 : 1 ≤ K := by
    have : 0 ≤ ∑ j ∈ Finset.range n, ∫ x, R 0 x j * R 0 x j ∂P :=
      Finset.sum_nonneg fun j _ => integral_nonneg fun x => mul_self_nonneg _
    rw [hK]; linarith
  have hK0 : 0 < K := by linarith
  set κ' := √(c ^ 3 / (16 * ((n : ℝ) + 1) ^ 4 * K)) with hκ
  have hκpos : 0 < c ^ 3 / (16 * ((n : ℝ) + 1) ^ 4 * K) := by positivity
  set κ := min κ' (ε * c / ((n : ℝ) + 1)) with hκdef
  have hκ0 : 0 < κ := lt_min (Real.sqrt_pos.2 hκpos) (by positivity)
  refine prob_zero_of_union (s := (Finset.range (n + 1)).filter (fun l => l ∈ ps ∨ l = n))
    (B := fun N => {ω | min c 1 ≤ gap n P R N ω})
    (C := fun l N => {ω | κ * √(Real.log N / N) ≤ |(∑ r : Fin N, (R r ω t - form n β (R r ω)) * ext n (R r ω) l) / N|})
    (gap_prob hR h2 (lt_min hc one_pos)) (fun l hl => ?_) ?_
  · obtain ⟨hpL, hp0⟩ := hprod l (Finset.mem_filter.1 hl).2
    exact average_small hR (g := fun v => (v t - form n β v) * ext n v l)
      (((measurable_pi_apply t).sub (form_measurable n β)).mul (ext_measurable n l)) hpL hp0 hκ0
  have hbig : ∀ᶠ N : Nat in atTop, ∀ q ∈ ps.toFinset, β q ≠ 0 →
      (ps.length * Real.log N * K < (N - ps.length - 1) * (c * (|β q| / 2) ^ 2) ∧ (n + 1) * (κ * √(Real.log N / N)) / c < |β q| / 2) := by
    rw [eventually_all_finset]
    intro q _
    by_cases hq0 : β q = 0
    · exact Eventually.of_forall fun _ h => absurd hq0 h
    have hpos : 0 < |β q| / 2 := by have := abs_pos.2 hq0; positivity
    have hlim : Tendsto (fun N : Nat => ((n : ℝ) + 1) * (κ * √(Real.log N / N)) / c) atTop (𝓝 0) := by
      have := ((sqrt_log_small.const_mul κ).const_mul ((n : ℝ) + 1)).div_const c
      simpa using this
    filter_upwards [log_small ps.length hK0.le (η := c * (|β q| / 2) ^ 2) (by positivity), hlim.eventually_lt_const hpos] with N h1 h3 _
    exact ⟨h1, h3⟩
  filter_upwards [eventually_gt_atTop (n + 1), hbig] with N hN hbig ω hω
  by_contra hgood
  simp only [Set.mem_union, Set.mem_ofPred_eq, Set.mem_iUnion, Finset.mem_filter, not_or, not_exists, not_le] at hgood
  obtain ⟨hg, hav⟩ := hgood
  refine hω fun lin lars hlin hlars hpath p hp => ?_
  have hN' : (0 : ℝ) < N := by exact_mod_cast (by omega : 0 < N)
  have hq := hform N ω (hg.trans_le (min_le_left _ _))
  have hlog : 0 ≤ Real.log N := Real.log_natCast_nonneg N
  have hKN : ∀ j, j < n → ∑ r : Fin N, R r ω j ^ 2 ≤ N * K := by
    intro j hj
    have h1 : |(∑ r : Fin N, ext n (R r ω) j * ext n (R r ω) j) / N - ∫ x, ext n (R 0 x) j * ext n (R 0 x) j ∂P| ≤ gap n P R N ω := by
      unfold gap
      have hj' := Finset.mem_range.2 (show j < n + 1 by omega)
      refine le_trans ?_ (Finset.single_le_sum (f := fun k => ∑ l ∈ Finset.range (n + 1),
        |(∑ r : Fin N, ext n (R r ω) k * ext n (R r ω) l) / N - ∫ x, ext n (R 0 x) k * ext n (R 0 x) l ∂P|)
        (fun k _ => Finset.sum_nonneg fun l _ => abs_nonneg _) hj')
      exact Finset.single_le_sum (f := fun l =>
        |(∑ r : Fin N, ext n (R r ω) j * ext n (R r ω) l) / N - ∫ x, ext n (R 0 x) j * ext n (R 0 x) l ∂P|)
        (fun l _ => abs_nonneg _) hj'
    simp only [ext, hj, if_true] at h1
    have h3 := (abs_le.1 h1).2
    have h4 : gap n P R N ω < 1 := hg.trans_le (min_le_right _ _)
    have h5 := hKj j hj
    have h6 : (∑ r : Fin N, R r ω j * R r ω j) / N ≤ K := by linarith
    rw [div_le_iff₀ hN'] at h6
    simp only [sq]
    linarith
  have hsmall : 16 * (n : ℝ) ^ 2 * N * ((n + 1) * (κ * √(Real.log N / N)) / c) ^ 2 * K ≤ Real.log N * c := by
    have hp : 0 ≤ Real.log N / N := by positivity
    have hle : 16 * (n : ℝ) ^ 2 * N * ((n + 1) * (κ * √(Real.log N / N)) / c) ^ 2 * K ≤
        16 * (n : ℝ) ^ 2 * N * ((n + 1) * (κ' * √(Real.log N / N)) / c) ^ 2 * K := by
      have := min_le_left κ' (ε * c / ((n : ℝ) + 1))
      gcongr
    refine hle.trans ?_
    have e : 16 * (n : ℝ) ^ 2 * N * ((n + 1) * (κ' * √(Real.log N / N)) / c) ^ 2 * K =
        (n : ℝ) ^ 2 / ((n : ℝ) + 1) ^ 2 * (Real.log N * c) := by
      rw [div_pow, mul_pow, mul_pow, Real.sq_sqrt hp, hκ, Real.sq_sqrt hκpos.le]
      have h1 : (n : ℝ) + 1 ≠ 0 := by positivity
      have := hc.ne'
      have := hK0.ne'
      field_simp
    rw [e]
    refine mul_le_of_le_one_left (by positivity) ?_
    rw [div_le_one (by positivity)]
    have : (0 : ℝ) ≤ n := Nat.cast_nonneg _
    nlinarith
  rw [← hβp p hp]
  have hrow := row_support hc hq hnd hlt ht htp hlen (by omega) (β := β) (fun k hk hkn => by rw [hβ]; beta_reduce; rw [if_neg hkn, if_neg hk])
    (by positivity) (fun l hl => (hav l ⟨Finset.mem_range.2 (by
      rcases hl with hl | rfl
      · have := hlt l hl; omega
      · omega), hl⟩).le) hKN (fun q hq => hbig q (List.mem_toFinset.2 hq)) hsmall hlin hlars hpath hp
  refine ⟨hrow.1, hrow.2.trans ?_⟩
  rw [div_le_iff₀ hc]
  have h1 : κ ≤ ε * c / ((n : ℝ) + 1) := min_le_right _ _
  rw [le_div_iff₀ (by positivity)] at h1
  have := mul_le_mul_of_nonneg_right h1 (Real.sqrt_nonneg (Real.log N / N))
  linarith

/-- The variables are linear functions of the disturbances of the variables up to them. -/
theorem combination {o : List Nat} (hperm : o.Perm (List.range n)) {B : Nat → Nat → ℝ} {e : Nat → Ω → ℝ}
    (hmod : LinearModel P (fun j ω => R 0 ω j) o B e) (l : List Nat) : ∀ rest, o = l ++ rest → ∀ p ∈ l,
      ∃ a : Nat → ℝ, (∀ j, a j ≠ 0 → j ∈ l) ∧ ∀ ω, R 0 ω p = ∑ j ∈ Finset.range n, a j * e j ω := by
  induction l using List.reverseRecOn with
  | nil => intro _ _ p hp; exact absurd hp (by simp)
  | append_singleton l q ih =>
    intro rest ho p hp
    have ho' : o = l ++ q :: rest := by rw [ho]; simp
    have hnd : l.Nodup := by
      have h := hperm.nodup_iff.2 List.nodup_range
      rw [ho', List.nodup_append] at h
      exact h.1
    have hqn : q < n := List.mem_range.1 (hperm.mem_iff.1 (by rw [ho']; simp))
    rcases List.mem_append.1 hp with hp | hp
    · obtain ⟨a, h1, h2⟩ := ih _ ho' p hp
      exact ⟨a, fun j hj => List.mem_append_left _ (h1 j hj), h2⟩
    have hpq : p = q := by simpa using hp
    subst hpq
    choose! A hA1 hA2 using ih _ ho'
    refine ⟨fun j => (∑ r ∈ l.toFinset, B p r * A r j) + if j = p then 1 else 0, fun j hj => ?_, fun ω => ?_⟩
    · by_contra hjl
      refine hj ?_
      have hjp : j ≠ p := fun h => hjl (by rw [h]; simp)
      beta_reduce
      rw [if_neg hjp, add_zero]
      refine Finset.sum_eq_zero fun r hr => ?_
      have : A r j = 0 := by
        by_contra h0
        exact hjl (List.mem_append_left _ (hA1 r (List.mem_toFinset.1 hr) j h0))
      rw [this, mul_zero]
    · have h := hmod.eq l p rest ho' ω
      beta_reduce at h
      rw [h, ← List.sum_toFinset _ hnd]
      simp only [add_mul, Finset.sum_add_distrib, ite_mul, one_mul, zero_mul, Finset.sum_ite_eq', Finset.mem_range, hqn, if_true]
      congr 1
      simp only [Finset.sum_mul]
      rw [Finset.sum_comm]
      refine Finset.sum_congr rfl fun r hr => ?_
      rw [hA2 r (List.mem_toFinset.1 hr) ω, Finset.mul_sum]
      exact Finset.sum_congr rfl fun j _ => by ring

/-- If the disturbances are independent, each is independent of the variables before its own. -/
theorem earlier_indep (hR : IidRows P R) {o : List Nat} (hperm : o.Perm (List.range n)) {B : Nat → Nat → ℝ} {e : Nat → Ω → ℝ}
    (hmod : LinearModel P (fun j ω => R 0 ω j) o B e) (hind : iIndepFun (fun (i : Fin n) => e i) P) {pre post : List Nat} {t p : Nat}
    (ho : o = pre ++ t :: post) (hp : p ∈ pre) : IndepFun (e t) (fun ω => R 0 ω p) P := by
  have hm : ∀ j, Measurable (fun ω => R 0 ω j) := fun j => (measurable_pi_apply j).comp (hR.measurable 0)
  have hnd := hperm.nodup_iff.2 List.nodup_range
  have htn : t < n := List.mem_range.1 (hperm.mem_iff.1 (by rw [ho]; simp))
  have hem : ∀ i : Fin n, Measurable (e i) := by
    intro i
    obtain ⟨pr, po, hs⟩ := List.append_of_mem (hperm.mem_iff.2 (List.mem_range.2 i.2))
    have hndp : pr.Nodup := by
      rw [hs, List.nodup_append] at hnd
      exact hnd.1
    have : e i = fun ω => R 0 ω i - ∑ q ∈ pr.toFinset, B i q * R 0 ω q := by
      funext ω
      have h := hmod.eq pr i po hs ω
      beta_reduce at h
      rw [← List.sum_toFinset _ hndp] at h
      linarith
    rw [this]
    exact (hm i).sub (Finset.measurable_sum _ fun q _ => (hm q).const_mul _)
  obtain ⟨a, ha, hsum⟩ := combination hperm hmod pre _ ho p hp
  have hat : a t = 0 := by
    by_contra h0
    have h := ha t h0
    rw [ho, List.nodup_append] at hnd
    exact hnd.2.2 t h t (by simp) rfl
  have h1 : iIndepFun (fun (i : Fin n) => (fun x => (if (i : Nat) = t then 1 else a i) * x) ∘ e i) P :=
    hind.comp (fun (i : Fin n) x => (if (i : Nat) = t then 1 else a i) * x) fun i => measurable_const_mul _
  have h2 := h1.indepFun_finsetSum_of_notMem (fun i => (measurable_const_mul _).comp (hem i))
    (s := Finset.univ.erase (⟨t, htn⟩ : Fin n)) (i := ⟨t, htn⟩) (by simp)
  have e1 : ((fun x => (if ((⟨t, htn⟩ : Fin n) : Nat) = t then (1 : ℝ) else a t) * x) ∘ e t) = e t := by
    funext ω
    simp
  have e2 : (∑ j ∈ Finset.univ.erase (⟨t, htn⟩ : Fin n), (fun x => (if (j : Nat) = t then 1 else a j) * x) ∘ e j) = fun ω => R 0 ω p := by
    funext ω
    rw [Finset.sum_apply, hsum ω, Finset.sum_range (fun j => a j * e j ω),
      ← Finset.add_sum_erase Finset.univ (fun j : Fin n => a j * e j ω) (Finset.mem_univ (⟨t, htn⟩ : Fin n))]
    rw [hat, zero_mul, zero_add]
    refine Finset.sum_congr rfl fun j hj => ?_
    have : (j : Nat) ≠ t := fun h => (Finset.mem_erase.1 hj).1 (Fin.ext h)
    simp only [Function.comp, this, if_false]
  rw [e2] at h2
  have h3 := h2.symm
  rwa [e1] at h3

theorem prob_zero_finite {ι : Type} {A : Nat → Set Ω} {C : ι → Nat → Set Ω} {s : Finset ι}
    (hC : ∀ l ∈ s, Tendsto (fun N => P (C l N)) atTop (𝓝 0)) (h : ∀ᶠ N in atTop, A N ⊆ ⋃ l ∈ s, C l N) :
    Tendsto (fun N => P (A N)) atTop (𝓝 0) := by
  have hlim : Tendsto (fun N => ∑ l ∈ s, P (C l N)) atTop (𝓝 0) := by
    have := tendsto_finsetSum s hC
    simpa using this
  refine tendsto_of_tendsto_of_tendsto_of_le_of_le' tendsto_const_nhds hlim (Eventually.of_forall fun _ => bot_le) ?_
  filter_upwards [h] with N hN
  exact (measure_mono hN).trans (measure_biUnion_finset_le _ _)

/-- C261: for rows drawn from a linear model with independent disturbances, the probability that the pruning, run in any causal order of
the model and with or without prior knowledge that forbids no edge of the model, yields anything else than exactly the edges of
the model, or an entry that is wrong by more than any multiple of the square root of `log N / N`, tends to 0 with the number of rows,
for whatever solvers. -/
theorem C261_support (hR : IidRows P R) (hreg : Regular P n (fun j ω => R 0 ω j)) {o : List Nat} (hperm : o.Perm (List.range n))
    {B : Nat → Nat → ℝ} {e : Nat → Ω → ℝ} (hmod : LinearModel P (fun j ω => R 0 ω j) o B e)
    (hind : iIndepFun (fun (i : Fin n) => e i) P) {pk : Option Direct.PK} (hpk : ∀ q, pk = some q → ∀ i j, B i j ≠ 0 → q i j ≠ 0)
    {ε : ℝ} (hε : 0 < ε) :
    Tendsto (fun N => P {ω | ¬ ∀ (lin : Lin N) (lars : Lars N), RightRegression lin → RightPath lars → RightLasso n lars →
      ∀ o', CausalOrder n B o' → ∀ i j,
        (Direct.estimateAdj pk (fun ps t p => predict lin lars (sampleOf R ω N) ps t (ps.idxOf p)) o' i j ≠ 0 ↔ B i j ≠ 0) ∧
        |Direct.estimateAdj pk (fun ps t p => predict lin lars (sampleOf R ω N) ps t (ps.idxOf p)) o' i j - B i j| ≤ ε * √(Real.log N / N)})
      atTop (𝓝 0) := by
  refine prob_zero_finite (s := (finite_orders (n := n) B).toFinset ×ˢ Finset.range n)
    (C := fun l N => {ω | ¬ ∀ (lin : Lin N) (lars : Lars N), RightRegression lin → RightPath lars → RightLasso n lars →
      ∀ j, (Direct.estimateAdj pk (fun ps t p => predict lin lars (sampleOf R ω N) ps t (ps.idxOf p)) l.1 l.2 j ≠ 0 ↔ B l.2 j ≠ 0) ∧
        |Direct.estimateAdj pk (fun ps t p => predict lin lars (sampleOf R ω N) ps t (ps.idxOf p)) l.1 l.2 j - B l.2 j| ≤
          ε * √(Real.log N / N)})
    (fun l hl => ?_) (Eventually.of_forall fun N ω hω => ?_)
  · obtain ⟨o', i⟩ := l
    obtain ⟨hl1, hl2⟩ := Finset.mem_product.1 hl
    have ho' : CausalOrder n B o' := by simpa using hl1
    have hin : i < n := Finset.mem_range.1 hl2
    have hmod' := reorder hmod hperm ho'
    have hnd := causal_nodup ho'
    have hlt : ∀ q ∈ o', q < n := fun q hq => List.mem_range.1 (ho'.1.mem_iff.1 hq)
    obtain ⟨pre, post, hs⟩ := List.append_of_mem (ho'.1.mem_iff.2 (List.mem_range.2 hin))
    have hsub : ∀ q ∈ pre, q ∈ o' := fun q hq => by rw [hs]; simp [hq]
    have hndp : pre.Nodup := by rw [hs, List.nodup_append] at hnd; exact hnd.1
    have hip : i ∉ pre := by
      rw [hs, List.nodup_append] at hnd
      exact fun h => hnd.2.2 i h i (by simp) rfl
    set ps := Direct.predictors pk pre i with hps
    have hpsub : ps.Sublist pre := by
      rw [hps]
      cases pk with
      | none => exact List.Sublist.refl _
      | some q => exact List.filter_sublist
    have hpsmem : ∀ q ∈ pre, B i q ≠ 0 → q ∈ ps := by
      intro q hq hBq
      rw [hps]
      cases pk with
      | none => exact hq
      | some k =>
        have hne : i ≠ q := fun h => hip (h ▸ hq)
        refine List.mem_filter.2 ⟨hq, ?_⟩
        simp only [hne, if_false]
        simpa using hpk k rfl i q hBq
    have hsum : ∀ v : Nat → ℝ, (ps.map (fun q => B i q * v q)).sum = (pre.map (fun q => B i q * v q)).sum := by
      intro v
      rw [← List.sum_toFinset _ hndp, ← List.sum_toFinset _ (hpsub.nodup hndp)]
      refine Finset.sum_subset (fun q hq => ?_) fun q hq hq' => ?_
      · have := hpsub.subset (by simpa using hq : q ∈ ps)
        simpa using this
      · have h1 : q ∈ pre := by simpa using hq
        have h2 : q ∉ ps := by simpa using hq'
        have : B i q = 0 := by by_contra h0; exact h2 (hpsmem q h1 h0)
        rw [this, zero_mul]
    have hrow := C261_row hR hreg (hpsub.nodup hndp) (fun q hq => hlt q (hsub q (hpsub.subset hq))) hin (fun h => hip (hpsub.subset h))
      (b := B i) (E := e i) (fun ω => by
        have h := hmod'.eq pre i post hs ω
        beta_reduce at h
        rw [hsum (fun q => R 0 ω q)]
        exact h)
      (fun p hp => earlier_indep hR ho'.1 hmod' hind hs (hpsub.subset hp)) hε
    refine tendsto_of_tendsto_of_tendsto_of_le_of_le tendsto_const_nhds hrow (fun _ => bot_le) fun N => measure_mono fun ω hω hgood => ?_
    refine hω fun lin lars hlin hlars hpath j => ?_
    rw [Direct.estimateAdj_row (hs ▸ hnd) hs]
    by_cases hj : j ∈ Direct.predictors pk pre i
    · rw [if_pos hj]
      exact hgood lin lars hlin hlars hpath j hj
    · rw [if_neg hj]
      have hB0 : B i j = 0 := by
        by_contra h
        exact hj (hpsmem j (order_row hnd ho'.2 hs j h) h)
      rw [hB0, sub_self, abs_zero]
      exact ⟨Iff.rfl, by positivity⟩
  · by_contra hgood
    simp only [Set.mem_iUnion, Set.mem_ofPred_eq, Finset.mem_product, Set.Finite.mem_toFinset, not_exists, not_not] at hgood
    refine hω fun lin lars hlin hlars hpath o' ho' i j => ?_
    by_cases hi : i < n
    · exact hgood (o', i) ⟨ho', Finset.mem_range.2 hi⟩ lin lars hlin hlars hpath j
    have hio : i ∉ o' := fun h => hi (List.mem_range.1 (ho'.1.mem_iff.1 h))
    have e1 : Direct.estimateAdj pk (fun ps t p => predict lin lars (sampleOf R ω N) ps t (ps.idxOf p)) o' i j = 0 := by
      by_contra hne
      obtain ⟨⟨a, ha, -⟩, -⟩ := Direct.estimateAdj_apply _ _ _ _ _ hne
      obtain ⟨hlt, hget⟩ := List.getElem?_eq_some_iff.1 ha
      exact absurd (hget ▸ List.getElem_mem hlt) hio
    have e2 : B i j = 0 := by
      by_contra hne
      obtain ⟨pre, post, h, -⟩ := ho'.2 i j hne
      exact absurd (by rw [h]; simp) hio
    rw [e1, e2, sub_self, abs_zero]
    exact ⟨Iff.rfl, by positivity⟩

/-- C261: the probability that `fit` of DirectLiNGAM finds a causal order of the model and yet returns a matrix with a false edge,
without a true one, or with an entry that is wrong by more than any multiple of the square root of `log N / N`, tends to 0 with the number of rows, for whatever solvers. -/
theorem C261_fit {cfg : Direct.Config} (hR : IidRows P R) (hreg : Regular P n (fun j ω => R 0 ω j)) {o : List Nat}
    (hperm : o.Perm (List.range n)) {B : Nat → Nat → ℝ} {e : Nat → Ω → ℝ} (hmod : LinearModel P (fun j ω => R 0 ω j) o B e)
    (hind : iIndepFun (fun (i : Fin n) => e i) P) (hpk : ∀ q, cfg.pk = some q → ∀ i j, B i j ≠ 0 → q i j ≠ 0)
    {ε : ℝ} (hε : 0 < ε) :
    Tendsto (fun N => P {ω | ∃ (lin : Lin N) (lars : Lars N), RightRegression lin ∧ RightPath lars ∧ RightLasso n lars ∧
      ∃ o' B', fitLasso cfg lin lars n (sampleOf R ω N) = .ok (o', B') ∧ CausalOrder n B o' ∧
        ∃ i j, ¬ ((B' i j ≠ 0 ↔ B i j ≠ 0) ∧ |B' i j - B i j| ≤ ε * √(Real.log N / N))})
      atTop (𝓝 0) := by
  refine tendsto_of_tendsto_of_tendsto_of_le_of_le tendsto_const_nhds (C261_support hR hreg hperm hmod hind hpk hε) (fun _ => bot_le)
    fun N => measure_mono fun ω hω hgood => ?_
  obtain ⟨lin, lars, hlin, hlars, hpath, o', B', hfit, ho', i, j, hij⟩ := hω
  refine hij ?_
  have h := hgood lin lars hlin hlars hpath o' ho' i j
  unfold fitLasso at hfit
  split at hfit
  · cases hfit
  · split_ifs at hfit
    simp only [Except.ok.injEq, Prod.mk.injEq] at hfit
    rw [← hfit.1] at h
    rw [← hfit.2]
    exact h

/-! ### Examples -/

/-- The Lasso for one column, at any penalty: the least squares coefficient shrunk. -/
theorem lasso_one {N : Nat} {x y : Fin N → ℝ} {w : Nat → ℝ} (h : SolvesRegression [x] y 0 w) {θ : ℝ} (h0 : 0 ≤ θ) (h1 : θ ≤ 1) :
    LassoMin [x] y ((1 - θ) * |∑ r, x r * y r|) (fun k => θ * w k) := by
  intro u
  have hw := one_column h
  set s := ∑ r, x r ^ 2 with hs
  set A := ∑ r, x r * y r with hA
  have hs0 : 0 ≤ s := Finset.sum_nonneg fun r _ => sq_nonneg _
  have key : ∀ v : Nat → ℝ, ∑ r, unexplained [x] y 0 v r ^ 2 = ∑ r, y r ^ 2 - 2 * v 0 * A + v 0 ^ 2 * s := by
    intro v
    rw [hA, hs, Finset.mul_sum, Finset.mul_sum, ← Finset.sum_sub_distrib, ← Finset.sum_add_distrib]
    refine Finset.sum_congr rfl fun r _ => ?_
    unfold unexplained
    simp only [List.length_singleton, Finset.sum_range_one, List.getD_cons_zero]
    ring
  rw [key, key]
  simp only [List.length_singleton, Finset.sum_range_one]
  have hAw : |A| * |θ * w 0| = θ * (w 0 ^ 2 * s) := by
    rw [← hw, abs_mul, abs_mul, abs_of_nonneg hs0, abs_of_nonneg h0]
    have := sq_abs (w 0)
    linear_combination (θ * s) * this
  have hAu : u 0 * A ≤ |A| * |u 0| := by
    rw [mul_comm |A|, ← abs_mul]
    exact le_abs_self _
  have h2 := mul_le_mul_of_nonneg_left hAu (by linarith : 0 ≤ 1 - θ)
  have h3 : 0 ≤ s * (u 0 - θ * w 0) ^ 2 := by positivity
  rw [mul_assoc (1 - θ) |A| |θ * w 0|, hAw, mul_assoc (1 - θ) |A| |u 0|]
  have t1 : w 0 * A = w 0 ^ 2 * s := by rw [← hw]; ring
  have t2 : u 0 * A = u 0 * w 0 * s := by rw [← hw]; ring
  set m := (1 - θ) * (|A| * |u 0|)
  rw [t2] at h2
  have t3 : 2 * (θ * w 0) * A = 2 * θ * (w 0 ^ 2 * s) := by rw [← t1]; ring
  have t4 : 2 * u 0 * A = 2 * (u 0 * w 0 * s) := by rw [← t2]; ring
  rw [t3, t4]
  nlinarith

/-- For data of one column at most the Lasso path has two vectors: 0 and the least squares coefficient. -/
theorem exists_lasso_one (N : Nat) : ∃ (lin : Lin N) (lars : Lars N), RightRegression lin ∧ RightPath lars ∧ RightLasso 2 lars := by
  classical
  choose b w h using fun (cols : List (Fin N → ℝ)) (y : Fin N → ℝ) => exists_regression cols y
  have key : ∀ cols y, (∀ x ∈ cols, ∑ r, x r = 0) → ∑ r, y r = 0 → SolvesRegression cols y 0 (w cols y) := by
    intro cols y hc hy
    by_cases hN : N = 0
    · subst hN
      exact ⟨by simp, fun k _ => by simp⟩
    · have := h cols y
      rwa [intercept_zero hN hy hc this] at this
  refine ⟨w, fun cols y => [fun _ => 0, w cols y], fun cols y => ⟨b cols y, h cols y⟩, ⟨fun cols y => ⟨_, _, rfl, fun _ _ => rfl⟩,
    fun cols y hc hy => ⟨_, by simp, key cols y hc hy⟩, fun x y hx hy v hv => ?_⟩, fun cols y hlen hc hy => ?_⟩
  · simp only [List.mem_cons, List.not_mem_nil, or_false] at hv
    rcases hv with rfl | rfl
    · exact Or.inl rfl
    · exact Or.inr (key [x] y (by simpa using hx) hy)
  match cols, hlen, hc with
  | [], _, _ =>
    have hm : ∀ v, LassoMin (N := N) [] y 0 v := fun v u => by simp [unexplained]
    exact ⟨fun _ => 0, fun i _ => ⟨le_rfl, hm _⟩, rfl, fun i _ => ⟨le_rfl, fun θ _ _ => by
      rw [mul_zero, mul_zero, add_zero]
      exact hm _⟩⟩
  | [x], _, hc =>
    have hk := key [x] y hc hy
    have h0 : LassoMin [x] y |∑ r, x r * y r| (fun _ => 0) := by
      have := lasso_one hk (θ := 0) le_rfl zero_le_one
      simpa using this
    have h1 : LassoMin [x] y 0 (w [x] y) := by
      have := lasso_one hk (θ := 1) zero_le_one le_rfl
      simpa using this
    refine ⟨fun i => if i = 0 then |∑ r, x r * y r| else 0, fun i hi => ?_, rfl, fun i hi => ?_⟩
    · have : i = 0 ∨ i = 1 := by simp only [List.length_cons, List.length_nil] at hi; omega
      rcases this with rfl | rfl
      · exact ⟨abs_nonneg _, h0⟩
      · exact ⟨le_rfl, h1⟩
    · have : i = 0 := by simp only [List.length_cons, List.length_nil] at hi; omega
      subst this
      refine ⟨abs_nonneg _, fun θ hθ0 hθ => ?_⟩
      have := lasso_one hk hθ0 hθ
      simpa using this

/-- Least squares routines and Lasso paths as in the hypotheses exist for any number of variables and rows. -/
theorem exists_lasso (N n : Nat) : ∃ (lin : Lin N) (lars : Lars N), RightRegression lin ∧ RightPath lars ∧ RightLasso n lars := by
  classical
  obtain ⟨lin, lars, hlin, hlars, hone⟩ := exists_lasso_one N
  have key : ∀ (cols : List (Fin N → ℝ)) (y : Fin N → ℝ), ∃ l : List (Nat → ℝ), (∃ b l', l = b :: l' ∧ ∀ k, k < cols.length → b k = 0) ∧
      ((∀ x ∈ cols, ∑ r, x r = 0) → ∑ r, y r = 0 → LassoPath cols y l ∧ ∃ v ∈ l, SolvesRegression cols y 0 v) ∧
      (cols.length < 2 → l = lars cols y) := by
    intro cols y
    by_cases h2 : cols.length < 2
    · exact ⟨lars cols y, hlars.start cols y, fun hc hy => ⟨hone cols y h2 hc hy, hlars.stop cols y hc hy⟩, fun _ => rfl⟩
    by_cases hc : (∀ x ∈ cols, ∑ r, x r = 0) ∧ ∑ r, y r = 0
    · obtain ⟨w, -, hw⟩ := hlars.stop cols y hc.1 hc.2
      obtain ⟨l, hl, hv⟩ := Walk.exists_path (w := w) (fun u => by
        rw [rss_split (v := u) hw]
        exact le_add_of_nonneg_right (Finset.sum_nonneg fun r _ => sq_nonneg _)) hc.1 hc.2
      exact ⟨_, ⟨_, _, rfl, fun _ _ => rfl⟩, fun _ _ => ⟨hl, hv⟩, fun h => absurd h h2⟩
    · exact ⟨[fun _ => 0], ⟨_, _, rfl, fun _ _ => rfl⟩, fun h1 h2 => absurd ⟨h1, h2⟩ hc, fun h => absurd h h2⟩
  choose l h1 h2 h3 using key
  refine ⟨lin, l, hlin, ⟨h1, fun cols y hc hy => (h2 cols y hc hy).2, fun x y hx hy w hw => ?_⟩, fun cols y _ hc hy => (h2 cols y hc hy).1⟩
  rw [h3 [x] y (by simp)] at hw
  exact hlars.one x y hx hy w hw

/-- The matrix of C257: the first variable is a cause of the second one. -/
def forwardMatrix (i j : Nat) : ℝ := if i = 1 ∧ j = 0 then 1 else 0

theorem forward_model : LinearModel (draws (24 * 24)) (fun j ω => drawn threeX 0 ω j) [0, 1] forwardMatrix
    (fun j ω => threePair j (ω 0)) where
  eq pre t post ho ω := by
    match pre, ho with
    | [], ho =>
      have ht : t = 0 := by simpa using (List.cons.inj ho).1.symm
      subst ht
      simp [drawn, threeX, threePair]
    | [a], ho =>
      simp only [List.cons_append, List.nil_append, List.cons.injEq] at ho
      obtain ⟨rfl, rfl, -⟩ := ho
      simp [drawn, threeX, threePair, forwardMatrix]
    | a :: b :: l, ho =>
      have := congrArg List.length ho
      simp at this
  zero i j h := by
    unfold forwardMatrix
    refine if_neg fun hij => h ⟨[0], [], ?_, ?_⟩
    · rw [hij.1]; rfl
    · rw [hij.2]; simp
  uncorrelated s hs t ht hst := by
    have n0 : (fun ω : Nat → Fin (24 * 24) => threePair 0 (ω 0)) = fun ω => 1 * firstE (ω 0) + 0 * secondE (ω 0) := by
      funext ω; simp [threePair]
    have n1 : (fun ω : Nat → Fin (24 * 24) => threePair 1 (ω 0)) = fun ω => 0 * firstE (ω 0) + 1 * secondE (ω 0) := by
      funext ω; simp [threePair]
    simp only [List.mem_cons, List.not_mem_nil, or_false] at hs ht
    rcases hs with rfl | rfl <;> rcases ht with rfl | rfl
    · exact absurd rfl hst
    · rw [n0, n1, cov_three]; ring
    · rw [n0, n1, cov_three]; ring
    · exact absurd rfl hst

/-- The disturbances of the example are independent. -/
theorem forward_indep : iIndepFun (fun (i : Fin 2) (ω : Nat → Fin (24 * 24)) => threePair i (ω 0)) (draws (24 * 24)) := by
  rw [iIndepFun_iff_measure_inter_preimage_eq_mul]
  intro S sets hS
  have h := (three_indep 0).measure_inter_preimage_eq_mul (sets 0) (sets 1)
  have hcases : S = ∅ ∨ S = {0} ∨ S = {1} ∨ S = {0, 1} := by clear hS; revert S; decide
  rcases hcases with rfl | rfl | rfl | rfl
  · simp
  · simp
  · simp
  · simp only [Finset.mem_insert, Finset.mem_singleton, Set.iInter_iInter_eq_or_left, Set.iInter_iInter_eq_left]
    rw [Finset.prod_pair (by decide)]
    exact h (hS 0 (by simp)) (hS 1 (by simp))

/-- The hypotheses of C261_support and C261_fit (and of C261_row for its rows) hold for the variables of C257, with the edge in the right
direction; a path as required exists (`exists_lasso`). -/
example : Tendsto (fun N => draws (24 * 24) {ω | ¬ ∀ (lin : Lin N) (lars : Lars N), RightRegression lin → RightPath lars → RightLasso 2 lars →
    ∀ o', CausalOrder 2 forwardMatrix o' → ∀ i j, (Direct.estimateAdj none
      (fun ps t p => predict lin lars (sampleOf (drawn threeX) ω N) ps t (ps.idxOf p)) o' i j ≠ 0 ↔ forwardMatrix i j ≠ 0) ∧
      |Direct.estimateAdj none (fun ps t p => predict lin lars (sampleOf (drawn threeX) ω N) ps t (ps.idxOf p)) o' i j - forwardMatrix i j| ≤
        1 / 100 * √(Real.log N / N)}) atTop (𝓝 0) :=
  C261_support (drawn_iid threeX) (drawn_regular three_identified) (o := [0, 1]) (by decide) forward_model forward_indep
    (pk := none) (fun _ h => nomatch h) (by norm_num)

end Verif.Pairwise
