import Verif.Proofs.LassoColumns
import Mathlib.Data.List.GetD

/-!
# Rows in another order: lemmas for the adaptive Lasso (C222)
-/
set_option linter.unusedSectionVars false
set_option autoImplicit false
namespace Verif.Pairwise
open Finset

variable {N : Nat} {lin : Lin N} {lars : Lars N} {cols : List (Fin N → ℝ)} {y : Fin N → ℝ}

theorem inRows_length (σ : Equiv.Perm (Fin N)) : (inRows σ cols).length = cols.length := by simp [inRows]

theorem inRows_get (σ : Equiv.Perm (Fin N)) (k : Nat) (r : Fin N) : (inRows σ cols).getD k 0 r = cols.getD k 0 (σ r) := by
  unfold inRows
  by_cases hk : k < cols.length
  · rw [list_getD_map _ _ hk 0 0]
  · rw [List.getD_eq_default _ _ (by simpa using hk), List.getD_eq_default _ _ (by simpa using hk)]
    rfl

theorem unexplained_rows (σ : Equiv.Perm (Fin N)) (b0 : ℝ) (w : Nat → ℝ) :
    unexplained (inRows σ cols) (fun r => y (σ r)) b0 w = fun r => unexplained cols y b0 w (σ r) := by
  funext r
  unfold unexplained
  simp only [inRows_length, inRows_get]

theorem solves_rows (σ : Equiv.Perm (Fin N)) {b0 : ℝ} {w : Nat → ℝ} (h : SolvesRegression cols y b0 w) :
    SolvesRegression (inRows σ cols) (fun r => y (σ r)) b0 w := by
  unfold SolvesRegression
  rw [unexplained_rows]
  refine ⟨(Equiv.sum_comp σ _).trans h.1, fun k hk => ?_⟩
  rw [inRows_length] at hk
  simp only [inRows_get]
  exact (Equiv.sum_comp σ fun r => unexplained cols y b0 w r * cols.getD k 0 r).trans (h.2 k hk)

theorem independent_rows (σ : Equiv.Perm (Fin N)) (hi : IndependentCols cols) : IndependentCols (inRows σ cols) := by
  intro b0 w hz k hk
  rw [inRows_length] at hz hk
  refine hi b0 w (fun r => ?_) k hk
  have := hz (σ.symm r)
  simpa only [inRows_get, Equiv.apply_symm_apply] using this

theorem lin_rows (hlin : RightRegression lin) (σ : Equiv.Perm (Fin N)) (hi : IndependentCols cols) {k : Nat} (hk : k < cols.length) :
    lin (inRows σ cols) (fun r => y (σ r)) k = lin cols y k := by
  obtain ⟨b0, h0⟩ := hlin cols y
  obtain ⟨b1, h1⟩ := hlin (inRows σ cols) (fun r => y (σ r))
  exact leastSquares_unique (independent_rows σ hi) h1 (solves_rows σ h0) (by rw [inRows_length]; exact hk)

theorem rss_rows (σ : Equiv.Perm (Fin N)) (w : Nat → ℝ) : rss (inRows σ cols) (fun r => y (σ r)) w = rss cols y w := by
  rw [rss_unexplained, rss_unexplained, unexplained_rows]
  exact Equiv.sum_comp σ fun r => unexplained cols y 0 w r ^ 2

theorem noise_rows (hN : N ≠ 0) (hlin : RightRegression lin) (σ : Equiv.Perm (Fin N)) (hc : ∀ x ∈ cols, ∑ r, x r = 0)
    (hy : ∑ r, y r = 0) : noise lin (inRows σ cols) (fun r => y (σ r)) = noise lin cols y := by
  have hc' : ∀ x ∈ inRows σ cols, ∑ r, x r = 0 := by
    intro x hx
    obtain ⟨z, hz, rfl⟩ := List.mem_map.1 hx
    exact (Equiv.sum_comp σ z).trans (hc z hz)
  obtain ⟨b0, h0⟩ := hlin cols y
  obtain ⟨b1, h1⟩ := hlin (inRows σ cols) (fun r => y (σ r))
  have e0 := intercept_zero hN hy hc h0
  have e1 := intercept_zero hN ((Equiv.sum_comp σ y).trans hy) hc' h1
  subst e0
  subst e1
  unfold noise
  rw [rss_unexplained, unexplained_unique h1 (solves_rows σ h0), ← rss_unexplained, rss_rows, inRows_length]

theorem larsIC_rows (hN : N ≠ 0) (hlin : RightRegression lin) (σ : Equiv.Perm (Fin N)) (hc : ∀ x ∈ cols, ∑ r, x r = 0)
    (hy : ∑ r, y r = 0) (hp : IgnoresRows lars cols y) {k : Nat} (hk : k < cols.length) :
    larsIC lin lars (inRows σ cols) (fun r => y (σ r)) k = larsIC lin lars cols y k := by
  have hn := noise_rows hN hlin σ hc hy
  have := hp σ
  unfold larsIC
  cases hl : lars cols y with
  | nil =>
    rw [hl] at this
    cases hl' : lars (inRows σ cols) (fun r => y (σ r)) with
    | nil => rfl
    | cons => rw [hl'] at this; cases this
  | cons b cs =>
    rw [hl] at this
    cases hl' : lars (inRows σ cols) (fun r => y (σ r)) with
    | nil => rw [hl'] at this; cases this
    | cons b' cs' =>
      rw [hl'] at this
      cases this with
      | cons hb hcs =>
        simp only [hn]
        split
        · exact hb k hk
        · refine firstMin_alike (σ := id) (n := cols.length) (fun b b' hb => ?_) hcs b b' hb k hk
          unfold bic
          rw [hn, rss_rows, rss_congr hb, inRows_length, dof_congr hb]
          rfl

theorem weighted_rows (hlin : RightRegression lin) (σ : Equiv.Perm (Fin N)) (hi : IndependentCols cols) :
    weighted lin (inRows σ cols) (fun r => y (σ r)) = inRows σ (weighted lin cols y) := by
  unfold weighted
  rw [inRows_length]
  unfold inRows
  rw [List.map_map]
  refine List.map_congr_left fun k hk => ?_
  funext r
  have := lin_rows (y := y) hlin σ hi (List.mem_range.1 hk)
  simp only [Function.comp_apply, weight]
  unfold inRows at this
  rw [this]
  congr 1
  exact inRows_get σ k r

theorem kept_rows (hN : N ≠ 0) (hlin : RightRegression lin) (σ : Equiv.Perm (Fin N)) (hi : IndependentCols cols)
    (hc : ∀ x ∈ cols, ∑ r, x r = 0) (hy : ∑ r, y r = 0) (hp : IgnoresRows lars (weighted lin cols y) y) :
    kept lin lars (inRows σ cols) (fun r => y (σ r)) = kept lin lars cols y := by
  unfold kept
  rw [inRows_length]
  refine List.filter_congr fun k hk => ?_
  have hk := List.mem_range.1 hk
  rw [weighted_rows hlin σ hi, larsIC_rows hN hlin σ (weighted_centred hc) hy hp (by rw [weighted_length]; exact hk), weight, weight, lin_rows hlin σ hi hk]

theorem mean_perm (x : Fin N → ℝ) (σ : Equiv.Perm (Fin N)) : mean (fun r => x (σ r)) = mean x := by
  unfold mean
  rw [Equiv.sum_comp σ x]

theorem scaled_rows (x : Fin N → ℝ) (σ : Equiv.Perm (Fin N)) : scaled (fun r => x (σ r)) = fun r => scaled x (σ r) := by
  have hv : var (fun r => x (σ r)) = var x := by
    unfold var
    rw [mean_perm]
    exact mean_perm (fun r => (x r - mean x) ^ 2) σ
  funext r
  unfold scaled
  rw [hv, mean_perm]

/-- The selected regression with the rows in another order. -/
theorem predict_rows (hlin : RightRegression lin) (σ : Equiv.Perm (Fin N)) (X : Nat → Fin N → ℝ) {ps : List Nat} {t : Nat}
    (hi : IndependentCols (ps.map X))
    (hp : ∀ d, IgnoresRows lars (multiplied d (ps.map fun p => zscore (X p))) (zscore (X t))) {k : Nat} (hk : k < ps.length) :
    predict lin lars (fun j r => X j (σ r)) ps t k = predict lin lars X ps t k := by
  have hN : N ≠ 0 := by
    rintro rfl
    have := hi 0 (fun _ => 1) (fun r => r.elim0) k (by simpa using hk)
    norm_num at this
  set C := ps.map (fun p => scaled (X p)) with hC
  have hiC : IndependentCols C :=
    independent_units (cols := ps.map X) (by simp [hC]) (s := fun k => scale (X (ps.getD k 0))) (a := fun k => mean (X (ps.getD k 0)))
      (fun k hk r => by
        have hk : k < ps.length := by simpa using hk
        rw [col_get X hk, hC, scaled_get X hk]
        exact scaled_eq _ r) (fun k _ => scale_ne _) hi
  have hpC : IgnoresRows lars (weighted lin C (scaled (X t))) (scaled (X t)) := by
    have := hp (weight lin C (scaled (X t)))
    have e : (ps.map fun p => zscore (X p)) = C := List.map_congr_left fun p _ => (scaled_eq_zscore hN _).symm
    rw [e, ← scaled_eq_zscore hN] at this
    exact this
  have e : ps.map (fun p => scaled fun r => X p (σ r)) = inRows σ C := by
    unfold inRows
    rw [hC, List.map_map]
    exact List.map_congr_left fun p _ => scaled_rows (X p) σ
  unfold predict
  simp only
  rw [e, scaled_rows (X t) σ, kept_rows hN hlin σ hiC (scaled_centred X ps) (sum_scaled _) hpC]
  set idx := kept lin lars C (scaled (X t)) with hidx
  have hlt : ∀ i ∈ idx, i < ps.length := fun i hi => by
    have := (mem_kept.1 hi).1
    simpa [hC] using this
  by_cases hm : k ∈ idx
  · rw [if_pos hm, if_pos hm]
    have e2 : idx.map (fun i => fun r => X (ps.getD i 0) (σ r)) = inRows σ (idx.map fun i => X (ps.getD i 0)) := by
      unfold inRows
      rw [List.map_map]
      rfl
    rw [e2]
    refine lin_rows hlin σ ?_ (by simpa using List.idxOf_lt_length_of_mem hm)
    have := independent_sub hi (idx := idx) (kept_nodup _ _ _ _) (fun i h => by simpa using hlt i h)
    have e3 : idx.map (fun i => (ps.map X).getD i 0) = idx.map (fun i => X (ps.getD i 0)) :=
      List.map_congr_left fun i h => col_get X (hlt i h)
    rwa [e3] at this
  · rw [if_neg hm, if_neg hm]

end Verif.Pairwise
