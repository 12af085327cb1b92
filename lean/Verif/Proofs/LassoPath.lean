import Verif.Spec.LassoPath
import Verif.Proofs.Unrelated
import Mathlib.Algebra.Order.BigOperators.Ring.Finset

/-! The Lasso on columns weighted by least squares coefficients, used by `Props/Support.lean`. -/
set_option linter.unusedSectionVars false
set_option autoImplicit false
namespace Verif.Pairwise
open Finset

variable {N : Nat} {W : List (Fin N → ℝ)} {y : Fin N → ℝ} {lam : ℝ} {u v : Nat → ℝ}

/-- How much the errors of the Lasso exceed those of a vector with entries between -1 and 1. -/
theorem lasso_rss (h : LassoMin W y lam v) (h0 : 0 ≤ lam) (hu : ∀ k, k < W.length → |u k| ≤ 1) :
    ∑ r, unexplained W y 0 v r ^ 2 ≤ ∑ r, unexplained W y 0 u r ^ 2 + 2 * W.length * lam := by
  have h1 := h u
  have h2 : ∑ k ∈ range W.length, |u k| ≤ W.length := by
    refine (sum_le_sum fun k hk => hu k (mem_range.1 hk)).trans ?_
    simp
  have h3 : 0 ≤ lam * ∑ k ∈ range W.length, |v k| := mul_nonneg h0 (sum_nonneg fun k _ => abs_nonneg _)
  have h4 := mul_le_mul_of_nonneg_left h2 h0
  linarith

/-- Errors of any coefficients and of the least squares coefficients. -/
theorem rss_split {b0 : ℝ} (hu : SolvesRegression W y b0 u) : ∑ r, unexplained W y 0 v r ^ 2 =
    ∑ r, unexplained W y b0 u r ^ 2 + ∑ r, (unexplained W y 0 v r - unexplained W y b0 u r) ^ 2 := by
  have hz := sum_unexplained_mul W hu.1 hu.2 (0 - b0) (fun k => v k - u k)
  have e : ∀ r, unexplained W y 0 v r - unexplained W y b0 u r = -(0 - b0 + ∑ k ∈ range W.length, (v k - u k) * W.getD k 0 r) := by
    intro r
    unfold unexplained
    simp only [sub_mul, sum_sub_distrib]
    ring
  have e2 : ∑ r, unexplained W y 0 v r ^ 2 = ∑ r, unexplained W y b0 u r ^ 2 + ∑ r, (unexplained W y 0 v r - unexplained W y b0 u r) ^ 2 -
      2 * ∑ r, unexplained W y b0 u r * (0 - b0 + ∑ k ∈ range W.length, (v k - u k) * W.getD k 0 r) := by
    rw [mul_sum, ← sum_add_distrib, ← sum_sub_distrib]
    refine sum_congr rfl fun r _ => ?_
    have := e r
    linear_combination (2 * unexplained W y b0 u r) * this
  rw [e2, hz]; ring

/-- The penalty is at most the product of the errors with a column that is used. -/
theorem lasso_slope (h : LassoMin W y lam v) {k : Nat} (hk : k < W.length) (hv : v k ≠ 0) :
    lam ≤ |∑ r, unexplained W y 0 v r * W.getD k 0 r| := by
  set A := ∑ r, unexplained W y 0 v r * W.getD k 0 r with hA
  set q := ∑ r, W.getD k 0 r ^ 2 with hq
  have hpos : 0 < |v k| := abs_pos.2 hv
  have step : ∀ t : ℝ, 0 < t → t ≤ 1 → lam * |v k| ≤ v k * A + t * (v k ^ 2 * q / 2) := by
    intro t ht ht1
    have h1 := h (fun i => if i = k then (1 - t) * v k else v i)
    have e1 : ∀ r, unexplained W y 0 (fun i => if i = k then (1 - t) * v k else v i) r = unexplained W y 0 v r + t * v k * W.getD k 0 r := by
      intro r
      unfold unexplained
      have : ∑ i ∈ range W.length, (if i = k then (1 - t) * v k else v i) * W.getD i 0 r =
          ∑ i ∈ range W.length, v i * W.getD i 0 r - t * v k * W.getD k 0 r := by
        rw [← add_sum_erase _ _ (mem_range.2 hk), ← add_sum_erase (range W.length) (fun i => v i * W.getD i 0 r) (mem_range.2 hk), if_pos rfl]
        rw [sum_congr rfl fun i hi => by rw [if_neg (ne_of_mem_erase hi)]]
        ring
      rw [this]; ring
    have e2 : ∑ r, unexplained W y 0 (fun i => if i = k then (1 - t) * v k else v i) r ^ 2 =
        ∑ r, unexplained W y 0 v r ^ 2 + 2 * (t * v k) * A + (t * v k) ^ 2 * q := by
      rw [hA, hq, mul_sum, mul_sum, ← sum_add_distrib, ← sum_add_distrib]
      exact sum_congr rfl fun r _ => by rw [e1]; ring
    have e3 : ∑ i ∈ range W.length, |if i = k then (1 - t) * v k else v i| = ∑ i ∈ range W.length, |v i| - t * |v k| := by
      rw [← add_sum_erase _ _ (mem_range.2 hk), ← add_sum_erase (range W.length) (fun i => |v i|) (mem_range.2 hk), if_pos rfl]
      rw [sum_congr rfl fun i hi => by rw [if_neg (ne_of_mem_erase hi)], abs_mul, abs_of_nonneg (by linarith : 0 ≤ 1 - t)]
      ring
    rw [e2, e3] at h1
    have h2 : t * (lam * |v k|) ≤ t * (v k * A + t * (v k ^ 2 * q / 2)) := by nlinarith
    exact le_of_mul_le_mul_left h2 ht
  have hle : lam * |v k| ≤ v k * A := by
    by_contra hcon
    push Not at hcon
    set D := v k ^ 2 * q / 2 with hD
    have hD0 : 0 ≤ D := by
      have : 0 ≤ q := sum_nonneg fun r _ => sq_nonneg _
      positivity
    set δ := lam * |v k| - v k * A with hδ
    have hδ0 : 0 < δ := by linarith
    have hm : 0 < min 1 (δ / (2 * (D + 1))) := lt_min one_pos (by positivity)
    have h1 := step _ hm (min_le_left _ _)
    have h2 : min 1 (δ / (2 * (D + 1))) * D ≤ δ / (2 * (D + 1)) * D := mul_le_mul_of_nonneg_right (min_le_right _ _) hD0
    have h3 : δ / (2 * (D + 1)) * D ≤ δ / 2 := by
      rw [div_mul_eq_mul_div, div_le_div_iff₀ (by positivity) two_pos]
      nlinarith
    linarith
  have h5 : lam * |v k| ≤ |A| * |v k| := by
    refine hle.trans ((le_abs_self _).trans ?_)
    rw [abs_mul, mul_comm]
  exact le_of_mul_le_mul_right h5 hpos

/-- A column of small weight is used only for small penalties. -/
theorem lasso_zero (h : LassoMin W y lam v) (h0 : 0 ≤ lam) (hs : SolvesRegression W y 0 u) (hu : ∀ k, k < W.length → |u k| ≤ 1) {k : Nat}
    (hk : k < W.length) (hv : v k ≠ 0) : lam ≤ 2 * W.length * ∑ r, W.getD k 0 r ^ 2 := by
  have h1 := lasso_slope h hk hv
  have h2 := lasso_rss h h0 hu
  rw [rss_split (v := v) hs] at h2
  have e : ∑ r, unexplained W y 0 v r * W.getD k 0 r = ∑ r, (unexplained W y 0 v r - unexplained W y 0 u r) * W.getD k 0 r := by
    simp only [sub_mul, sum_sub_distrib]
    rw [hs.2 k hk, sub_zero]
  rw [e] at h1
  have h3 := sum_mul_sq_le_sq_mul_sq univ (fun r => unexplained W y 0 v r - unexplained W y 0 u r) (fun r => W.getD k 0 r)
  set q := ∑ r, W.getD k 0 r ^ 2 with hq
  have hq0 : 0 ≤ q := sum_nonneg fun r _ => sq_nonneg _
  set g := ∑ r, (unexplained W y 0 v r - unexplained W y 0 u r) ^ 2
  set A := ∑ r, (unexplained W y 0 v r - unexplained W y 0 u r) * W.getD k 0 r
  have h4 : lam ^ 2 ≤ A ^ 2 := by
    rw [← sq_abs A]
    exact pow_le_pow_left₀ h0 h1 2
  have h5 : g * q ≤ (2 * W.length * lam) * q := mul_le_mul_of_nonneg_right (by linarith) hq0
  rcases h0.eq_or_lt with h0 | h0
  · rw [← h0]; positivity
  · have h6 : lam * lam ≤ lam * (2 * W.length * q) := by nlinarith
    exact le_of_mul_le_mul_left h6 h0

/-- A Lasso path has a vector that uses no column of small weight and has almost the smallest errors. -/
theorem path_select {l : List (Nat → ℝ)} (hp : LassoPath W y l) (hne : l ≠ []) (hstart : ∀ k, k < W.length → l.getD 0 0 k = 0)
    (hs : SolvesRegression W y 0 u) (hu : ∀ k, k < W.length → |u k| ≤ 1) {Λ : ℝ} (h0 : 0 ≤ Λ) {F : Nat → Prop}
    (hF : ∀ k, k < W.length → F k → 2 * W.length * ∑ r, W.getD k 0 r ^ 2 ≤ Λ) :
    ∃ v ∈ l, (∀ k, k < W.length → F k → v k = 0) ∧
      ∑ r, unexplained W y 0 v r ^ 2 ≤ ∑ r, unexplained W y 0 u r ^ 2 + 2 * W.length * Λ := by
  obtain ⟨lam, h1, h2, h3⟩ := hp
  have hl : 0 < l.length := List.length_pos_iff.2 hne
  have hex : ∃ i, i < l.length ∧ lam i ≤ Λ := ⟨l.length - 1, by omega, by rw [h2]; exact h0⟩
  classical
  obtain ⟨hi, hiΛ⟩ := Nat.find_spec hex
  have hmin := fun j (hj : j < Nat.find hex) => Nat.find_min hex hj
  set i := Nat.find hex
  have hfalse : ∀ {lam' : ℝ} {v : Nat → ℝ}, Λ < lam' → LassoMin W y lam' v → ∀ k, k < W.length → F k → v k = 0 := by
    intro lam' v hlt hm k hk hFk
    by_contra hv
    have := lasso_zero hm (h0.trans hlt.le) hs hu hk hv
    have := hF k hk hFk
    linarith
  refine ⟨l.getD i 0, by rw [getD_of_lt hi]; exact List.getElem_mem hi, ?_, ?_⟩
  · intro k hk hFk
    rcases Nat.eq_zero_or_pos i with hi0 | hi0
    · rw [hi0]; exact hstart k hk
    obtain ⟨j, hj⟩ : ∃ j, i = j + 1 := ⟨i - 1, by omega⟩
    have hjΛ : Λ < lam j := by
      have := hmin j (by omega)
      push Not at this
      exact this (by omega)
    rw [hj] at hiΛ hi ⊢
    obtain ⟨-, h5⟩ := h3 j hi
    set θ := (lam j - Λ) / (2 * (lam j - lam (j + 1))) with hθ
    have hd : 0 < lam j - lam (j + 1) := by linarith
    have hθ0 : 0 < θ := div_pos (by linarith) (by linarith)
    have hθ1 : θ ≤ 1 := by
      rw [hθ, div_le_one (by linarith)]
      linarith
    have hm := h5 θ hθ0.le hθ1
    have e : θ * (lam j - lam (j + 1)) = (lam j - Λ) / 2 := by
      rw [hθ]
      have := hd.ne'
      field_simp
    have z1 := hfalse (by nlinarith) hm k hk hFk
    have z2 := hfalse hjΛ (h1 j (by omega)).2 k hk hFk
    beta_reduce at z1
    rw [z2, mul_zero, zero_add] at z1
    exact (mul_eq_zero.1 z1).resolve_left hθ0.ne'
  · have := lasso_rss (h1 i hi).2 (h1 i hi).1 hu
    have h6 : 2 * (W.length : ℝ) * lam i ≤ 2 * W.length * Λ := mul_le_mul_of_nonneg_left hiΛ (by positivity)
    linarith

end Verif.Pairwise
