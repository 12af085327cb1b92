import Verif.Proofs.DirectData
import Verif.Proofs.Longitudinal
import Verif.Spec.TimeSeries
import Mathlib.Tactic.Linarith

/-! Regressions with intercept on a set of columns: what the residuals of structural equations look like. -/
set_option linter.unusedSectionVars false
set_option autoImplicit false
namespace Verif.Longitudinal
open Finset

variable {N : Nat}

/-- Structural equations `x = B0 x + G z + e` with `e` uncorrelated with the independent columns `z`, and least squares
coefficients `A` of `x` on `z`: `(I - B0) A = G`, and the residuals follow the instantaneous equations exactly. -/
theorem reduced_form {n w : Nat} {x e z : Nat → Fin N → ℚ} {B0 G A : Nat → Nat → ℚ}
    (hx : ∀ i, i < n → ∀ r, x i r = ∑ j ∈ range n, B0 i j * x j r + ∑ c ∈ range w, G i c * z c r + e i r)
    (hu : ∀ i, i < n → ∀ c, c < w → sampleCov (e i) (z c) = 0)
    (hind : ∀ (d : Nat → ℚ) (q : ℚ), (∀ r, ∑ c ∈ range w, d c * z c r = q) → ∀ c, c < w → d c = 0)
    (hA : ∀ i, i < n → ∀ c, c < w → sampleCov (fun r => x i r - ∑ c ∈ range w, A i c * z c r) (z c) = 0) :
    (∀ i, i < n → ∀ c, c < w → A i c - ∑ l ∈ range n, B0 i l * A l c = G i c) ∧
    ∀ i, i < n → ∀ r, x i r - ∑ c ∈ range w, A i c * z c r =
      ∑ j ∈ range n, B0 i j * (x j r - ∑ c ∈ range w, A j c * z c r) + e i r := by
  have key : ∀ i, i < n → ∀ r, ∑ c ∈ range w, (G i c - (A i c - ∑ l ∈ range n, B0 i l * A l c)) * z c r =
      ((x i r - ∑ c ∈ range w, A i c * z c r) - ∑ j ∈ range n, B0 i j * (x j r - ∑ c ∈ range w, A j c * z c r)) - e i r := by
    intro i hi r
    have h1 : ∑ j ∈ range n, B0 i j * ∑ c ∈ range w, A j c * z c r =
        ∑ c ∈ range w, (∑ l ∈ range n, B0 i l * A l c) * z c r := by
      simp only [mul_sum, sum_mul]
      rw [sum_comm]
      exact sum_congr rfl fun c _ => sum_congr rfl fun l _ => by ring
    have h2 := hx i hi r
    simp only [sub_mul, sum_sub_distrib, mul_sub]
    rw [h1]
    linarith
  have zero : ∀ i, i < n → ∀ c, c < w → G i c - (A i c - ∑ l ∈ range n, B0 i l * A l c) = 0 := by
    intro i hi
    have horth : ∀ c, c < w → sampleCov (fun r => ∑ c ∈ range w, (G i c - (A i c - ∑ l ∈ range n, B0 i l * A l c)) * z c r)
        (z c) = 0 := by
      intro c hc
      rw [show (fun r => ∑ c ∈ range w, (G i c - (A i c - ∑ l ∈ range n, B0 i l * A l c)) * z c r) = _ from
        funext (key i hi)]
      rw [sampleCov_sub_left, sampleCov_sub_left, sampleCov_sum_left, hA i hi c hc, hu i hi c hc]
      rw [sum_eq_zero fun j hj => by rw [sampleCov_mul_left, hA j (mem_range.1 hj) c hc, mul_zero]]
      ring
    have hself : sampleCov (fun r => ∑ c ∈ range w, (G i c - (A i c - ∑ l ∈ range n, B0 i l * A l c)) * z c r)
        (fun r => ∑ c ∈ range w, (G i c - (A i c - ∑ l ∈ range n, B0 i l * A l c)) * z c r) = 0 := by
      rw [sampleCov_sum_left]
      refine sum_eq_zero fun c hc => ?_
      rw [sampleCov_mul_left, sampleCov_comm, horth c (mem_range.1 hc), mul_zero]
    have hconst := const_of_sampleCov_self hself
    rcases Nat.eq_zero_or_pos N with rfl | h0
    · exact hind _ 0 (fun r => r.elim0)
    · exact hind _ _ (fun r => hconst r ⟨0, h0⟩)
  refine ⟨fun i hi c hc => by have := zero i hi c hc; linarith, fun i hi r => ?_⟩
  have h := key i hi r
  rw [sum_eq_zero fun c hc => by rw [zero i hi c (mem_range.1 hc), zero_mul]] at h
  linarith

/-- The lagged part of the structural equation over the stacked columns. -/
theorem lag_sum (L : Nat) (X : Panel ℚ) (B : Nat → Nat → Nat → ℚ) (t i s : Nat) (ht : L ≤ t) :
    ∑ k ∈ range (L + 1), ∑ j ∈ range X.p, B k i j * X.val (t - k) s j =
      ∑ j ∈ range X.p, B 0 i j * X.val t s j +
        ∑ c ∈ range (X.p * L), B (L - c / X.p) i (c % X.p) * stacked L X t c s := by
  rw [sum_range_succ', Nat.sub_zero, add_comm, sum_blocks,
    ← sum_range_reflect (fun k => ∑ j ∈ range X.p, B (k + 1) i j * X.val (t - (k + 1)) s j)]
  congr 1
  refine sum_congr rfl fun k hk => sum_congr rfl fun j hj => ?_
  have hk := mem_range.1 hk
  have hj := mem_range.1 hj
  unfold stacked
  rw [Nat.mul_add_div (by omega), Nat.div_eq_of_lt hj, Nat.mul_add_mod, Nat.mod_eq_of_lt hj, Nat.add_zero]
  rw [show L - 1 - k + 1 = L - k by omega, show t - (L - k) = t - L + k by omega]
  rfl

end Verif.Longitudinal
