import Verif.Spec.Regression
import Verif.Proofs.Var
import Verif.Proofs.DirectData
import Verif.Proofs.Longitudinal
import Verif.Proofs.Bootstrap
import Mathlib.Tactic.Linarith

set_option linter.unusedSectionVars false
set_option autoImplicit false
namespace Verif.Var
open Finset

variable {n p T N : Nat} {B : Nat → Nat → Nat → ℚ} {x e : Nat → Nat → ℚ}

/-- The structural equation at observation `r`, present and past separated. -/
theorem struct_row (hx : FollowsVar n p T B x e) {r i : Nat} (hr : r + p < T) (hi : i < n) :
    x (r + p) i = ∑ j ∈ range n, B 0 i j * x (r + p) j +
      ∑ k ∈ range p, ∑ j ∈ range n, B (k + 1) i j * past p x k j r + e (r + p) i := by
  have := hx (r + p) (by omega) hr i hi
  rw [sum_range_succ'] at this
  rw [this]
  simp only [Nat.sub_zero, past]
  ring

/-- Least squares on the past: `(I - B0) A` are the true lagged coefficients and `(I - B0)` times the residual is the true
error. -/
theorem reduced_form (hx : FollowsVar n p T B x e) (hN : N + p = T) (ho : OrthogonalPast n p N x e)
    (hind : PastIndependent n p N x) {A : Nat → Nat → Nat → ℚ} (hA : PlainLeastSquares n p N A x) :
    (∀ i, i < n → ∀ k, k < p → ∀ j, j < n → A k i j - ∑ l ∈ range n, B 0 i l * A k l j = B (k + 1) i j) ∧
    ∀ i, i < n → ∀ r, r < N →
      x (r + p) i - ∑ l ∈ range p, ∑ m ∈ range n, A l i m * past p x l m r =
        ∑ j ∈ range n, B 0 i j * (x (r + p) j - ∑ l ∈ range p, ∑ m ∈ range n, A l j m * past p x l m r) +
          e (r + p) i := by
  -- the difference of the two sides of the structural equation
  have key : ∀ i, i < n → ∀ r, r < N →
      x (r + p) i - ∑ l ∈ range p, ∑ m ∈ range n, A l i m * past p x l m r -
        ∑ j ∈ range n, B 0 i j * (x (r + p) j - ∑ l ∈ range p, ∑ m ∈ range n, A l j m * past p x l m r) =
      e (r + p) i + ∑ k ∈ range p, ∑ j ∈ range n,
        (B (k + 1) i j - (A k i j - ∑ l ∈ range n, B 0 i l * A k l j)) * past p x k j r := by
    intro i hi r hr
    have h1 := struct_row hx (by omega : r + p < T) hi
    have h2 : ∑ j ∈ range n, B 0 i j * (x (r + p) j - ∑ l ∈ range p, ∑ m ∈ range n, A l j m * past p x l m r) =
        ∑ j ∈ range n, B 0 i j * x (r + p) j -
          ∑ k ∈ range p, ∑ j ∈ range n, (∑ l ∈ range n, B 0 i l * A k l j) * past p x k j r := by
      simp only [mul_sub, sum_sub_distrib, mul_sum, sum_mul]
      congr 1
      rw [sum_comm]
      refine sum_congr rfl fun k _ => ?_
      rw [sum_comm]
      exact sum_congr rfl fun j _ => sum_congr rfl fun l _ => by ring
    have h3 : ∑ k ∈ range p, ∑ j ∈ range n,
        (B (k + 1) i j - (A k i j - ∑ l ∈ range n, B 0 i l * A k l j)) * past p x k j r =
        ∑ k ∈ range p, ∑ j ∈ range n, B (k + 1) i j * past p x k j r -
        ∑ k ∈ range p, ∑ j ∈ range n, A k i j * past p x k j r +
        ∑ k ∈ range p, ∑ j ∈ range n, (∑ l ∈ range n, B 0 i l * A k l j) * past p x k j r := by
      rw [← sum_sub_distrib, ← sum_add_distrib]
      refine sum_congr rfl fun k _ => ?_
      rw [← sum_sub_distrib, ← sum_add_distrib]
      exact sum_congr rfl fun j _ => by ring
    rw [h2, h3]
    linarith
  -- it is orthogonal to the past
  have orth : ∀ i, i < n → ∀ k, k < p → ∀ j, j < n →
      ∑ r ∈ range N, (∑ k ∈ range p, ∑ j ∈ range n,
        (B (k + 1) i j - (A k i j - ∑ l ∈ range n, B 0 i l * A k l j)) * past p x k j r) * past p x k j r = 0 := by
    intro i hi k hk j hj
    have h1 := hA i hi k hk j hj
    have h2 : ∑ r ∈ range N, (∑ l ∈ range n, B 0 i l *
        (x (r + p) l - ∑ q ∈ range p, ∑ m ∈ range n, A q l m * past p x q m r)) * past p x k j r = 0 := by
      have : ∀ r ∈ range N, (∑ l ∈ range n, B 0 i l *
          (x (r + p) l - ∑ q ∈ range p, ∑ m ∈ range n, A q l m * past p x q m r)) * past p x k j r =
          ∑ l ∈ range n, B 0 i l *
            ((x (r + p) l - ∑ q ∈ range p, ∑ m ∈ range n, A q l m * past p x q m r) * past p x k j r) := by
        intro r _
        rw [sum_mul]
        exact sum_congr rfl fun l _ => by ring
      rw [sum_congr rfl this, sum_comm]
      refine sum_eq_zero fun l hl => ?_
      rw [← mul_sum, hA l (mem_range.1 hl) k hk j hj, mul_zero]
    have h3 := ho i hi k hk j hj
    have h4 : ∑ r ∈ range N, (∑ k ∈ range p, ∑ j ∈ range n,
        (B (k + 1) i j - (A k i j - ∑ l ∈ range n, B 0 i l * A k l j)) * past p x k j r) * past p x k j r =
        ∑ r ∈ range N, (x (r + p) i - ∑ l ∈ range p, ∑ m ∈ range n, A l i m * past p x l m r) * past p x k j r -
        ∑ r ∈ range N, (∑ l ∈ range n, B 0 i l *
          (x (r + p) l - ∑ q ∈ range p, ∑ m ∈ range n, A q l m * past p x q m r)) * past p x k j r -
        ∑ r ∈ range N, e (r + p) i * past p x k j r := by
      rw [← sum_sub_distrib, ← sum_sub_distrib]
      refine sum_congr rfl fun r hr => ?_
      have := key i hi r (mem_range.1 hr)
      rw [← sub_mul, ← sub_mul]
      congr 1
      linarith
    rw [h4, h1, h2, h3]
    ring
  -- so it is orthogonal to itself
  have zero : ∀ i, i < n → ∀ k, k < p → ∀ j, j < n →
      B (k + 1) i j - (A k i j - ∑ l ∈ range n, B 0 i l * A k l j) = 0 := by
    intro i hi
    refine hind (fun k j => B (k + 1) i j - (A k i j - ∑ l ∈ range n, B 0 i l * A k l j)) ?_
    set D : Nat → ℚ := fun r => ∑ k ∈ range p, ∑ j ∈ range n,
        (B (k + 1) i j - (A k i j - ∑ l ∈ range n, B 0 i l * A k l j)) * past p x k j r with hD
    have hself : ∑ r ∈ range N, D r * D r = 0 := by
      have h1 : ∀ r ∈ range N, D r * D r = ∑ k ∈ range p, ∑ j ∈ range n,
          (B (k + 1) i j - (A k i j - ∑ l ∈ range n, B 0 i l * A k l j)) * (D r * past p x k j r) := by
        intro r _
        conv_lhs => rhs; rw [hD]
        rw [mul_sum]
        refine sum_congr rfl fun k _ => ?_
        rw [mul_sum]
        exact sum_congr rfl fun j _ => by ring
      rw [sum_congr rfl h1, sum_comm]
      refine sum_eq_zero fun k hk => ?_
      rw [sum_comm]
      refine sum_eq_zero fun j hj => ?_
      rw [← mul_sum, orth i hi k (mem_range.1 hk) j (mem_range.1 hj), mul_zero]
    intro r hr
    have := (sum_eq_zero_iff_of_nonneg (fun r _ => mul_self_nonneg (D r))).1 hself r (mem_range.2 hr)
    exact mul_self_eq_zero.1 this
  refine ⟨fun i hi k hk j hj => by have := zero i hi k hk j hj; linarith, fun i hi r hr => ?_⟩
  have h1 := key i hi r hr
  have h2 : ∑ k ∈ range p, ∑ j ∈ range n,
      (B (k + 1) i j - (A k i j - ∑ l ∈ range n, B 0 i l * A k l j)) * past p x k j r = 0 :=
    sum_eq_zero fun k hk => sum_eq_zero fun j hj => by
      rw [zero i hi k (mem_range.1 hk) j (mem_range.1 hj), zero_mul]
  rw [h2] at h1
  linarith

end Verif.Var

namespace Verif.Var
open Finset Verif.Direct

variable {n p T N : Nat} {B : Nat → Nat → Nat → ℚ} {x e : Nat → Nat → ℚ}

/-- Covariance with a present value, through its structural equation. -/
theorem cov_present (hx : FollowsVar n p T B x e) (hN : N + p = T) (z : Fin N → ℚ) {a : Nat} (ha : a < n)
    (hz : ∀ k, k < p → ∀ j, j < n → sampleCov (fun r : Fin N => past p x k j r) z = 0) :
    sampleCov (fun r : Fin N => x (r + p) a) z =
      ∑ j ∈ range n, B 0 a j * sampleCov (fun r : Fin N => x (r + p) j) z +
        sampleCov (fun r : Fin N => e (r + p) a) z := by
  have h1 : (fun r : Fin N => x (r + p) a) = fun r : Fin N => (∑ j ∈ range n, B 0 a j * x (r + p) j +
      ∑ k ∈ range p, ∑ j ∈ range n, B (k + 1) a j * past p x k j r) + e (r + p) a :=
    funext fun r => struct_row hx (by omega) ha
  rw [h1, sampleCov_add_left, sampleCov_add_left, sampleCov_sum_left, sampleCov_sum_left]
  have h2 : ∑ k ∈ range p, sampleCov (fun r : Fin N => ∑ j ∈ range n, B (k + 1) a j * past p x k j r) z = 0 := by
    refine sum_eq_zero fun k hk => ?_
    rw [sampleCov_sum_left]
    refine sum_eq_zero fun j hj => ?_
    rw [sampleCov_mul_left, hz k (mem_range.1 hk) j (mem_range.1 hj), mul_zero]
  rw [h2, add_zero]
  congr 1
  exact sum_congr rfl fun j _ => sampleCov_mul_left _ _ _

/-- The error of `i` is uncorrelated with the present values of the variables before `i`. -/
theorem err_before (hx : FollowsVar n p T B x e) (hN : N + p = T) (hg : GoodErrors n (fun i (r : Fin N) => e (r + p) i))
    (hu : UncorrelatedPast n p N x e) {order : List Nat} (ho : IsOrder n order)
    (hB : ∀ i j, i < n → j < n → B 0 i j ≠ 0 → Before order j i) {i : Nat} (hi : i < n) :
    ∀ (pre post : List Nat), order = pre ++ post → ∀ a ∈ pre, Before order a i →
      sampleCov (fun r : Fin N => x (r + p) a) (fun r : Fin N => e (r + p) i) = 0 := by
  intro pre
  induction pre using List.reverseRecOn with
  | nil => intro _ _ a ha; cases ha
  | append_singleton pre b ih =>
    intro post hsplit a ha hai
    rcases List.mem_append.1 ha with ha' | ha'
    · exact ih ([b] ++ post) (by rw [hsplit]; simp) a ha' hai
    · obtain rfl : a = b := by simpa using ha'
      have han : a < n := (ho.2 a).1 hai.mem_left
      rw [cov_present hx hN _ han (fun k hk j hj => by
        rw [sampleCov_comm]; exact uncorrelated_iff.1 (hu i hi k hk j hj))]
      have h1 : ∑ j ∈ range n, B 0 a j * sampleCov (fun r : Fin N => x (r + p) j) (fun r : Fin N => e (r + p) i) = 0 := by
        refine sum_eq_zero fun j hj => ?_
        by_cases hz : B 0 a j = 0
        · rw [hz, zero_mul]
        · have hja := hB a j han (mem_range.1 hj) hz
          have hjp : j ∈ pre := by
            by_contra hjp
            have hjm : j ∈ [a] ++ post := by
              have := hja.mem_left
              rw [hsplit] at this
              simp only [List.append_assoc, List.mem_append] at this
              rcases this with h | h
              · exact absurd h hjp
              · exact List.mem_append.2 h
            rcases List.mem_append.1 hjm with h | h
            · obtain rfl : j = a := by simpa using h
              exact Before.irrefl ho.1 _ hja
            · have hc : Before order a j := by rw [hsplit]; exact Before.of_mem_append (by simp) h
              exact Before.irrefl ho.1 _ (hja.trans ho.1 hc)
          rw [ih ([a] ++ post) (by rw [hsplit]; simp) j hjp (hja.trans ho.1 hai), mul_zero]
      rw [h1, zero_add]
      have hne : a ≠ i := by rintro rfl; exact Before.irrefl ho.1 _ hai
      exact uncorrelated_iff.1 (hg.1 a i han hi hne)

/-- The error of `a` with the present value of `a`: its own variance. -/
theorem err_own (hx : FollowsVar n p T B x e) (hN : N + p = T) (hg : GoodErrors n (fun i (r : Fin N) => e (r + p) i))
    (hu : UncorrelatedPast n p N x e) {order : List Nat} (ho : IsOrder n order)
    (hB : ∀ i j, i < n → j < n → B 0 i j ≠ 0 → Before order j i) {a : Nat} (ha : a < n) :
    sampleCov (fun r : Fin N => x (r + p) a) (fun r : Fin N => e (r + p) a) ≠ 0 := by
  rw [cov_present hx hN _ ha (fun k hk j hj => by
    rw [sampleCov_comm]; exact uncorrelated_iff.1 (hu a ha k hk j hj))]
  have h1 : ∑ j ∈ range n, B 0 a j * sampleCov (fun r : Fin N => x (r + p) j) (fun r : Fin N => e (r + p) a) = 0 := by
    refine sum_eq_zero fun j hj => ?_
    by_cases hz : B 0 a j = 0
    · rw [hz, zero_mul]
    · have hja := hB a j ha (mem_range.1 hj) hz
      rw [err_before hx hN hg hu ho hB ha order [] (by simp) j hja.mem_left hja, mul_zero]
  rw [h1, zero_add]
  exact nonConstant_iff.1 (hg.2 a ha)

/-- Predecessors and past are linearly independent, also with a constant. -/
theorem design_independent (hx : FollowsVar n p T B x e) (hN : N + p = T)
    (hg : GoodErrors n (fun i (r : Fin N) => e (r + p) i)) (hu : UncorrelatedPast n p N x e)
    (hind : PastIndependentC n p N x) {order : List Nat} (ho : IsOrder n order)
    (hB : ∀ i j, i < n → j < n → B 0 i j ≠ 0 → Before order j i) (d : Nat → Nat → ℚ) (b : ℚ) :
    ∀ (pre post : List Nat) (g : Nat → ℚ), order = pre ++ post →
      (∀ r, r < N → ∑ c ∈ range pre.length, g c * x (r + p) (pre.getD c 0) +
        ∑ k ∈ range p, ∑ j ∈ range n, d k j * past p x k j r = b) →
      (∀ c, c < pre.length → g c = 0) ∧ ∀ k, k < p → ∀ j, j < n → d k j = 0 := by
  intro pre
  induction pre using List.reverseRecOn with
  | nil =>
    intro post g _ h
    refine ⟨fun c hc => absurd hc (by simp), hind d b fun r hr => ?_⟩
    have := h r hr
    simpa using this
  | append_singleton pre a ih =>
    intro post g hsplit h
    have hlen : (pre ++ [a]).length = pre.length + 1 := by simp
    have hrow : ∀ r, r < N → ∑ c ∈ range pre.length, g c * x (r + p) (pre.getD c 0) + g pre.length * x (r + p) a +
        ∑ k ∈ range p, ∑ j ∈ range n, d k j * past p x k j r = b := by
      intro r hr
      have := h r hr
      rw [hlen, sum_range_succ] at this
      have h1 : (pre ++ [a]).getD pre.length 0 = a := by simp [List.getD]
      have h2 : ∑ c ∈ range pre.length, g c * x (r + p) ((pre ++ [a]).getD c 0) =
          ∑ c ∈ range pre.length, g c * x (r + p) (pre.getD c 0) := by
        refine sum_congr rfl fun c hc => ?_
        rw [List.getD, List.getD, List.getElem?_append_left (mem_range.1 hc)]
      rw [h1, h2] at this
      exact this
    have ham : a ∈ order := by rw [hsplit]; simp
    have han : a < n := (ho.2 a).1 ham
    -- covariance with the error of `a`
    have hga : g pre.length = 0 := by
      have hc : sampleCov (fun r : Fin N => (∑ c ∈ range pre.length, g c * x (r + p) (pre.getD c 0) +
          g pre.length * x (r + p) a) + ∑ k ∈ range p, ∑ j ∈ range n, d k j * past p x k j r)
          (fun r : Fin N => e (r + p) a) = 0 := by
        have : (fun r : Fin N => (∑ c ∈ range pre.length, g c * x (r + p) (pre.getD c 0) +
          g pre.length * x (r + p) a) + ∑ k ∈ range p, ∑ j ∈ range n, d k j * past p x k j r) = fun _ : Fin N => b :=
          funext fun r => hrow r r.2
        rw [this]
        refine sampleCov_const_left ?_ _
        unfold sampleCov; simp; ring
      rw [sampleCov_add_left, sampleCov_add_left, sampleCov_sum_left, sampleCov_sum_left, sampleCov_mul_left] at hc
      have h1 : ∑ c ∈ range pre.length, sampleCov (fun r : Fin N => g c * x (r + p) (pre.getD c 0))
          (fun r : Fin N => e (r + p) a) = 0 := by
        refine sum_eq_zero fun c hc => ?_
        rw [sampleCov_mul_left]
        have hmem : pre.getD c 0 ∈ pre := by
          rw [List.getD, List.getElem?_eq_getElem (mem_range.1 hc)]; exact List.getElem_mem _
        rw [err_before hx hN hg hu ho hB han order [] (by simp) _ (by rw [hsplit]; exact List.mem_append_left _ (List.mem_append_left _ hmem))
          (by rw [hsplit, List.append_assoc]; exact Before.of_mem_append hmem (by simp)), mul_zero]
      have h2 : ∑ k ∈ range p, sampleCov (fun r : Fin N => ∑ j ∈ range n, d k j * past p x k j r)
          (fun r : Fin N => e (r + p) a) = 0 := by
        refine sum_eq_zero fun k hk => ?_
        rw [sampleCov_sum_left]
        refine sum_eq_zero fun j hj => ?_
        rw [sampleCov_mul_left, sampleCov_comm, uncorrelated_iff.1 (hu a han k (mem_range.1 hk) j (mem_range.1 hj)), mul_zero]
      rw [h1, h2, zero_add, add_zero] at hc
      exact (mul_eq_zero.1 hc).resolve_right (err_own hx hN hg hu ho hB han)
    obtain ⟨h1, h2⟩ := ih ([a] ++ post) g (by rw [hsplit]; simp) (fun r hr => by
      have := hrow r hr
      rw [hga, zero_mul, add_zero] at this
      exact this)
    refine ⟨fun c hc => ?_, h2⟩
    rw [hlen] at hc
    rcases Nat.lt_succ_iff_lt_or_eq.1 hc with hc | rfl
    · exact h1 c hc
    · exact hga

/-- Selection and least squares: if the selected columns contain the support of the true coefficients and the columns are
independent, the fitted coefficients are the true ones. -/
theorem selection_exact {w : Nat} {z : Nat → Fin N → ℚ} {y : Fin N → ℚ} {a b : Nat → ℚ} {S : Finset Nat}
    (hS : S ⊆ range w) (hb : ∀ c, c < w → sampleCov (fun r => y r - ∑ c ∈ range w, b c * z c r) (z c) = 0)
    (hsup : ∀ c, c < w → b c ≠ 0 → c ∈ S) (hout : ∀ c, c ∉ S → a c = 0)
    (ha : ∀ c ∈ S, sampleCov (fun r => y r - ∑ c ∈ S, a c * z c r) (z c) = 0)
    (hind : ∀ (d : Nat → ℚ) (q : ℚ), (∀ r, ∑ c ∈ range w, d c * z c r = q) → ∀ c, c < w → d c = 0) :
    ∀ c, c < w → a c = b c := by
  have hsum : ∀ r, ∑ c ∈ S, a c * z c r = ∑ c ∈ range w, a c * z c r := fun r =>
    sum_subset hS fun c _ hc => by rw [hout c hc, zero_mul]
  have hd : ∀ c ∈ S, sampleCov (fun r => ∑ c ∈ range w, (b c - a c) * z c r) (z c) = 0 := by
    intro c hc
    have h1 := ha c hc
    have h2 := hb c (mem_range.1 (hS hc))
    have : (fun r => ∑ c ∈ range w, (b c - a c) * z c r) =
        fun r => (y r - ∑ c ∈ S, a c * z c r) - (y r - ∑ c ∈ range w, b c * z c r) := by
      funext r
      rw [hsum r]
      simp only [sub_mul, sum_sub_distrib]
      ring
    rw [this, sampleCov_sub_left, h1, h2, sub_zero]
  have hself : sampleCov (fun r => ∑ c ∈ range w, (b c - a c) * z c r) (fun r => ∑ c ∈ range w, (b c - a c) * z c r) = 0 := by
    rw [sampleCov_sum_left]
    refine sum_eq_zero fun c hc => ?_
    rw [sampleCov_mul_left]
    by_cases hcS : c ∈ S
    · rw [sampleCov_comm, hd c hcS, mul_zero]
    · have : b c = 0 := by
        by_contra h; exact hcS (hsup c (mem_range.1 hc) h)
      rw [this, hout c hcS, sub_zero, zero_mul]
  have hconst := const_of_sampleCov_self hself
  intro c hc
  rcases Nat.eq_zero_or_pos N with rfl | hN0
  · have := hind (fun c => b c - a c) 0 (fun r => r.elim0) c hc
    linarith
  · have := hind (fun c => b c - a c) _ (fun r => hconst r ⟨0, hN0⟩) c hc
    linarith

theorem sampleCov_rev (y z : Fin N → ℚ) : sampleCov (fun r => y r.rev) (fun r => z r.rev) = sampleCov y z := by
  unfold sampleCov
  rw [Equiv.sum_comp Fin.revPerm (fun r => y r * z r) |>.symm, Equiv.sum_comp Fin.revPerm y |>.symm,
    Equiv.sum_comp Fin.revPerm z |>.symm]
  rfl

theorem sum_getD (f : Nat → ℚ) : ∀ l : List Nat, ∑ c ∈ range l.length, f (l.getD c 0) = (l.map f).sum
  | [] => rfl
  | a :: l => by
    rw [List.length_cons, sum_range_succ', List.map_cons, List.sum_cons, ← sum_getD f l]
    simp [add_comm]

/-- The past block of a regressor row. -/
theorem past_get {K : Type} [Zero K] (f : Nat → Nat → K) (c : Nat) {j : Nat} (hj : j < c) : ∀ {L k : Nat}, k < L →
    ((List.range L).flatMap (fun k => (List.range c).map (f k))).getD (c * k + j) 0 = f k j
  | 0, k, h => absurd h (by omega)
  | L + 1, k, h => by
    have hlen : ∀ L, ((List.range L).flatMap (fun k => (List.range c).map (f k))).length = c * L := by
      intro L
      induction L with
      | zero => simp
      | succ L ih => rw [List.range_succ, List.flatMap_append, List.length_append, ih]; simp [Nat.mul_succ]
    rw [List.range_succ, List.flatMap_append]
    rcases Nat.lt_succ_iff_lt_or_eq.1 h with h' | rfl
    · have hlt : c * k + j < c * L := by
        have : c * (k + 1) ≤ c * L := Nat.mul_le_mul_left c h'
        rw [Nat.mul_succ] at this; omega
      rw [List.getD, List.getElem?_append_left (by rw [hlen]; exact hlt)]
      exact past_get f c hj h'
    · rw [List.getD, List.getElem?_append_right (by rw [hlen]; omega), hlen]
      simp [hj]

theorem past_len {K : Type} (f : Nat → Nat → K) (c L : Nat) :
    ((List.range L).flatMap (fun k => (List.range c).map (f k))).length = c * L := by
  induction L with
  | zero => simp
  | succ L ih => rw [List.range_succ, List.flatMap_append, List.length_append, ih]; simp [Nat.mul_succ]

/-- The true coefficients of the pruning regression of `i`: predecessors first, then the past. -/
def trueCoef (n : Nat) (B : Nat → Nat → Nat → ℚ) (pre : List Nat) (i c : Nat) : ℚ :=
  if c < pre.length then B 0 i (pre.getD c 0) else B ((c - pre.length) / n + 1) i ((c - pre.length) % n)

/-- The columns of the pruning regression, in the order of time. -/
def designCol (n p : Nat) (x : Nat → Nat → ℚ) (pre : List Nat) (c r : Nat) : ℚ :=
  if c < pre.length then x (r + p) (pre.getD c 0) else past p x ((c - pre.length) / n) ((c - pre.length) % n) r

theorem design_sum (b : Nat → ℚ) (pre : List Nat) (r : Nat) :
    ∑ c ∈ range (pre.length + n * p), b c * designCol n p x pre c r =
      ∑ c ∈ range pre.length, b c * x (r + p) (pre.getD c 0) +
        ∑ k ∈ range p, ∑ j ∈ range n, b (pre.length + (n * k + j)) * past p x k j r := by
  rw [sum_range_add, Longitudinal.sum_blocks]
  congr 1
  · refine sum_congr rfl fun c hc => ?_
    unfold designCol; rw [if_pos (mem_range.1 hc)]
  · refine sum_congr rfl fun k _ => sum_congr rfl fun j hj => ?_
    have hj := mem_range.1 hj
    unfold designCol
    rw [if_neg (by omega), Nat.add_sub_cancel_left, Nat.mul_add_div (by omega), Nat.div_eq_of_lt hj, Nat.mul_add_mod,
      Nat.mod_eq_of_lt hj, Nat.add_zero]

/-- The pruning regression of variable `i` returns the true coefficients. -/
theorem pruned_exact (hx : FollowsVar n p T B x e) (hN : N + p = T)
    (hg : GoodErrors n (fun i (r : Fin N) => e (r + p) i)) (hu : UncorrelatedPast n p N x e)
    (hind : PastIndependentC n p N x) {order : List Nat} (ho : IsOrder n order)
    (hB : ∀ i j, i < n → j < n → B 0 i j ≠ 0 → Before order j i)
    {reg : Nat → (Nat → List ℚ) → (Nat → ℚ) → Nat → ℚ} (hreg : SelectsRight reg) {i : Nat} (hi : i < n)
    {pre post : List Nat} (hsplit : order = pre ++ i :: post) {rows : Nat → List ℚ} {y : Nat → ℚ}
    (hy : ∀ r, r < N → y r = x (T - 1 - r) i)
    (hrows : ∀ r, r < N → rows r = pre.map (x (T - 1 - r)) ++
      (List.range p).flatMap (fun k => (List.range n).map (x (T - 1 - r - (k + 1))))) :
    ∀ c, c < pre.length + n * p → reg N rows y c = trueCoef n B pre i c := by
  set b := trueCoef n B pre i with hb
  have hcol : ∀ c, c < pre.length + n * p → ∀ r : Fin N, column rows c r = designCol n p x pre c r.rev := by
    intro c hc r
    have hrev : T - 1 - (r : Nat) = ((r.rev : Fin N) : Nat) + p := by rw [Fin.val_rev]; omega
    unfold column designCol
    rw [hrows r r.2, hrev]
    split
    · rename_i hlt
      rw [List.getD, List.getElem?_append_left (by simpa using hlt)]
      simp [hlt]
    · rename_i hge
      have hn0 : 0 < n := by omega
      rw [List.getD, List.getElem?_append_right (by simpa using (by omega : pre.length ≤ c)), List.length_map]
      have hk : (c - pre.length) / n < p := by
        rw [Nat.div_lt_iff_lt_mul hn0, Nat.mul_comm]; omega
      have := past_get (fun k => x ((r.rev : Fin N) + p - (k + 1))) n (Nat.mod_lt (c - pre.length) hn0) hk
      rw [Nat.div_add_mod] at this
      exact this
  have hlen : ∀ r, r < N → (rows r).length = pre.length + n * p := by
    intro r hr
    rw [hrows r hr, List.length_append, List.length_map,
      past_len (fun k j => x (T - 1 - r - (k + 1)) j) n p]
  -- the true coefficients leave the true error
  have hbp : ∀ k j, j < n → b (pre.length + (n * k + j)) = B (k + 1) i j := by
    intro k j hj
    rw [hb]
    unfold trueCoef
    rw [if_neg (by omega), Nat.add_sub_cancel_left, Nat.mul_add_div (by omega), Nat.div_eq_of_lt hj, Nat.mul_add_mod,
      Nat.mod_eq_of_lt hj, Nat.add_zero]
  have hpre_nd : pre.Nodup := by
    have := ho.1; rw [hsplit] at this; exact (List.nodup_append.1 this).1
  have hin : ∀ j, j < n → B 0 i j ≠ 0 → j ∈ pre := by
    intro j hj hBj
    have hji := hB i j hi hj hBj
    have hm := hji.mem_left
    rw [hsplit] at hm
    rcases List.mem_append.1 hm with h | h
    · exact h
    · exfalso
      rcases List.mem_cons.1 h with rfl | h
      · exact Before.irrefl ho.1 _ hji
      · have : Before order i j := by
          rw [hsplit, List.append_cons]; exact Before.of_mem_append (by simp) h
        exact Before.irrefl ho.1 _ (hji.trans ho.1 this)
  have hpre_n : ∀ j ∈ pre, j < n := fun j hj => (ho.2 j).1 (by rw [hsplit]; exact List.mem_append_left _ hj)
  have hres : ∀ r, r < N → x (r + p) i - ∑ c ∈ range (pre.length + n * p), b c * designCol n p x pre c r = e (r + p) i := by
    intro r hr
    rw [design_sum]
    have h1 : ∑ c ∈ range pre.length, b c * x (r + p) (pre.getD c 0) = ∑ j ∈ range n, B 0 i j * x (r + p) j := by
      have : ∑ c ∈ range pre.length, b c * x (r + p) (pre.getD c 0) =
          ∑ c ∈ range pre.length, (fun j => B 0 i j * x (r + p) j) (pre.getD c 0) := by
        refine sum_congr rfl fun c hc => ?_
        rw [hb]; unfold trueCoef; rw [if_pos (mem_range.1 hc)]
      rw [this, sum_getD (fun j => B 0 i j * x (r + p) j) pre, ← List.sum_toFinset _ hpre_nd]
      refine sum_subset (fun j hj => mem_range.2 (hpre_n j (by simpa using hj))) fun j hj hjp => ?_
      by_cases hz : B 0 i j = 0
      · rw [hz, zero_mul]
      · exact absurd (hin j (mem_range.1 hj) hz) (by simpa using hjp)
    have h2 : ∑ k ∈ range p, ∑ j ∈ range n, b (pre.length + (n * k + j)) * past p x k j r =
        ∑ k ∈ range p, ∑ j ∈ range n, B (k + 1) i j * past p x k j r :=
      sum_congr rfl fun k _ => sum_congr rfl fun j hj => by rw [hbp k j (mem_range.1 hj)]
    rw [h1, h2, struct_row hx (by omega) hi]
    ring
  have hrev : ∀ r : Fin N, y r - ∑ c ∈ range (pre.length + n * p), b c * column rows c r =
      e ((r.rev : Fin N) + p) i := by
    intro r
    have h1 : ∑ c ∈ range (pre.length + n * p), b c * column rows c r =
        ∑ c ∈ range (pre.length + n * p), b c * designCol n p x pre c r.rev :=
      sum_congr rfl fun c hc => by rw [hcol c (mem_range.1 hc) r]
    rw [h1, hy r r.2, ← hres _ (Fin.is_lt r.rev)]
    congr 2
    rw [Fin.val_rev]; omega
  have hunc : ∀ c, c < pre.length + n * p →
      sampleCov (fun r : Fin N => y r - ∑ c ∈ range (pre.length + n * p), b c * column rows c r)
        (fun r : Fin N => column rows c r) = 0 := by
    intro c hc
    have h1 : (fun r : Fin N => y r - ∑ c ∈ range (pre.length + n * p), b c * column rows c r) =
        fun r : Fin N => (fun r : Fin N => e (r + p) i) r.rev := funext hrev
    have h2 : (fun r : Fin N => column rows c r) = fun r : Fin N => (fun r : Fin N => designCol n p x pre c r) r.rev :=
      funext (hcol c hc)
    rw [h1, h2, sampleCov_rev (fun r : Fin N => e (r + p) i) (fun r : Fin N => designCol n p x pre c r)]
    unfold designCol
    by_cases hlt : c < pre.length
    · simp only [if_pos hlt]
      have hmem : pre.getD c 0 ∈ pre := by
        rw [List.getD, List.getElem?_eq_getElem hlt]; exact List.getElem_mem _
      rw [sampleCov_comm]
      exact err_before hx hN hg hu ho hB hi order [] (by simp) _
        (by rw [hsplit]; exact List.mem_append_left _ hmem)
        (by rw [hsplit]; exact Before.of_mem_append hmem (by simp))
    · simp only [if_neg hlt]
      have hn0 : 0 < n := by omega
      refine uncorrelated_iff.1 (hu i hi _ ?_ _ (Nat.mod_lt _ hn0))
      rw [Nat.div_lt_iff_lt_mul hn0, Nat.mul_comm]; omega
  obtain ⟨S, hS, hsup, hout, hls⟩ := hreg N (pre.length + n * p) rows y b hlen
    (fun c hc => uncorrelated_iff.2 (hunc c hc))
  refine selection_exact (z := fun c (r : Fin N) => column rows c r) (y := fun r : Fin N => y r) hS hunc hsup hout
    (fun c hc => uncorrelated_iff.1 (hls c hc)) ?_
  intro d q hd
  have hd' : ∀ r, r < N → ∑ c ∈ range pre.length, d c * x (r + p) (pre.getD c 0) +
      ∑ k ∈ range p, ∑ j ∈ range n, d (pre.length + (n * k + j)) * past p x k j r = q := by
    intro r hr
    rw [← design_sum]
    have := hd (Fin.rev ⟨r, hr⟩)
    rw [← this]
    refine sum_congr rfl fun c hc => ?_
    rw [hcol c (mem_range.1 hc), Fin.rev_rev]
  obtain ⟨h1, h2⟩ := design_independent hx hN hg hu hind ho hB (fun k j => d (pre.length + (n * k + j))) q pre (i :: post) d
    hsplit hd'
  intro c hc
  by_cases hlt : c < pre.length
  · exact h1 c hlt
  · have hn0 : 0 < n := by omega
    have hk : (c - pre.length) / n < p := by
      rw [Nat.div_lt_iff_lt_mul hn0, Nat.mul_comm]; omega
    have := h2 _ hk _ (Nat.mod_lt (c - pre.length) hn0)
    rw [Nat.div_add_mod] at this
    rwa [show pre.length + (c - pre.length) = c by omega] at this

end Verif.Var
