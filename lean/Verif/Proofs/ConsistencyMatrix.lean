import Verif.Proofs.ConsistencyOrder
import Verif.Props.KeptEdges
import Mathlib.Analysis.SpecialFunctions.Log.Base
import Mathlib.Analysis.SpecialFunctions.Pow.Asymptotics

/-! The coefficients estimated on ever larger samples, used by `Props/ConsistencyMatrix.lean`. -/
set_option linter.unusedSectionVars false
set_option autoImplicit false
namespace Verif.Consistency
open Finset MeasureTheory ProbabilityTheory Filter Topology

variable {Ω : Type*} [MeasurableSpace Ω] {P : Measure Ω} [IsProbabilityMeasure P] {R : Nat → Ω → Nat → ℝ} {n : Nat}

/-- Largest coefficient of a form. -/
noncomputable def size (n : Nat) (d : Nat → ℝ) : ℝ := ‖fun k : Fin (n + 1) => d k‖

theorem size_nonneg (n : Nat) (d : Nat → ℝ) : 0 ≤ size n d := norm_nonneg _

theorem le_size {n : Nat} (d : Nat → ℝ) {k : Nat} (hk : k ≤ n) : |d k| ≤ size n d :=
  norm_le_pi_norm (fun k : Fin (n + 1) => d k) ⟨k, by omega⟩

theorem form_congr {n : Nat} {a b : Nat → ℝ} (h : ∀ k, k ≤ n → a k = b k) (v : Nat → ℝ) : form n a v = form n b v := by
  unfold form
  exact sum_congr rfl fun k hk => by rw [h k (by have := mem_range.1 hk; omega)]

/-- The second moments of the forms are bounded below. -/
theorem form_bound (hR : IidRows P R) (hreg : Regular P n (fun j ω => R 0 ω j)) :
    ∃ c, 0 < c ∧ ∀ d : Nat → ℝ, c * size n d ^ 2 ≤ ∫ x, form n d (R 0 x) * form n d (R 0 x) ∂P := by
  have h2 := hreg.square
  let q : (Fin (n + 1) → ℝ) → ℝ := fun e => ∑ k : Fin (n + 1), ∑ l : Fin (n + 1), e k * e l * ∫ x, ext n (R 0 x) k * ext n (R 0 x) l ∂P
  have hq : ∀ d : Nat → ℝ, ∫ x, form n d (R 0 x) * form n d (R 0 x) ∂P = q (fun k => d k) := by
    intro d
    rw [integral_form_mul hR h2, Finset.sum_range]
    refine sum_congr rfl fun k _ => ?_
    rw [Finset.sum_range]
  have hcont : Continuous q := by
    refine continuous_finsetSum _ fun k _ => continuous_finsetSum _ fun l _ => ?_
    exact ((continuous_apply k).mul (continuous_apply l)).mul continuous_const
  have hpos : ∀ e : Fin (n + 1) → ℝ, e ≠ 0 → 0 < q e := by
    intro e he
    set a : Nat → ℝ := fun k => if h : k < n + 1 then e ⟨k, h⟩ else 0 with ha
    have hae : ∀ k : Fin (n + 1), a k = e k := fun k => by rw [ha]; exact dif_pos k.2
    have h1 : q e = ∫ x, form n a (R 0 x) * form n a (R 0 x) ∂P := by
      rw [hq]
      congr 1
      exact funext fun k => (hae k).symm
    rw [h1]
    refine integral_sq_pos (form_sq hR h2 a) fun hz => he ?_
    have hz' : ∀ᵐ x ∂P, a n + ∑ j ∈ range n, a j * R 0 x j = 0 := by
      filter_upwards [hz] with x hx
      rw [← form_split]; exact hx
    have h3 := hreg.free a (a n) hz'
    have hn : a n = 0 := by
      obtain ⟨x, hx⟩ := hz'.exists
      rw [sum_eq_zero fun j hj => by rw [h3 j (mem_range.1 hj), zero_mul], add_zero] at hx
      exact hx
    funext k
    rw [← hae k]
    by_cases hk : (k : Nat) < n
    · exact h3 k hk
    · have : (k : Nat) = n := by omega
      rw [this, hn]; rfl
  have hne : (Metric.sphere (0 : Fin (n + 1) → ℝ) 1).Nonempty := ⟨fun _ => 1, by simp⟩
  obtain ⟨e, he, hmin⟩ := (isCompact_sphere (0 : Fin (n + 1) → ℝ) 1).exists_isMinOn hne hcont.continuousOn
  have he1 : ‖e‖ = 1 := by simpa using he
  refine ⟨q e, hpos e fun h => by rw [h] at he1; simp at he1, fun d => ?_⟩
  rw [hq d, size]
  set f : Fin (n + 1) → ℝ := fun k => d k with hf
  by_cases h0 : f = 0
  · rw [h0]
    simp [q]
  have hn0 : ‖f‖ ≠ 0 := norm_ne_zero_iff.2 h0
  have h4 : q e ≤ q (fun k => ‖f‖⁻¹ * f k) := by
    refine hmin ?_
    have : (fun k => ‖f‖⁻¹ * f k) = ‖f‖⁻¹ • f := by funext k; simp
    rw [this, mem_sphere_zero_iff_norm, norm_smul, norm_inv, norm_norm, inv_mul_cancel₀ hn0]
  have h5 : q (fun k => ‖f‖⁻¹ * f k) = ‖f‖⁻¹ ^ 2 * q f := by
    simp only [q, mul_sum]
    exact sum_congr rfl fun k _ => sum_congr rfl fun l _ => by ring
  rw [h5] at h4
  have := mul_le_mul_of_nonneg_right h4 (sq_nonneg ‖f‖)
  have e6 : ‖f‖⁻¹ ^ 2 * q f * ‖f‖ ^ 2 = q f := by field_simp
  rwa [e6] at this

theorem form_bound_sample (hR : IidRows P R) (hreg : Regular P n (fun j ω => R 0 ω j)) {ω : Ω} (hω : Good n P R ω) :
    ∃ c, 0 < c ∧ ∀ᶠ N : Nat in atTop, ∀ d : Nat → ℝ, c * size n d ^ 2 ≤ (∑ r : Fin N, form n d (R r ω) * form n d (R r ω)) / N := by
  have h2 := hreg.square
  obtain ⟨c, hc, h⟩ := form_bound hR hreg
  refine ⟨c / 2, by positivity, ?_⟩
  have ht : Tendsto (fun N : Nat => ∑ k ∈ range (n + 1), ∑ l ∈ range (n + 1),
      |(∑ r : Fin N, ext n (R r ω) k * ext n (R r ω) l) / N - ∫ x, ext n (R 0 x) k * ext n (R 0 x) l ∂P|) atTop (𝓝 0) := by
    have e : (0 : ℝ) = ∑ k ∈ range (n + 1), ∑ l ∈ range (n + 1), |(∫ x, ext n (R 0 x) k * ext n (R 0 x) l ∂P) - ∫ x, ext n (R 0 x) k * ext n (R 0 x) l ∂P| := by
      simp
    rw [e]
    exact tendsto_finsetSum _ fun k _ => tendsto_finsetSum _ fun l _ => ((hω k l).sub tendsto_const_nhds).abs
  filter_upwards [ht.eventually_lt_const (show (0 : ℝ) < c / 2 by positivity)] with N hN d
  have e : (∑ r : Fin N, form n d (R r ω) * form n d (R r ω)) / N = (∫ x, form n d (R 0 x) * form n d (R 0 x) ∂P) +
      ∑ k ∈ range (n + 1), ∑ l ∈ range (n + 1), d k * d l *
        ((∑ r : Fin N, ext n (R r ω) k * ext n (R r ω) l) / N - ∫ x, ext n (R 0 x) k * ext n (R 0 x) l ∂P) := by
    rw [integral_form_mul hR h2]
    simp only [form_mul]
    rw [sum_comm, sum_div, ← sum_add_distrib]
    refine sum_congr rfl fun k _ => ?_
    rw [sum_comm, sum_div, ← sum_add_distrib]
    refine sum_congr rfl fun l _ => ?_
    rw [← mul_sum, mul_div_assoc]; ring
  have hb : |∑ k ∈ range (n + 1), ∑ l ∈ range (n + 1), d k * d l *
        ((∑ r : Fin N, ext n (R r ω) k * ext n (R r ω) l) / N - ∫ x, ext n (R 0 x) k * ext n (R 0 x) l ∂P)| ≤ size n d ^ 2 * (c / 2) := by
    refine (abs_sum_le_sum_abs _ _).trans ?_
    refine le_trans ?_ (mul_le_mul_of_nonneg_left hN.le (sq_nonneg (size n d)))
    rw [mul_sum]
    refine sum_le_sum fun k hk => (abs_sum_le_sum_abs _ _).trans ?_
    rw [mul_sum]
    refine sum_le_sum fun l hl => ?_
    rw [abs_mul, abs_mul, sq]
    refine mul_le_mul_of_nonneg_right ?_ (abs_nonneg _)
    exact mul_le_mul (le_size d (by have := mem_range.1 hk; omega)) (le_size d (by have := mem_range.1 hl; omega)) (abs_nonneg _) (size_nonneg n d)
  rw [e]
  have := h d
  have := (abs_le.1 hb).1
  nlinarith

/-- Deviation of two sets of coefficients, one of which solves the normal equations. -/
theorem close {N : Nat} {ω : Ω} {c : ℝ} (hc : 0 < c)
    (hq : ∀ d : Nat → ℝ, c * size n d ^ 2 ≤ (∑ r : Fin N, form n d (R r ω) * form n d (R r ω)) / N) {t : Nat} {D β : Nat → ℝ} {A : Nat → Prop}
    (hs : ∀ k, k ≤ n → ¬ A k → D k = β k) (ho : ∀ l, l ≤ n → A l → ∑ r : Fin N, (R r ω t - form n D (R r ω)) * ext n (R r ω) l = 0) {γ : ℝ} (h0 : 0 ≤ γ)
    (hγ : ∀ l, l ≤ n → A l → |(∑ r : Fin N, (R r ω t - form n β (R r ω)) * ext n (R r ω) l) / N| ≤ γ) {k : Nat} (hk : k ≤ n) :
    |D k - β k| ≤ (n + 1) * γ / c := by
  set d : Nat → ℝ := mix 1 (-1) D β with hd
  have hdk : ∀ k, d k = D k - β k := fun k => by rw [hd, mix]; ring
  have e : (∑ r : Fin N, form n d (R r ω) * form n d (R r ω)) / N =
      ∑ l ∈ range (n + 1), d l * ((∑ r : Fin N, (R r ω t - form n β (R r ω)) * ext n (R r ω) l) / N) -
      ∑ l ∈ range (n + 1), d l * ((∑ r : Fin N, (R r ω t - form n D (R r ω)) * ext n (R r ω) l) / N) := by
    have e1 : ∀ a : Nat → ℝ, ∑ l ∈ range (n + 1), d l * ((∑ r : Fin N, (R r ω t - form n a (R r ω)) * ext n (R r ω) l) / N) =
        (∑ r : Fin N, (R r ω t - form n a (R r ω)) * form n d (R r ω)) / N := by
      intro a
      have : ∀ r : Fin N, (R r ω t - form n a (R r ω)) * form n d (R r ω) =
          ∑ l ∈ range (n + 1), d l * ((R r ω t - form n a (R r ω)) * ext n (R r ω) l) := by
        intro r
        rw [show form n d (R r ω) = ∑ l ∈ range (n + 1), d l * ext n (R r ω) l from rfl, mul_sum]
        exact sum_congr rfl fun l _ => by ring
      simp only [this]
      rw [sum_comm, sum_div]
      exact sum_congr rfl fun l _ => by rw [← mul_sum, mul_div_assoc]
    rw [e1, e1, ← sub_div, ← sum_sub_distrib]
    congr 1
    refine sum_congr rfl fun r _ => ?_
    rw [← sub_mul]
    congr 1
    rw [hd, form_mix]; ring
  have hle : (∑ r : Fin N, form n d (R r ω) * form n d (R r ω)) / N ≤ (n + 1) * (size n d * γ) := by
    rw [e, sum_eq_zero (s := range (n + 1)) (f := fun l => d l * ((∑ r : Fin N, (R r ω t - form n D (R r ω)) * ext n (R r ω) l) / N)), sub_zero]
    · have : ((n : ℝ) + 1) * (size n d * γ) = ∑ l ∈ range (n + 1), size n d * γ := by
        rw [sum_const, card_range, nsmul_eq_mul]; push_cast; ring
      rw [this]
      refine sum_le_sum fun l hl => ?_
      have hl : l ≤ n := by have := mem_range.1 hl; omega
      by_cases hA : A l
      · refine (le_abs_self _).trans ?_
        rw [abs_mul]
        exact mul_le_mul (le_size d hl) (hγ l hl hA) (abs_nonneg _) (size_nonneg n d)
      · rw [hdk, hs l hl hA, sub_self, zero_mul]
        exact mul_nonneg (size_nonneg n d) h0
    · intro l hl
      have hl : l ≤ n := by have := mem_range.1 hl; omega
      by_cases hA : A l
      · rw [ho l hl hA, zero_div, mul_zero]
      · rw [hdk, hs l hl hA, sub_self, zero_mul]
  have h1 := (hq d).trans hle
  have h2 : size n d ≤ (n + 1) * γ / c := by
    rw [le_div_iff₀ hc]
    by_cases hz : size n d = 0
    · rw [hz, zero_mul]; positivity
    · have hp : 0 < size n d := lt_of_le_of_ne (size_nonneg n d) (Ne.symm hz)
      have : size n d * (size n d * c) ≤ size n d * ((n + 1) * γ) := by nlinarith
      exact le_of_mul_le_mul_left this hp
  have h3 := le_size d hk
  rw [hdk] at h3
  exact h3.trans h2

/-- Omitting a predictor raises the residual sum of squares. -/
theorem raise {N : Nat} {ω : Ω} {c : ℝ}
    (hq : ∀ d : Nat → ℝ, c * size n d ^ 2 ≤ (∑ r : Fin N, form n d (R r ω) * form n d (R r ω)) / N) (hc : 0 ≤ c) (hN : N ≠ 0) {t : Nat} {D D' : Nat → ℝ} {A : Nat → Prop}
    (hs : ∀ k, k ≤ n → ¬ A k → D k = D' k) (ho : ∀ l, l ≤ n → A l → ∑ r : Fin N, (R r ω t - form n D (R r ω)) * ext n (R r ω) l = 0)
    {k : Nat} (hk : k ≤ n) :
    (∑ r : Fin N, (R r ω t - form n D (R r ω)) ^ 2) + N * (c * (D k - D' k) ^ 2) ≤ ∑ r : Fin N, (R r ω t - form n D' (R r ω)) ^ 2 := by
  set d : Nat → ℝ := mix 1 (-1) D D' with hd
  have hdk : ∀ k, d k = D k - D' k := fun k => by rw [hd, mix]; ring
  have h0 : ∑ r : Fin N, (R r ω t - form n D (R r ω)) * form n d (R r ω) = 0 := by
    have : ∀ r : Fin N, (R r ω t - form n D (R r ω)) * form n d (R r ω) =
        ∑ l ∈ range (n + 1), d l * ((R r ω t - form n D (R r ω)) * ext n (R r ω) l) := by
      intro r
      rw [show form n d (R r ω) = ∑ l ∈ range (n + 1), d l * ext n (R r ω) l from rfl, mul_sum]
      exact sum_congr rfl fun l _ => by ring
    simp only [this]
    rw [sum_comm]
    refine sum_eq_zero fun l hl => ?_
    have hl : l ≤ n := by have := mem_range.1 hl; omega
    rw [← mul_sum]
    by_cases hA : A l
    · rw [ho l hl hA, mul_zero]
    · rw [hdk, hs l hl hA, sub_self, zero_mul]
  have e : ∀ r : Fin N, (R r ω t - form n D' (R r ω)) ^ 2 = (R r ω t - form n D (R r ω)) ^ 2 +
      2 * ((R r ω t - form n D (R r ω)) * form n d (R r ω)) + form n d (R r ω) * form n d (R r ω) := by
    intro r
    rw [hd, form_mix]; ring
  simp only [e, sum_add_distrib, ← mul_sum, h0]
  have hNp : (0 : ℝ) < N := by exact_mod_cast Nat.pos_of_ne_zero hN
  have h1 := hq d
  rw [le_div_iff₀ hNp] at h1
  have h2 : (D k - D' k) ^ 2 ≤ size n d ^ 2 := by
    rw [← hdk, ← sq_abs]
    exact pow_le_pow_left₀ (abs_nonneg _) (le_size d hk) 2
  have h3 : N * (c * (D k - D' k) ^ 2) ≤ c * size n d ^ 2 * N := by
    have := mul_le_mul_of_nonneg_left h2 hc
    nlinarith
  linarith

theorem sum_list_range (S : List Nat) (f : Nat → Nat → ℝ) : ∀ (_ : S.Nodup),
    ∑ i ∈ range S.length, f i (S.getD i 0) = ∑ q ∈ S.toFinset, f (S.idxOf q) q := by
  intro hnd
  refine sum_bij (fun i _ => S.getD i 0) (fun i hi => ?_) (fun i hi j hj h => ?_) (fun q hq => ?_) (fun i hi => ?_)
  · rw [Pairwise.getD_of_lt (mem_range.1 hi)]; simp
  · rw [Pairwise.getD_of_lt (mem_range.1 hi), Pairwise.getD_of_lt (mem_range.1 hj)] at h
    exact (hnd.getElem_inj_iff).1 h
  · have hq : q ∈ S := by simpa using hq
    refine ⟨S.idxOf q, mem_range.2 (List.idxOf_lt_length_of_mem hq), ?_⟩
    rw [Pairwise.getD_of_lt (List.idxOf_lt_length_of_mem hq), List.getElem_idxOf]
  · rw [Pairwise.getD_of_lt (mem_range.1 hi), hnd.idxOf_getElem i (mem_range.1 hi)]

/-- The coefficients of a regression as the coefficients of a form. -/
noncomputable def coefs (n : Nat) (S : List Nat) (b0 : ℝ) (w : Nat → ℝ) : Nat → ℝ :=
  fun j => if j = n then b0 else if j ∈ S then w (S.idxOf j) else 0

theorem unexplained_form {N : Nat} {ω : Ω} {S : List Nat} (hnd : S.Nodup) (hlt : ∀ q ∈ S, q < n) (t : Nat) (b0 : ℝ) (w : Nat → ℝ) (r : Fin N) :
    unexplained (S.map (sampleOf R ω N)) (sampleOf R ω N t) b0 w r = R r ω t - form n (coefs n S b0 w) (R r ω) := by
  unfold unexplained
  rw [form_split, List.length_map]
  have e1 : ∑ k ∈ range S.length, w k * (S.map (sampleOf R ω N)).getD k 0 r = ∑ k ∈ range S.length, w k * R r ω (S.getD k 0) :=
    sum_congr rfl fun k hk => by rw [Pairwise.col_get _ (mem_range.1 hk)]; rfl
  have e2 : ∑ k ∈ range n, coefs n S b0 w k * R r ω k = ∑ q ∈ S.toFinset, w (S.idxOf q) * R r ω q := by
    symm
    have hsub : S.toFinset ⊆ range n := fun q hq => mem_range.2 (hlt q (by simpa using hq))
    rw [← sum_subset hsub (f := fun k => coefs n S b0 w k * R r ω k)]
    · refine sum_congr rfl fun q hq => ?_
      have hq : q ∈ S := by simpa using hq
      have := hlt q hq
      rw [coefs, if_neg (by omega), if_pos hq]
    · intro k hk hkS
      have hkS : k ∉ S := by simpa using hkS
      have := mem_range.1 hk
      rw [coefs, if_neg (by omega), if_neg hkS, zero_mul]
  rw [e1, e2, sum_list_range S (fun k q => w k * R r ω q) hnd]
  have : coefs n S b0 w n = b0 := by rw [coefs, if_pos rfl]
  rw [this]
  unfold sampleOf
  ring

theorem normal_equations {N : Nat} {ω : Ω} {S : List Nat} (hnd : S.Nodup) (hlt : ∀ q ∈ S, q < n) {t : Nat} {b0 : ℝ} {w : Nat → ℝ}
    (h : SolvesRegression (S.map (sampleOf R ω N)) (sampleOf R ω N t) b0 w) {l : Nat} (hl : l ∈ S ∨ l = n) :
    ∑ r : Fin N, (R r ω t - form n (coefs n S b0 w) (R r ω)) * ext n (R r ω) l = 0 := by
  simp only [← unexplained_form hnd hlt]
  rcases hl with hl | rfl
  · have hi := List.idxOf_lt_length_of_mem hl
    have := h.2 (S.idxOf l) (by simpa using hi)
    rw [← this]
    refine sum_congr rfl fun r _ => ?_
    rw [Pairwise.col_get _ hi, Pairwise.getD_of_lt hi, List.getElem_idxOf, ext, if_pos (hlt l hl)]
    rfl
  · rw [← h.1]
    exact sum_congr rfl fun r _ => by simp [ext]

theorem log_small (m : Nat) {K η : ℝ} (hK : 0 ≤ K) (hη : 0 < η) : ∀ᶠ N : Nat in atTop, m * Real.log N * K < (N - m - 1) * η := by
  have hε : 0 < η / (2 * (m * K + 1)) := by positivity
  have h := (Real.isLittleO_log_id_atTop.comp_tendsto tendsto_natCast_atTop_atTop).bound hε
  filter_upwards [h, eventually_gt_atTop (2 * (m + 1))] with N h1 h2
  simp only [Function.comp, id, Real.norm_eq_abs] at h1
  have hN : (2 : ℝ) * (m + 1) < N := by exact_mod_cast h2
  rw [abs_of_nonneg (Real.log_natCast_nonneg N), Nat.abs_cast] at h1
  have h3 : m * K * Real.log N ≤ (m * K + 1) * (η / (2 * (m * K + 1)) * N) := by
    have : 0 ≤ Real.log N := Real.log_natCast_nonneg N
    have h4 : m * K * Real.log N ≤ (m * K + 1) * Real.log N := by nlinarith
    exact h4.trans (mul_le_mul_of_nonneg_left h1 (by positivity))
  have h5 : (m * K + 1) * (η / (2 * (m * K + 1)) * N) = η * N / 2 := by
    have : (m * K + 1 : ℝ) ≠ 0 := by positivity
    field_simp
  rw [h5] at h3
  nlinarith

/-- The coefficients of one target converge. -/
theorem row_tendsto (hR : IidRows P R) (hreg : Regular P n (fun j ω => R 0 ω j)) {ω : Ω} (hω : Good n P R ω) {ps : List Nat} {t : Nat}
    (hnd : ps.Nodup) (hlt : ∀ q ∈ ps, q < n) (ht : t < n) (htp : t ∉ ps) {β : Nat → ℝ}
    (hβ0 : ∀ k, k ∉ ps → k ≠ n → β k = 0)
    (hβ : ∀ l, l ∈ ps ∨ l = n → ∫ x, (R 0 x t - form n β (R 0 x)) * ext n (R 0 x) l ∂P = 0)
    {lin : ∀ N, Pairwise.Lin N} {lars : ∀ N, Pairwise.Lars N} (hlin : ∀ N, RightRegression (lin N)) (hlars : ∀ N, RightPath (lars N))
    {p : Nat} (hp : p ∈ ps) :
    Tendsto (fun N => Pairwise.predict (lin N) (lars N) (sampleOf R ω N) ps t (ps.idxOf p)) atTop (𝓝 (β p)) := by
  have h2 := hreg.square
  obtain ⟨c, hc, hq⟩ := form_bound_sample hR hreg hω
  set ε : Nat → ℝ := mix 1 (-1) (fun k => if k = t then 1 else 0) β with hε
  have hform : ∀ v : Nat → ℝ, form n ε v = v t - form n β v := fun v => by rw [hε, form_mix, form_single ht]; ring
  have hext : ∀ l, l ≤ n → ∀ v, form n (fun k => if k = l then 1 else 0) v = ext n v l := by
    intro l hl v
    unfold form
    rw [sum_eq_single l]
    · simp
    · intro k _ h; simp [h]
    · intro h; exact absurd (mem_range.2 (by omega)) h
  have hle : ∀ l, l ∈ ps ∨ l = n → l ≤ n := fun l hl => by
    rcases hl with h | h
    · exact (hlt l h).le
    · exact h.le
  set g : Nat → Nat → ℝ := fun N l => (∑ r : Fin N, (R r ω t - form n β (R r ω)) * ext n (R r ω) l) / N with hg
  have hgl : ∀ l, l ∈ ps ∨ l = n → Tendsto (fun N => g N l) atTop (𝓝 0) := by
    intro l hl
    have h := form_mul_tendsto hR h2 hω (conv_const n ε) (conv_const n (fun k => if k = l then 1 else 0))
    simp only [hform, hext l (hle l hl)] at h
    rwa [hβ l hl] at h
  set γ : Nat → ℝ := fun N => ∑ l ∈ range (n + 1), if l ∈ ps ∨ l = n then |g N l| else 0 with hγ
  have hγ0 : Tendsto γ atTop (𝓝 0) := by
    have e : (0 : ℝ) = ∑ l ∈ range (n + 1), (0 : ℝ) := by simp
    rw [e]
    refine tendsto_finsetSum _ fun l _ => ?_
    by_cases hl : l ∈ ps ∨ l = n
    · simp only [hl, if_true]
      have := (hgl l hl).abs
      rwa [abs_zero] at this
    · simp only [hl, if_false]
      exact tendsto_const_nhds
  have hγn : ∀ N, 0 ≤ γ N := fun N => sum_nonneg fun l _ => by split_ifs <;> positivity
  have hγl : ∀ N l, l ∈ ps ∨ l = n → |g N l| ≤ γ N := fun N l hl => by
    have := single_le_sum (s := range (n + 1)) (f := fun l => if l ∈ ps ∨ l = n then |g N l| else 0) (fun l _ => by split_ifs <;> positivity)
      (mem_range.2 (show l < n + 1 by have := hle l hl; omega))
    beta_reduce at this
    rwa [if_pos hl] at this
  have hbound : Tendsto (fun N => ((n : ℝ) + 1) * γ N / c) atTop (𝓝 0) := by
    have := (hγ0.const_mul ((n : ℝ) + 1)).div_const c
    simpa using this
  -- the second moment of the target is bounded
  have hsq : ∀ᶠ N : Nat in atTop, (∑ r : Fin N, R r ω t ^ 2) / N < (∫ x, R 0 x t * R 0 x t ∂P) + 1 := by
    have h := hω t t
    unfold Averages at h
    simp only [ext, ht, if_true, ← sq] at h
    have h := h.eventually_lt_const (lt_add_one _)
    simpa only [← sq] using h
  set K := (∫ x, R 0 x t * R 0 x t ∂P) + 1 with hK
  have hKpos : 0 ≤ K := by
    have : 0 ≤ ∫ x, R 0 x t * R 0 x t ∂P := integral_nonneg fun x => mul_self_nonneg _
    linarith
  have hbig : ∀ᶠ N : Nat in atTop, ∀ q ∈ ps.toFinset, β q ≠ 0 →
      (ps.length * Real.log N * K < (N - ps.length - 1) * (c * (|β q| / 2) ^ 2) ∧ (n + 1) * γ N / c < |β q| / 2) := by
    rw [eventually_all_finset]
    intro q _
    by_cases hq0 : β q = 0
    · exact Eventually.of_forall fun _ h => absurd hq0 h
    have hpos : 0 < |β q| / 2 := by have := abs_pos.2 hq0; positivity
    filter_upwards [log_small ps.length hKpos (η := c * (|β q| / 2) ^ 2) (by positivity), hbound.eventually_lt_const hpos] with N h1 h3 _
    exact ⟨h1, h3⟩
  have hgood : ∀ᶠ N : Nat in atTop,
      ‖Pairwise.predict (lin N) (lars N) (sampleOf R ω N) ps t (ps.idxOf p) - β p‖ ≤ ((n : ℝ) + 1) * γ N / c := by
    filter_upwards [hq, hsq, hbig, sample_identified hR hreg hω, eventually_gt_atTop (ps.length + 1)] with N hq hsq hbig hid hN
    set X := sampleOf R ω N with hX
    have hN0 : N ≠ 0 := by omega
    have hNp : (0 : ℝ) < N := by exact_mod_cast Nat.pos_of_ne_zero hN0
    obtain ⟨b0, w, hw⟩ := Pairwise.exists_regression (ps.map X) (X t)
    -- the full regression
    have hnorm := fun l (hl : l ∈ ps ∨ l = n) => normal_equations hnd hlt hw hl
    have hfull : ∀ k, k ≤ n → |coefs n ps b0 w k - β k| ≤ ((n : ℝ) + 1) * γ N / c := by
      intro k hk
      refine close hc hq (A := fun l => l ∈ ps ∨ l = n) (fun k _ hA => ?_) (fun l _ hA => hnorm l hA) (hγn N) (fun l _ hA => hγl N l hA) hk
      push Not at hA
      rw [coefs, if_neg hA.2, if_neg hA.1, hβ0 k hA.1 hA.2]
    set Rss := ∑ r, unexplained (ps.map X) (X t) b0 w r ^ 2 with hRss
    have hRss' : Rss = ∑ r : Fin N, (R r ω t - form n (coefs n ps b0 w) (R r ω)) ^ 2 := by
      rw [hRss]
      exact sum_congr rfl fun r _ => by rw [unexplained_form hnd hlt]
    have hRssle : Rss ≤ N * K := by
      have := raise hq hc.le hN0 (D := coefs n ps b0 w) (D' := fun _ => 0) (A := fun l => l ∈ ps ∨ l = n) (fun k _ hA => by
        push Not at hA
        rw [coefs, if_neg hA.2, if_neg hA.1]) (fun l _ hA => hnorm l hA) (k := n) le_rfl
      have e : ∀ r : Fin N, form n (fun _ => 0) (R r ω) = 0 := fun r => by simp [form]
      simp only [e, sub_zero] at this
      rw [div_lt_iff₀ hNp] at hsq
      have h5 : 0 ≤ N * (c * (coefs n ps b0 w n) ^ 2) := by positivity
      rw [← hRss'] at this
      linarith
    have hRss0 : Rss ≠ 0 := by
      intro h0
      have hz : ∀ r : Fin N, R r ω t - form n (coefs n ps b0 w) (R r ω) = 0 := fun r => by
        have := (sum_eq_zero_iff_of_nonneg (fun r _ => sq_nonneg _)).1 (hRss' ▸ h0) r (mem_univ r)
        exact pow_eq_zero_iff (two_ne_zero) |>.1 this
      have := hid (fun j => (if j = t then 1 else 0) - coefs n ps b0 w j) (-(coefs n ps b0 w n)) (fun r => by
        have h1 := hz r
        rw [form_split] at h1
        simp only [sub_mul, sum_sub_distrib, ite_mul, one_mul, zero_mul, sum_ite_eq', mem_range, ht, if_true]
        rw [hX]
        unfold sampleOf
        linarith) t ht
      rw [if_pos rfl, coefs, if_neg (by omega), if_neg htp] at this
      norm_num at this
    obtain ⟨S, hSnd, hSlt, hS0, ⟨c0, hS⟩, hkeep⟩ := Pairwise.C255_keeps (hlin N) (hlars N) hN hw hRss hRss0
    have hmem : ∀ q ∈ ps, β q ≠ 0 → ps.idxOf q ∈ S := by
      intro q hqp hq0
      obtain ⟨g1, g2⟩ := hbig q (by simpa using hqp) hq0
      have hiq := List.idxOf_lt_length_of_mem hqp
      have hDq : |β q| / 2 ≤ |coefs n ps b0 w q| := by
        have h6 := hfull q (hlt q hqp).le
        have h7 := abs_sub_abs_le_abs_sub (β q) (coefs n ps b0 w q)
        rw [abs_sub_comm] at h7
        linarith
      refine hkeep (ps.idxOf q) hiq (Rss + N * (c * (|β q| / 2) ^ 2)) (fun c0 u hu => ?_) ?_
      · have h8 := raise hq hc.le hN0 (D := coefs n ps b0 w) (D' := coefs n ps c0 u) (A := fun l => l ∈ ps ∨ l = n) (fun k _ hA => by
          push Not at hA
          rw [coefs, coefs, if_neg hA.2, if_neg hA.1, if_neg hA.2, if_neg hA.1]) (fun l _ hA => hnorm l hA) (k := q) (hlt q hqp).le
        have h9 : coefs n ps c0 u q = 0 := by
          have := hlt q hqp
          rw [coefs, if_neg (by omega), if_pos hqp, hu]
        rw [h9, sub_zero, ← hRss'] at h8
        have e : ∑ r : Fin N, (R r ω t - form n (coefs n ps c0 u) (R r ω)) ^ 2 = ∑ r, unexplained (ps.map X) (X t) c0 u r ^ 2 :=
          sum_congr rfl fun r _ => by rw [unexplained_form hnd hlt]
        rw [e] at h8
        have h10 : (|β q| / 2) ^ 2 ≤ (coefs n ps b0 w q) ^ 2 := by
          rw [← sq_abs (coefs n ps b0 w q)]
          exact pow_le_pow_left₀ (by positivity) hDq 2
        have h11 : N * (c * (|β q| / 2) ^ 2) ≤ N * (c * (coefs n ps b0 w q) ^ 2) :=
          mul_le_mul_of_nonneg_left (mul_le_mul_of_nonneg_left h10 hc.le) hNp.le
        linarith
      · have hl : 0 ≤ ps.length * Real.log N := mul_nonneg (Nat.cast_nonneg _) (Real.log_natCast_nonneg N)
        have h12 : ps.length * Real.log N * Rss ≤ ps.length * Real.log N * (N * K) := mul_le_mul_of_nonneg_left hRssle hl
        have h13 := mul_lt_mul_of_pos_left g1 hNp
        have h14 : (N - ps.length - 1 : ℝ) * (Rss + N * (c * (|β q| / 2) ^ 2) - Rss) = N * ((N - ps.length - 1) * (c * (|β q| / 2) ^ 2)) := by ring
        rw [h14]
        have h15 : ps.length * Real.log N * (N * K) = N * (ps.length * Real.log N * K) := by ring
        linarith
    -- the regression on the predictors that are kept
    set S' := S.map (fun k => ps.getD k 0) with hS'
    have hS'nd : S'.Nodup := by
      refine (List.nodup_map_iff_inj_on hSnd).2 fun a ha b hb hab => ?_
      rw [Pairwise.getD_of_lt (hSlt a ha), Pairwise.getD_of_lt (hSlt b hb)] at hab
      exact (hnd.getElem_inj_iff).1 hab
    have hS'ps : ∀ q ∈ S', q ∈ ps := by
      intro q hq
      obtain ⟨k, hk, rfl⟩ := List.mem_map.1 hq
      rw [Pairwise.getD_of_lt (hSlt k hk)]
      exact List.getElem_mem _
    have hS'lt : ∀ q ∈ S', q < n := fun q hq => hlt q (hS'ps q hq)
    have hmap : S.map (fun k => X (ps.getD k 0)) = S'.map X := by rw [hS', List.map_map]; rfl
    rw [hmap] at hS
    set w' : Nat → ℝ := fun i => Pairwise.predict (lin N) (lars N) X ps t (S.getD i 0) with hw'
    have hin : ∀ q ∈ ps, q ∈ S' ↔ ps.idxOf q ∈ S := by
      intro q hqp
      have hiq := List.idxOf_lt_length_of_mem hqp
      constructor
      · intro h
        obtain ⟨k, hk, he⟩ := List.mem_map.1 h
        rw [← he, Pairwise.getD_of_lt (hSlt k hk), hnd.idxOf_getElem k (hSlt k hk)]
        exact hk
      · intro h
        refine List.mem_map.2 ⟨_, h, ?_⟩
        rw [Pairwise.getD_of_lt hiq, List.getElem_idxOf]
    have hval : ∀ q ∈ ps, coefs n S' c0 w' q = Pairwise.predict (lin N) (lars N) X ps t (ps.idxOf q) := by
      intro q hqp
      have := hlt q hqp
      rw [coefs, if_neg (by omega)]
      by_cases hqS : q ∈ S'
      · rw [if_pos hqS, hw']
        beta_reduce
        congr 1
        have hi := List.idxOf_lt_length_of_mem hqS
        have hi' : S'.idxOf q < S.length := by simpa [hS'] using hi
        have h16 : S'[S'.idxOf q] = q := List.getElem_idxOf hi
        rw [Pairwise.getD_of_lt hi']
        have hgen : ∀ i (hi : i < S'.length) (hi' : i < S.length), ps.getD S[i] 0 = S'[i] := by
          intro i hi hi'
          simp [hS']
        have h17 : ps.getD S[S'.idxOf q] 0 = q := (hgen _ hi hi').trans h16
        have hlt' := hSlt _ (List.getElem_mem hi')
        rw [Pairwise.getD_of_lt hlt'] at h17
        rw [← hnd.idxOf_getElem _ hlt', h17]
      · rw [if_neg hqS, hS0 _ fun h => hqS ((hin q hqp).2 h)]
    rw [Real.norm_eq_abs, ← hval p hp]
    refine close hc hq (A := fun l => l ∈ S' ∨ l = n) (fun k _ hA => ?_) (fun l _ hA => normal_equations hS'nd hS'lt hS hA) (hγn N)
      (fun l _ hA => hγl N l (hA.imp_left (hS'ps l))) (hlt p hp).le
    push Not at hA
    rw [coefs, if_neg hA.2, if_neg hA.1]
    by_cases hkp : k ∈ ps
    · by_contra hne
      exact hA.1 ((hin k hkp).2 (hmem k hkp fun h => hne h.symm))
    · exact (hβ0 k hkp hA.2).symm
  have := squeeze_zero_norm' hgood hbound
  have h := this.add_const (β p)
  simpa using h

end Verif.Consistency
