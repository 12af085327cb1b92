import Verif.Model.AdaptiveLasso
import Verif.Spec.Lasso
import Verif.Proofs.Pairwise

set_option linter.unusedSectionVars false
set_option autoImplicit false
namespace Verif.Pairwise
open Finset

variable {N : Nat}

/-! ### Least squares on lists of columns -/

theorem sum_unexplained_mul (cols : List (Fin N → ℝ)) {res : Fin N → ℝ} (h0 : ∑ r, res r = 0)
    (h : ∀ k, k < cols.length → ∑ r, res r * cols.getD k 0 r = 0) (b0 : ℝ) (w : Nat → ℝ) :
    ∑ r, res r * (b0 + ∑ k ∈ range cols.length, w k * cols.getD k 0 r) = 0 := by
  have e : ∀ r, res r * (b0 + ∑ k ∈ range cols.length, w k * cols.getD k 0 r) =
      b0 * res r + ∑ k ∈ range cols.length, w k * (res r * cols.getD k 0 r) := by
    intro r
    rw [mul_add, mul_sum]
    congr 1
    · ring
    · exact sum_congr rfl fun k _ => by ring
  simp only [e]
  rw [sum_add_distrib, ← mul_sum, h0, mul_zero, zero_add, sum_comm]
  refine sum_eq_zero fun k hk => ?_
  rw [← mul_sum, h k (mem_range.1 hk), mul_zero]

/-- Solutions leave the same unexplained. -/
theorem unexplained_unique {cols : List (Fin N → ℝ)} {y : Fin N → ℝ} {b0 b0' : ℝ} {w w' : Nat → ℝ}
    (h : SolvesRegression cols y b0 w) (h' : SolvesRegression cols y b0' w') :
    unexplained cols y b0 w = unexplained cols y b0' w' := by
  have hd : ∀ r, unexplained cols y b0 w r - unexplained cols y b0' w' r =
      (b0' - b0) + ∑ k ∈ range cols.length, (w' k - w k) * cols.getD k 0 r := by
    intro r
    unfold unexplained
    simp only [sub_mul, sum_sub_distrib]
    ring
  have hz : ∑ r, (unexplained cols y b0 w r - unexplained cols y b0' w' r) ^ 2 = 0 := by
    have : ∀ r, (unexplained cols y b0 w r - unexplained cols y b0' w' r) ^ 2 =
        (unexplained cols y b0 w r - unexplained cols y b0' w' r) *
          ((b0' - b0) + ∑ k ∈ range cols.length, (w' k - w k) * cols.getD k 0 r) := fun r => by rw [← hd r]; ring
    simp only [this]
    refine sum_unexplained_mul cols ?_ ?_ _ _
    · rw [sum_sub_distrib, h.1, h'.1, sub_zero]
    · intro k hk
      simp only [sub_mul, sum_sub_distrib]
      rw [h.2 k hk, h'.2 k hk, sub_zero]
  funext r
  have := (sum_eq_zero_iff_of_nonneg fun r _ => sq_nonneg _).1 hz r (mem_univ r)
  exact sub_eq_zero.1 (pow_eq_zero_iff two_ne_zero |>.1 this)

theorem leastSquares_unique {cols : List (Fin N → ℝ)} (hi : IndependentCols cols) {y : Fin N → ℝ} {b0 b0' : ℝ} {w w' : Nat → ℝ}
    (h : SolvesRegression cols y b0 w) (h' : SolvesRegression cols y b0' w') {k : Nat} (hk : k < cols.length) : w k = w' k := by
  have := hi (b0' - b0) (fun k => w' k - w k) (fun r => by
    have := congrFun (unexplained_unique h h') r
    unfold unexplained at this
    simp only [sub_mul, sum_sub_distrib]
    linarith) k hk
  linarith

/-- Other units of all columns. -/
theorem leastSquares_units {cols cols' : List (Fin N → ℝ)} (hlen : cols'.length = cols.length) {y y' : Fin N → ℝ} {s a : Nat → ℝ}
    {s0 a0 : ℝ} (hs0 : s0 ≠ 0) (hs : ∀ k, k < cols.length → s k ≠ 0)
    (hc : ∀ k, k < cols.length → ∀ r, cols.getD k 0 r = s k * cols'.getD k 0 r + a k) (hy : ∀ r, y r = s0 * y' r + a0)
    {b0 : ℝ} {w : Nat → ℝ} (h : SolvesRegression cols y b0 w) :
    ∃ b0', SolvesRegression cols' y' b0' (fun k => w k * s k / s0) ∧
      ∀ r, unexplained cols' y' b0' (fun k => w k * s k / s0) r = unexplained cols y b0 w r / s0 := by
  have hres : ∀ r, unexplained cols' y' ((b0 - a0 + ∑ k ∈ range cols.length, w k * a k) / s0) (fun k => w k * s k / s0) r =
      unexplained cols y b0 w r / s0 := by
    intro r
    unfold unexplained
    have e : ∑ k ∈ range cols.length, w k * cols.getD k 0 r =
        s0 * ∑ k ∈ range cols.length, w k * s k / s0 * cols'.getD k 0 r + ∑ k ∈ range cols.length, w k * a k := by
      rw [mul_sum, ← sum_add_distrib]
      refine sum_congr rfl fun k hk => ?_
      rw [hc k (mem_range.1 hk) r]
      field_simp
    rw [hlen, hy r, e]
    generalize ∑ k ∈ range cols.length, w k * s k / s0 * cols'.getD k 0 r = S
    field_simp
    ring
  refine ⟨_, ⟨?_, ?_⟩, hres⟩
  · simp only [hres]
    rw [← sum_div, h.1, zero_div]
  · intro k hk
    rw [hlen] at hk
    simp only [hres]
    have e : ∀ r, unexplained cols y b0 w r / s0 * cols'.getD k 0 r =
        (unexplained cols y b0 w r * cols.getD k 0 r - a k * unexplained cols y b0 w r) * (s0⁻¹ * (s k)⁻¹) := by
      intro r
      rw [hc k hk r]
      have := hs k hk
      field_simp
      ring
    simp only [e]
    rw [← sum_mul, sum_sub_distrib, ← mul_sum, h.2 k hk, h.1, mul_zero, sub_zero, zero_mul]

theorem independent_units {cols cols' : List (Fin N → ℝ)} (hlen : cols'.length = cols.length) {s a : Nat → ℝ}
    (hc : ∀ k, k < cols.length → ∀ r, cols.getD k 0 r = s k * cols'.getD k 0 r + a k) (hs : ∀ k, k < cols.length → s k ≠ 0)
    (hi : IndependentCols cols) : IndependentCols cols' := by
  intro b0 w h k hk
  rw [hlen] at hk
  have := hi (b0 - ∑ k ∈ range cols.length, w k / s k * a k) (fun k => w k / s k) (fun r => by
    have h1 := h r
    rw [hlen] at h1
    have e : ∑ k ∈ range cols.length, w k / s k * cols.getD k 0 r =
        ∑ k ∈ range cols.length, w k * cols'.getD k 0 r + ∑ k ∈ range cols.length, w k / s k * a k := by
      rw [← sum_add_distrib]
      refine sum_congr rfl fun k hk => ?_
      have := hs k (mem_range.1 hk)
      rw [hc k (mem_range.1 hk) r]
      field_simp
    rw [e]
    linarith) k hk
  have hsk := hs k hk
  field_simp at this
  simpa using this

theorem getD_of_lt {α : Type} {l : List α} {k : Nat} (hk : k < l.length) (d : α) : l.getD k d = l[k] := by
  simp [List.getD, hk]

theorem list_getD_map {α β : Type} (f : α → β) (l : List α) {k : Nat} (hk : k < l.length) (d : β) (e : α) :
    (l.map f).getD k d = f (l.getD k e) := by
  simp [List.getD, hk]

/-- A selection of independent columns is independent. -/
theorem independent_sub {cols : List (Fin N → ℝ)} (hi : IndependentCols cols) {idx : List Nat} (hnd : idx.Nodup)
    (hlt : ∀ i ∈ idx, i < cols.length) : IndependentCols (idx.map (fun i => cols.getD i 0)) := by
  intro b0 w h k hk
  simp only [List.length_map] at hk h
  have hg : ∀ j, j < idx.length → (idx.map (fun i => cols.getD i 0)).getD j 0 = cols.getD (idx.getD j 0) 0 :=
    fun j hj => list_getD_map _ idx hj 0 0
  have hmem : ∀ j, j < idx.length → idx.getD j 0 ∈ idx := by
    intro j hj
    rw [getD_of_lt hj]
    exact List.getElem_mem hj
  have hidx : ∀ j, j < idx.length → idx.idxOf (idx.getD j 0) = j := by
    intro j hj
    rw [getD_of_lt hj]
    exact hnd.idxOf_getElem j hj
  have := hi b0 (fun i => if i ∈ idx then w (idx.idxOf i) else 0) (fun r => by
    refine Eq.trans ?_ (h r)
    congr 1
    symm
    refine sum_bij_ne_zero (fun j _ _ => idx.getD j 0) (fun j hj _ => mem_range.2 (hlt _ (hmem j (mem_range.1 hj)))) ?_ ?_ ?_
    · intro j hj _ j' hj' _ he
      rw [← hidx j (mem_range.1 hj), ← hidx j' (mem_range.1 hj'), he]
    · intro i hi hne
      have hin : i ∈ idx := by
        by_contra hcon
        simp [hcon] at hne
      have hlt' := List.idxOf_lt_length_of_mem hin
      refine ⟨idx.idxOf i, mem_range.2 hlt', ?_, ?_⟩
      · rw [hg _ hlt', getD_of_lt hlt', List.getElem_idxOf]
        simpa [hin] using hne
      · rw [getD_of_lt hlt', List.getElem_idxOf]
    · intro j hj _
      rw [hg j (mem_range.1 hj), if_pos (hmem j (mem_range.1 hj)), hidx j (mem_range.1 hj)]) (idx.getD k 0) (hlt _ (hmem k hk))
  rwa [if_pos (hmem k hk), hidx k hk] at this

/-! ### Standardised columns -/

/-- The scale by which `scaled` divides. -/
noncomputable def scale (x : Fin N → ℝ) : ℝ := if var x = 0 then 1 else √(var x)

theorem scale_ne (x : Fin N → ℝ) : scale x ≠ 0 := by
  unfold scale
  split_ifs with h
  · exact one_ne_zero
  · exact (Real.sqrt_ne_zero (var_nonneg x)).2 h

theorem scaled_eq (x : Fin N → ℝ) (r : Fin N) : x r = scale x * scaled x r + mean x := by
  have := scale_ne x
  have e : scaled x r = (x r - mean x) / scale x := rfl
  rw [e]
  field_simp
  ring

theorem scaled_units (x : Fin N → ℝ) {c a : ℝ} (hc : 0 < c) : scaled (fun r => c * x r + a) = scaled x := by
  funext r
  have hN : N ≠ 0 := fun h => by subst h; exact r.elim0
  have hv : var (fun r => c * x r + a) = c ^ 2 * var x := var_aff hN c a x
  have hm : mean (fun r => c * x r + a) = c * mean x + a := mean_aff hN c a x
  unfold scaled
  rw [hv, hm]
  by_cases h0 : var x = 0
  · simp only [h0, mul_zero, if_true, var_eq_zero hN h0 r]
    ring
  · rw [if_neg h0, if_neg (mul_ne_zero (pow_ne_zero 2 hc.ne') h0), Real.sqrt_mul (sq_nonneg c), Real.sqrt_sq hc.le]
    have : √(var x) ≠ 0 := (Real.sqrt_ne_zero (var_nonneg x)).2 h0
    have := hc.ne'
    field_simp
    ring

theorem mem_kept {lin : Lin N} {lars : Lars N} {cols : List (Fin N → ℝ)} {y : Fin N → ℝ} {k : Nat} :
    k ∈ kept lin lars cols y ↔ k < cols.length ∧ larsIC lin lars (weighted lin cols y) y k ≠ 0 ∧ lin cols y k ≠ 0 := by
  unfold kept weight
  rw [List.mem_filter, List.mem_range, decide_eq_true_eq, abs_pos, mul_ne_zero_iff, abs_ne_zero]

theorem kept_nodup (lin : Lin N) (lars : Lars N) (cols : List (Fin N → ℝ)) (y : Fin N → ℝ) : (kept lin lars cols y).Nodup :=
  List.nodup_range.filter _

/-! ### The first smallest element -/

theorem firstMin_mem (f : (Nat → ℝ) → ℝ) : ∀ (b : Nat → ℝ) (cs : List (Nat → ℝ)), firstMin f b cs ∈ b :: cs
  | b, [] => by simp [firstMin]
  | b, c :: cs => by
    unfold firstMin
    split_ifs
    · exact List.mem_cons_of_mem _ (firstMin_mem f c cs)
    · rcases List.mem_cons.1 (firstMin_mem f b cs) with h | h
      · rw [h]; simp
      · simp [h]

theorem firstMin_le (f : (Nat → ℝ) → ℝ) : ∀ (b : Nat → ℝ) (cs : List (Nat → ℝ)), ∀ x ∈ b :: cs, f (firstMin f b cs) ≤ f x
  | b, [] => by simp [firstMin]
  | b, c :: cs => by
    intro x hx
    unfold firstMin
    have hx : x = b ∨ x = c ∨ x ∈ cs := by simpa using hx
    split_ifs with h
    · rcases hx with rfl | rfl | hx
      · exact (firstMin_le f c cs c (by simp)).trans h.le
      · exact firstMin_le f x cs x (by simp)
      · exact firstMin_le f c cs x (by simp [hx])
    · rcases hx with rfl | rfl | hx
      · exact firstMin_le f x cs x (by simp)
      · exact (firstMin_le f b cs b (by simp)).trans (not_lt.1 h)
      · exact firstMin_le f b cs x (by simp [hx])

theorem firstMin_head (f : (Nat → ℝ) → ℝ) : ∀ (b : Nat → ℝ) (cs : List (Nat → ℝ)), (∀ x ∈ cs, f b ≤ f x) → firstMin f b cs = b
  | b, [], _ => rfl
  | b, c :: cs, h => by
    unfold firstMin
    rw [if_neg (not_lt.2 (h c (by simp)))]
    exact firstMin_head f b cs fun x hx => h x (by simp [hx])

/-! ### One predictor -/

theorem scaled_zscore {x : Fin N → ℝ} (h : var x ≠ 0) : scaled x = zscore x := by
  funext r
  rw [zscore_eq, scaled, if_neg h]

theorem rss_congr {cols : List (Fin N → ℝ)} {y : Fin N → ℝ} {w w' : Nat → ℝ} (h : ∀ k, k < cols.length → w k = w' k) :
    rss cols y w = rss cols y w' := by
  unfold rss comb
  refine sum_congr rfl fun r _ => ?_
  rw [sum_congr rfl fun k hk => by rw [h k (mem_range.1 hk)]]

theorem dof_congr {p : Nat} {w w' : Nat → ℝ} (h : ∀ k, k < p → w k = w' k) : dof p w = dof p w' := by
  unfold dof
  congr 1
  refine filter_congr fun k hk => ?_
  rw [h k (mem_range.1 hk)]

/-- Least squares of centred data has intercept 0. -/
theorem intercept_zero (hN : N ≠ 0) {cols : List (Fin N → ℝ)} {y : Fin N → ℝ} (hy : ∑ r, y r = 0) (hc : ∀ x ∈ cols, ∑ r, x r = 0)
    {b0 : ℝ} {w : Nat → ℝ} (h : SolvesRegression cols y b0 w) : b0 = 0 := by
  have h1 := h.1
  unfold unexplained at h1
  rw [sum_sub_distrib, sum_sub_distrib, hy, sum_comm] at h1
  rw [sum_eq_zero (s := range cols.length) fun k hk => by
    rw [← mul_sum, getD_of_lt (mem_range.1 hk), hc _ (List.getElem_mem _), mul_zero]] at h1
  have hN' : (N : ℝ) ≠ 0 := by exact_mod_cast hN
  simp only [sum_const, card_univ, Fintype.card_fin, nsmul_eq_mul, zero_sub, sub_zero, neg_eq_zero, mul_eq_zero] at h1
  exact h1.resolve_left hN'

/-- Least squares on one centred column. -/
theorem one_column {x y : Fin N → ℝ} {w : Nat → ℝ} (h : SolvesRegression [x] y 0 w) :
    w 0 * ∑ r, x r ^ 2 = ∑ r, x r * y r := by
  have := h.2 0 (by simp)
  unfold unexplained at this
  simp only [List.length_singleton, sum_range_one, List.getD_cons_zero, sub_zero] at this
  rw [mul_sum, ← sub_eq_zero, ← sum_sub_distrib, ← neg_eq_zero, ← sum_neg_distrib, ← this]
  exact sum_congr rfl fun r _ => by ring

/-! ### Existence -/

theorem getD_last {α : Type} (l : List α) (x d : α) : (l ++ [x]).getD l.length d = x := by simp

theorem getD_init {α : Type} (l : List α) (x d : α) {k : Nat} (hk : k < l.length) : (l ++ [x]).getD k d = l.getD k d := by
  rw [getD_of_lt (by simp; omega), getD_of_lt hk, List.getElem_append_left]

theorem exists_regression (cols : List (Fin N → ℝ)) : ∀ y : Fin N → ℝ, ∃ b0 w, SolvesRegression cols y b0 w := by
  induction cols using List.reverseRecOn with
  | nil =>
    intro y
    refine ⟨mean y, fun _ => 0, ?_, fun k hk => by simp at hk⟩
    unfold unexplained
    simp only [List.length_nil, range_zero, sum_empty, sub_zero]
    rw [sum_sub_distrib]
    simp only [sum_const, card_univ, Fintype.card_fin, nsmul_eq_mul, mean]
    by_cases hN : N = 0
    · subst hN
      simp
    · have : (N : ℝ) ≠ 0 := by exact_mod_cast hN
      field_simp
      ring
  | append_singleton cols x ih =>
    intro y
    obtain ⟨b0, w, hy⟩ := ih y
    obtain ⟨c0, v, hx⟩ := ih x
    set ry := unexplained cols y b0 w
    set rx := unexplained cols x c0 v with hrx
    set c := (∑ r, ry r * rx r) / ∑ r, rx r ^ 2 with hc
    have hres : ∀ r, unexplained (cols ++ [x]) y (b0 - c * c0) (fun k => if k < cols.length then w k - c * v k else c) r =
        ry r - c * rx r := by
      intro r
      simp only [ry, rx, unexplained, List.length_append, List.length_singleton]
      rw [sum_range_succ, if_neg (lt_irrefl _), getD_last]
      rw [sum_congr rfl fun k hk => by
        rw [if_pos (mem_range.1 hk), getD_init _ _ _ (mem_range.1 hk), sub_mul, mul_assoc]]
      rw [sum_sub_distrib, ← mul_sum]
      ring
    have h1 : ∑ r, (ry r - c * rx r) = 0 := by rw [sum_sub_distrib, ← mul_sum, hy.1, hx.1, mul_zero, sub_zero]
    have h2 : ∀ k, k < cols.length → ∑ r, (ry r - c * rx r) * cols.getD k 0 r = 0 := by
      intro k hk
      simp only [sub_mul, mul_assoc, sum_sub_distrib, ← mul_sum]
      rw [hy.2 k hk, hx.2 k hk, mul_zero, sub_zero]
    refine ⟨b0 - c * c0, fun k => if k < cols.length then w k - c * v k else c, ?_, ?_⟩
    · simp only [hres]
      exact h1
    · intro k hk
      simp only [hres]
      rw [List.length_append, List.length_singleton] at hk
      by_cases hk' : k < cols.length
      · rw [getD_init _ _ _ hk']
        exact h2 k hk'
      · have : k = cols.length := by omega
        subst this
        rw [getD_last]
        have e : ∀ r, (ry r - c * rx r) * x r = (ry r - c * rx r) * rx r +
            (ry r - c * rx r) * (c0 + ∑ k ∈ range cols.length, v k * cols.getD k 0 r) := by
          intro r
          rw [← mul_add, hrx]
          unfold unexplained
          ring
        simp only [e]
        rw [sum_add_distrib, sum_unexplained_mul cols h1 h2, add_zero]
        simp only [sub_mul, mul_assoc, sum_sub_distrib, ← mul_sum]
        have e2 : ∑ r, rx r * rx r = ∑ r, rx r ^ 2 := sum_congr rfl fun r _ => (sq _).symm
        rw [e2, hc]
        by_cases hD : ∑ r, rx r ^ 2 = 0
        · have hz : ∀ r, rx r = 0 := fun r =>
            pow_eq_zero_iff two_ne_zero |>.1 ((sum_eq_zero_iff_of_nonneg fun r _ => sq_nonneg _).1 hD r (mem_univ r))
          simp [hz]
        · field_simp
          ring

/-- A least squares routine and a path with the properties that are assumed. -/
theorem exists_oracles (N : Nat) : ∃ (lin : Lin N) (lars : Lars N), RightRegression lin ∧ RightPath lars := by
  classical
  choose b w h using fun (cols : List (Fin N → ℝ)) (y : Fin N → ℝ) => exists_regression cols y
  have key : ∀ cols y, (∀ x ∈ cols, ∑ r, x r = 0) → ∑ r, y r = 0 → SolvesRegression cols y 0 (w cols y) := by
    intro cols y hc hy
    by_cases hN : N = 0
    · subst hN
      exact ⟨by simp, fun k _ => by simp⟩
    · have := h cols y
      rwa [intercept_zero hN hy hc this] at this
  exact ⟨w, fun cols y => [fun _ => 0, w cols y], fun cols y => ⟨b cols y, h cols y⟩, fun cols y => ⟨_, _, rfl, fun _ _ => rfl⟩,
    fun cols y hc hy => ⟨_, by simp, key cols y hc hy⟩, fun x y hx hy v hv => by
      simp only [List.mem_cons, List.not_mem_nil, or_false] at hv
      rcases hv with rfl | rfl
      · exact Or.inl rfl
      · exact Or.inr (key [x] y (by simpa using hx) hy)⟩

/-! ### The weighted columns -/

theorem sum_scaled (x : Fin N → ℝ) : ∑ r, scaled x r = 0 := by
  unfold scaled
  rw [← sum_div, sum_sub_distrib]
  by_cases hN : N = 0
  · subst hN
    simp
  · have : (N : ℝ) ≠ 0 := by exact_mod_cast hN
    simp only [sum_const, card_univ, Fintype.card_fin, nsmul_eq_mul, mean]
    field_simp
    simp

theorem weighted_length (lin : Lin N) (cols : List (Fin N → ℝ)) (y : Fin N → ℝ) : (weighted lin cols y).length = cols.length := by
  simp [weighted]

theorem weighted_get (lin : Lin N) (cols : List (Fin N → ℝ)) (y : Fin N → ℝ) {k : Nat} (hk : k < cols.length) (r : Fin N) :
    (weighted lin cols y).getD k 0 r = cols.getD k 0 r * weight lin cols y k := by
  unfold weighted
  have : (List.range cols.length).getD k 0 = k := by rw [getD_of_lt (by simpa using hk), List.getElem_range]
  rw [list_getD_map _ _ (by simpa using hk) 0 0, this]

theorem weighted_centred {lin : Lin N} {cols : List (Fin N → ℝ)} {y : Fin N → ℝ} (hc : ∀ x ∈ cols, ∑ r, x r = 0) :
    ∀ x ∈ weighted lin cols y, ∑ r, x r = 0 := by
  intro x hx
  obtain ⟨k, hk, rfl⟩ := List.mem_map.1 hx
  have hk := List.mem_range.1 hk
  beta_reduce
  rw [← sum_mul, getD_of_lt hk, hc _ (List.getElem_mem _), zero_mul]

theorem rss_unexplained (cols : List (Fin N → ℝ)) (y : Fin N → ℝ) (w : Nat → ℝ) : rss cols y w = ∑ r, unexplained cols y 0 w r ^ 2 := by
  unfold rss unexplained comb
  simp

/-- The full regression on the weighted columns leaves the same unexplained as that on the columns. -/
theorem rss_weighted (hN : N ≠ 0) {lin : Lin N} (hlin : RightRegression lin) {cols : List (Fin N → ℝ)} {y : Fin N → ℝ}
    (hc : ∀ x ∈ cols, ∑ r, x r = 0) (hy : ∑ r, y r = 0) {b0 : ℝ} {w v : Nat → ℝ} (hw : SolvesRegression cols y b0 w)
    (hv : SolvesRegression (weighted lin cols y) y 0 v) :
    rss (weighted lin cols y) y v = ∑ r, unexplained cols y b0 w r ^ 2 := by
  obtain ⟨b1, h1⟩ := hlin cols y
  have hb1 := intercept_zero hN hy hc h1
  subst hb1
  have e : unexplained (weighted lin cols y) y 0 (fun k => SignType.sign (lin cols y k)) = unexplained cols y 0 (lin cols y) := by
    funext r
    unfold unexplained
    rw [weighted_length]
    congr 1
    refine sum_congr rfl fun k hk => ?_
    rw [weighted_get _ _ _ (mem_range.1 hk), weight]
    have := sign_mul_abs (lin cols y k)
    linear_combination (cols.getD k 0 r) * this
  have hsol : SolvesRegression (weighted lin cols y) y 0 (fun k => SignType.sign (lin cols y k)) := by
    unfold SolvesRegression
    rw [e, weighted_length]
    refine ⟨h1.1, fun k hk => ?_⟩
    simp only [weighted_get _ _ _ hk, ← mul_assoc]
    rw [← sum_mul, h1.2 k hk, zero_mul]
  rw [rss_unexplained, unexplained_unique hv hsol, e, unexplained_unique h1 hw]

end Verif.Pairwise
