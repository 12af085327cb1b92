import Verif.Model.Mlhsicr
import Verif.Props.Hsic

/-!
# The regression that minimises HSIC (C187–C189)
-/
set_option linter.unusedSectionVars false
set_option autoImplicit false
namespace Verif.Mlhsicr
open Finset Hsic

variable {n q : Nat}

theorem rbf_sq {d : Nat} (X : Dat n d) {w w' : ℝ} (h : w ^ 2 = w' ^ 2) : rbf X w = rbf X w' := by
  unfold rbf; rw [h]

theorem col_affine (a b : ℝ) (v : Fin n → ℝ) : col (fun i => a * v i + b) = fun i k => a * col v i k + (fun _ => b) k := rfl

theorem width_affine (a b : ℝ) (ha : a ≠ 0) (v : Fin n → ℝ) :
    kernelWidth (col (fun i => a * v i + b)) = (kernelWidth (col v)).map (fun w => |a| * w) := by
  rw [col_affine, kernelWidth_affine _ a ha]

theorem objective_some {y : Fin n → ℝ} {Z : Fin q → Fin n → ℝ} {wy : ℝ} {wz : Fin q → ℝ}
    (hy : kernelWidth (col y) = some wy) (hz : ∀ j, kernelWidth (col (Z j)) = some (wz j)) (c : Fin q → ℝ) :
    objective y Z c = sumHsic y Z wy wz c := by
  unfold objective
  rw [hy]
  simp only
  rw [if_pos (fun j => by rw [hz j]; rfl)]
  congr 1
  funext j
  rw [hz j]; rfl

theorem objective_none {y : Fin n → ℝ} {Z : Fin q → Fin n → ℝ}
    (h : kernelWidth (col y) = none ∨ ∃ j, kernelWidth (col (Z j)) = none) (c : Fin q → ℝ) : objective y Z c = none := by
  unfold objective
  rcases h with h | ⟨j, h⟩
  · rw [h]
  · cases kernelWidth (col y) with
    | none => rfl
    | some wy =>
      simp only
      rw [if_neg]
      intro hall
      have := hall j
      rw [h] at this
      cases this

/-- Either all widths exist or the objective is NaN everywhere. -/
theorem widths_cases (y : Fin n → ℝ) (Z : Fin q → Fin n → ℝ) :
    (∃ (wy : ℝ) (wz : Fin q → ℝ), kernelWidth (col y) = some wy ∧ ∀ j, kernelWidth (col (Z j)) = some (wz j)) ∨
      (kernelWidth (col y) = none ∨ ∃ j, kernelWidth (col (Z j)) = none) := by
  by_cases h : kernelWidth (col y) = none ∨ ∃ j, kernelWidth (col (Z j)) = none
  · exact Or.inr h
  · push Not at h
    obtain ⟨wy, hy⟩ := Option.ne_none_iff_exists'.1 h.1
    choose wz hz using fun j => Option.ne_none_iff_exists'.1 (h.2 j)
    exact Or.inl ⟨wy, wz, hy, hz⟩

theorem pos_rows {v : Fin n → ℝ} {w : ℝ} (h : kernelWidth (col v) = some w) : 0 < n := by
  obtain ⟨i, _, _⟩ := exists_ne_of_width h
  exact i.pos

/-- C187: the value at given coefficients is `n` times the sum of the HSIC estimates between the residual and each
regressor, with Gaussian kernels whose widths for the regressors come from medians of distances; it is never negative. The
width used for the residual is not such a median but the difference `wy - Σ c_j w_j`. -/
theorem C187_objective_is_hsic {y : Fin n → ℝ} {Z : Fin q → Fin n → ℝ} {c : Fin q → ℝ} {v : ℝ}
    (h : objective y Z c = some v) :
    0 ≤ v ∧ ∃ (wy : ℝ) (wz : Fin q → ℝ), 0 < wy ∧ (∀ j, 0 < wz j) ∧
      Spec.IsMedian (Spec.distances 100 (fun i (_ : Fin 1) => y i)) (2 * wy ^ 2) ∧
      (∀ j, Spec.IsMedian (Spec.distances 100 (fun i (_ : Fin 1) => Z j i)) (2 * wz j ^ 2)) ∧
      wy - ∑ j, c j * wz j ≠ 0 ∧
      v = ∑ j, n * Spec.criterion (Spec.gauss (wy - ∑ j, c j * wz j)) (Spec.gauss (wz j))
        (fun i (_ : Fin 1) => y i - ∑ j, c j * Z j i) (fun i (_ : Fin 1) => Z j i) := by
  rcases widths_cases y Z with ⟨wy, wz, hy, hz⟩ | hn
  · rw [objective_some hy hz] at h
    unfold sumHsic at h
    split at h
    · cases h
    · rename_i hw
      simp only [Option.some.injEq] at h
      subst h
      refine ⟨sum_nonneg fun j _ => testStat_nonneg (psd_centred (psd_rbf _ _)) (psd_centred (psd_rbf _ _)), wy, wz,
        kernelWidth_pos hy, fun j => kernelWidth_pos (hz j), (width_median hy).2, fun j => (width_median (hz j)).2, hw, ?_⟩
      refine sum_congr rfl fun j _ => ?_
      exact testStat_eq (pos_rows hy) _ _ _ _
  · rw [objective_none hn] at h; cases h

/-- C187 (partial): units of measurement do not matter as long as no variable changes its direction relative to `y`: the
coefficients change with the units and the value stays. Missing: a regressor recorded with the opposite sign, where it
fails. -/
theorem C187_units_partial (y : Fin n → ℝ) (Z : Fin q → Fin n → ℝ) (c : Fin q → ℝ) {a b : ℝ} {s t : Fin q → ℝ}
    (ha : a ≠ 0) (hs : ∀ j, 0 < a * s j) :
    objective (fun i => a * y i + b) (fun j i => s j * Z j i + t j) (fun j => a * c j / s j) = objective y Z c := by
  have hs0 : ∀ j, s j ≠ 0 := fun j h => by have := hs j; rw [h, mul_zero] at this; exact lt_irrefl _ this
  rcases widths_cases y Z with ⟨wy, wz, hy, hz⟩ | hn
  · have hy' : kernelWidth (col (fun i => a * y i + b)) = some (|a| * wy) := by rw [width_affine a b ha, hy]; rfl
    have hz' : ∀ j, kernelWidth (col (fun i => s j * Z j i + t j)) = some (|s j| * wz j) := by
      intro j; rw [width_affine (s j) (t j) (hs0 j), hz j]; rfl
    rw [objective_some hy' hz', objective_some hy hz]
    have hwid : width (|a| * wy) (fun j => |s j| * wz j) (fun j => a * c j / s j) = |a| * width wy wz c := by
      unfold width
      rw [mul_sub, mul_sum]
      congr 1
      refine sum_congr rfl fun j _ => ?_
      have h1 : a / s j * |s j| = |a| := by
        have hpos : 0 < a / s j := by
          rw [show a / s j = a * s j / (s j) ^ 2 by field_simp]
          exact div_pos (hs j) (sq_pos_of_ne_zero (hs0 j))
        rw [← abs_of_pos hpos, ← abs_mul, div_mul_cancel₀ _ (hs0 j)]
      rw [show a * c j / s j * (|s j| * wz j) = (a / s j * |s j|) * (c j * wz j) by ring, h1]
    have hres : resid (fun i => a * y i + b) (fun j i => s j * Z j i + t j) (fun j => a * c j / s j) =
        fun i => a * resid y Z c i + (b - ∑ j, a * c j / s j * t j) := by
      funext i
      unfold resid
      have : ∑ j, a * c j / s j * (s j * Z j i + t j) = a * ∑ j, c j * Z j i + ∑ j, a * c j / s j * t j := by
        rw [mul_sum, ← sum_add_distrib]
        refine sum_congr rfl fun j _ => ?_
        have := hs0 j
        field_simp
      rw [this]; ring
    unfold sumHsic
    rw [hwid, hres]
    have ha' : |a| ≠ 0 := abs_ne_zero.2 ha
    simp only [mul_eq_zero, ha', false_or]
    split
    · rfl
    · congr 1
      refine sum_congr rfl fun j _ => ?_
      rw [col_affine, col_affine, rbf_affine _ a ha, rbf_affine _ (s j) (hs0 j)]
  · rw [objective_none hn, objective_none]
    rcases hn with h | ⟨j, h⟩
    · left; rw [width_affine a b ha, h]; rfl
    · right; exact ⟨j, by rw [width_affine _ _ (hs0 j), h]; rfl⟩

/-- C187: a change of units with a negative factor for all variables. -/
example (c : Fin 2 → ℝ) : objective (n := 6) (fun i => -2 * (i.val : ℝ) + 1) (fun j i => -3 * ((i.val : ℝ) ^ (j.val + 2)) + 5)
      (fun j => -2 * c j / -3) = objective (n := 6) (fun i => (i.val : ℝ)) (fun j i => (i.val : ℝ) ^ (j.val + 2)) c :=
  C187_units_partial (fun i => (i.val : ℝ)) (fun j i => (i.val : ℝ) ^ (j.val + 2)) c (s := fun _ => -3) (t := fun _ => 5)
    (by norm_num) (fun _ => by norm_num)

/-! ### One common factor -/

/-- The kernel of the residual for data that are multiples of one variable. -/
theorem rbf_multiple (u : Fin n → ℝ) {S : ℝ} (hS : S ≠ 0) (w : ℝ) :
    rbf (col (fun i => S * u i)) (S * w) = rbf (col u) w := by
  have h := rbf_affine (col u) S hS (fun _ => 0) w
  have e : col (fun i => S * u i) = fun i k => S * col u i k + (fun _ => (0 : ℝ)) k := by
    funext i k; simp [col]
  rw [e, ← h]
  exact rbf_sq _ (by rw [mul_pow, mul_pow, sq_abs])

theorem width_multiple {u : Fin n → ℝ} {w : ℝ} (hu : kernelWidth (col u) = some w) {S : ℝ} (hS : S ≠ 0) :
    kernelWidth (col (fun i => S * u i)) = some (|S| * w) := by
  have := width_affine S 0 hS u
  simp only [add_zero] at this
  rw [this, hu]; rfl

theorem testStat_self_pos {d : Nat} (X : Dat n d) {w : ℝ} (hw : w ≠ 0) (h : ∃ i j, X i ≠ X j) :
    0 < testStat (centred (rbf X w)) (centred (rbf X w)) := by
  obtain ⟨a, b, hab⟩ := h
  have hn : (0 : ℝ) < n := by exact_mod_cast a.pos
  have hsym := (psd_centred (psd_rbf X w)).1
  unfold testStat
  refine mul_pos (by positivity) ?_
  have hsq : ∑ i, ∑ j, centred (rbf X w) j i * centred (rbf X w) i j = ∑ i, ∑ j, centred (rbf X w) i j ^ 2 := by
    refine sum_congr rfl fun i _ => sum_congr rfl fun j _ => ?_
    rw [hsym j i]; ring
  rw [hsq]
  by_contra hle
  push Not at hle
  have hz : ∀ i j, centred (rbf X w) i j = 0 := by
    have h0 : ∑ i, ∑ j, centred (rbf X w) i j ^ 2 = 0 :=
      le_antisymm hle (sum_nonneg fun i _ => sum_nonneg fun j _ => sq_nonneg _)
    intro i j
    have h1 := (sum_eq_zero_iff_of_nonneg (fun i _ => sum_nonneg fun j _ => sq_nonneg _)).1 h0 i (mem_univ i)
    have h2 := (sum_eq_zero_iff_of_nonneg (fun j _ => sq_nonneg _)).1 h1 j (mem_univ j)
    exact pow_eq_zero_iff two_ne_zero |>.1 h2
  have key : centred (rbf X w) a a + centred (rbf X w) b b - centred (rbf X w) a b - centred (rbf X w) b a =
      rbf X w a a + rbf X w b b - rbf X w a b - rbf X w b a := by
    unfold centred; ring
  rw [hz, hz, hz, hz, (psd_rbf X w).1 b a] at key
  have haa : ∀ i, rbf X w i i = 1 := by intro i; unfold rbf; rw [dist_self]; simp
  rw [haa, haa] at key
  have hlt : rbf X w a b < 1 := by
    unfold rbf
    rw [Real.exp_lt_one_iff]
    have hd : 0 < dist X a b := lt_of_le_of_ne (dist_nonneg X a b) (fun h => hab ((dist_eq_zero X a b).1 h.symm))
    exact div_neg_of_neg_of_pos (by linarith) (by positivity)
  linarith

theorem testStat_const (L : Fin n → Fin n → ℝ) (v : Fin n → ℝ) (hv : ∀ i, v i = 0) (w : ℝ) :
    testStat (centred (rbf (col v) w)) L = 0 := by
  have hc : ∀ i j, centred (rbf (col v) w) i j = 0 := by
    intro i j
    have hn : (n : ℝ) ≠ 0 := by exact_mod_cast i.pos.ne'
    have hr : ∀ a b, rbf (col v) w a b = 1 := by
      intro a b
      unfold rbf
      rw [(dist_eq_zero (col v) a b).2 (by funext k; simp [col, hv])]
      simp
    unfold centred
    simp only [hr, sum_const, card_univ, Fintype.card_fin, nsmul_eq_mul, mul_one]
    field_simp
    ring
  unfold testStat
  simp [hc]

/-- C187 (violated): let `y` and all regressors be positive multiples of one variable. The value is then one and the same
positive number at all coefficients (or NaN), although with suitable coefficients nothing is left of `y`. When one
regressor is recorded with the opposite sign, there are coefficients with the value 0. -/
theorem C187_sign_matters {u : Fin n → ℝ} (hu : ∃ i j : Fin n, i.val < 100 ∧ j.val < 100 ∧ u i ≠ u j) (hq : 0 < q)
    {D : ℝ} {d : Fin q → ℝ} (hD : 0 < D) (hd : ∀ j, 0 < d j) :
    ∃ v, 0 < v ∧
      (∀ c, objective (fun i => D * u i) (fun j i => d j * u i) c = if ∑ j, c j * d j = D then none else some v) ∧
      ∃ c, objective (fun i => D * u i) (fun j i => (if j.val = 0 then -d j else d j) * u i) c = some 0 := by
  obtain ⟨w, hw⟩ : ∃ w, kernelWidth (col u) = some w := by
    rw [← Option.ne_none_iff_exists']
    intro h
    rw [kernelWidth_eq_none] at h
    obtain ⟨i, j, hi, hj, hne⟩ := hu
    exact hne (congrFun (h i j hi hj) 0)
  have hwp := kernelWidth_pos hw
  have hK := testStat_self_pos (col u) hwp.ne' (exists_ne_of_width hw)
  refine ⟨q * testStat (centred (rbf (col u) w)) (centred (rbf (col u) w)),
    mul_pos (by exact_mod_cast hq) hK, ?_, ?_⟩
  · intro c
    have hy := width_multiple hw hD.ne'
    have hz : ∀ j, kernelWidth (col (fun i => d j * u i)) = some (|d j| * w) := fun j => width_multiple hw (hd j).ne'
    rw [objective_some hy hz]
    have hwid : width (|D| * w) (fun j => |d j| * w) c = (D - ∑ j, c j * d j) * w := by
      unfold width
      rw [abs_of_pos hD, sub_mul, sum_mul]
      congr 1
      refine sum_congr rfl fun j _ => ?_
      beta_reduce
      rw [abs_of_pos (hd j)]; ring
    have hres : resid (fun i => D * u i) (fun j i => d j * u i) c = fun i => (D - ∑ j, c j * d j) * u i := by
      funext i
      unfold resid
      rw [sub_mul, sum_mul]
      congr 1
      exact sum_congr rfl fun j _ => by ring
    unfold sumHsic
    rw [hwid, hres]
    by_cases h : ∑ j, c j * d j = D
    · rw [if_pos (by rw [h, sub_self, zero_mul]), if_pos h]
    · have hS : D - ∑ j, c j * d j ≠ 0 := sub_ne_zero.2 (Ne.symm h)
      rw [if_neg (mul_ne_zero hS hwp.ne'), if_neg h]
      congr 1
      rw [rbf_multiple u hS]
      have : ∀ j, rbf (col (fun i => d j * u i)) (|d j| * w) = rbf (col u) w := by
        intro j
        rw [abs_of_pos (hd j), rbf_multiple u (hd j).ne']
      simp only [this, sum_const, card_univ, Fintype.card_fin, nsmul_eq_mul]
  · let j0 : Fin q := ⟨0, hq⟩
    have hj0 : ∀ j : Fin q, j.val = 0 ↔ j = j0 := fun j => ⟨fun h => Fin.ext h, fun h => by rw [h]⟩
    refine ⟨fun j => if j.val = 0 then -(D / d j) else 0, ?_⟩
    have hy := width_multiple hw hD.ne'
    have hs : ∀ j : Fin q, (if j.val = 0 then -d j else d j) ≠ 0 := by
      intro j
      split
      · exact neg_ne_zero.2 (hd j).ne'
      · exact (hd j).ne'
    have hz : ∀ j : Fin q, kernelWidth (col (fun i => (if j.val = 0 then -d j else d j) * u i)) = some (d j * w) := by
      intro j
      rw [width_multiple hw (hs j)]
      congr 2
      split
      · rw [abs_neg, abs_of_pos (hd j)]
      · rw [abs_of_pos (hd j)]
    rw [objective_some hy hz]
    have hwid : width (|D| * w) (fun j => d j * w) (fun j : Fin q => if j.val = 0 then -(D / d j) else 0) = 2 * D * w := by
      unfold width
      have : ∑ j : Fin q, (if j.val = 0 then -(D / d j) else 0) * (d j * w) = -(D * w) := by
        rw [sum_eq_single j0]
        · have := (hd j0).ne'
          rw [if_pos rfl]
          field_simp
        · intro j _ hj
          rw [if_neg (fun h => hj ((hj0 j).1 h)), zero_mul]
        · intro h; exact absurd (mem_univ _) h
      rw [this, abs_of_pos hD]; ring
    have hres : ∀ i, resid (fun i => D * u i) (fun (j : Fin q) i => (if j.val = 0 then -d j else d j) * u i)
        (fun j => if j.val = 0 then -(D / d j) else 0) i = 0 := by
      intro i
      unfold resid
      have : ∑ j : Fin q, (if j.val = 0 then -(D / d j) else 0) * ((if j.val = 0 then -d j else d j) * u i) = D * u i := by
        rw [sum_eq_single j0]
        · have := (hd j0).ne'
          rw [if_pos rfl, if_pos rfl]
          field_simp
        · intro j _ hj
          rw [if_neg (fun h => hj ((hj0 j).1 h)), zero_mul]
        · intro h; exact absurd (mem_univ _) h
      rw [this, sub_self]
    unfold sumHsic
    rw [hwid, if_neg (by positivity)]
    congr 1
    exact sum_eq_zero fun j _ => testStat_const _ _ hres _

/-- `c` minimises `f` among the arguments at which `f` is a number. -/
def IsMin (f : (Fin q → ℝ) → Option ℝ) (c : Fin q → ℝ) : Prop := ∃ v, f c = some v ∧ ∀ c' v', f c' = some v' → v ≤ v'

/-- C187 (violated): even with an optimiser that always finds a minimum the residual that is returned differs: with one
orientation of the first regressor its dependence on the regressors is 0, with the other it is positive. -/
theorem C187_fit_depends_on_sign {u : Fin n → ℝ} (hu : ∃ i j : Fin n, i.val < 100 ∧ j.val < 100 ∧ u i ≠ u j) (hq : 0 < q)
    {D : ℝ} {d : Fin q → ℝ} (hD : 0 < D) (hd : ∀ j, 0 < d j)
    (opt : ((Fin q → ℝ) → Option ℝ) → (Fin q → ℝ) → (Fin q → ℝ)) (hopt : ∀ f x, (∃ c, IsMin f c) → IsMin f (opt f x))
    (ols ols' : Fin q → ℝ) :
    (∃ v, 0 < v ∧ objective (fun i => D * u i) (fun j i => d j * u i)
      (fitResid opt ols (fun i => D * u i) (fun j i => d j * u i)).2 = some v) ∧
    objective (fun i => D * u i) (fun j i => (if j.val = 0 then -d j else d j) * u i)
      (fitResid opt ols' (fun i => D * u i) (fun j i => (if j.val = 0 then -d j else d j) * u i)).2 = some 0 := by
  obtain ⟨v, hv, hflat, c0, h0⟩ := C187_sign_matters hu hq hD hd
  constructor
  · have hex : ∃ c, IsMin (objective (fun i => D * u i) (fun j i => d j * u i)) c := by
      refine ⟨fun _ => 0, v, ?_, ?_⟩
      · rw [hflat, if_neg]
        simp only [zero_mul, sum_const_zero]
        exact hD.ne
      · intro c' v' h
        rw [hflat] at h
        split at h
        · cases h
        · exact (Option.some.inj h).le
    obtain ⟨v', h1, _⟩ := hopt _ ols hex
    refine ⟨v, hv, ?_⟩
    show objective _ _ (opt _ _) = _
    rw [h1]
    rw [hflat] at h1
    split at h1
    · cases h1
    · exact h1.symm
  · have hmin : IsMin (objective (fun i => D * u i) (fun j i => (if j.val = 0 then -d j else d j) * u i)) c0 :=
      ⟨0, h0, fun c' v' h => (C187_objective_is_hsic h).1⟩
    obtain ⟨v', h1, h2⟩ := hopt _ ols' ⟨c0, hmin⟩
    show objective _ _ (opt _ _) = _
    rw [h1]
    exact congrArg some (le_antisymm (h2 c0 0 h0) (C187_objective_is_hsic h1).1)

/-- C187: the hypotheses hold for five observations of a variable and two multiples of it. -/
example : ∃ u : Fin 5 → ℝ, (∃ i j : Fin 5, i.val < 100 ∧ j.val < 100 ∧ u i ≠ u j) ∧ (∀ j : Fin 2, (0 : ℝ) < (j.val : ℝ) + 1) :=
  ⟨fun i => (i.val : ℝ), ⟨0, 1, by norm_num, by norm_num, by norm_num⟩, fun j => by positivity⟩

/-! ### The statistic of the test -/

/-- C188 (partial): where the width used for the residual is, up to sign, the one the test would use, the value is the sum
of the statistics the HSIC test reports for the residual and each regressor. Missing: all other coefficients, where it can
differ. -/
theorem C188_sum_of_statistics_partial (hn : 3 < n) (sf : ℝ → ℝ → ℝ → ℝ) {y : Fin n → ℝ} {Z : Fin q → Fin n → ℝ}
    {c : Fin q → ℝ} {wy : ℝ} {wz : Fin q → ℝ} (hy : kernelWidth (col y) = some wy)
    (hz : ∀ j, kernelWidth (col (Z j)) = some (wz j)) (hw : kernelWidth (col (resid y Z c)) = some |wy - ∑ j, c j * wz j|) :
    ∃ s : Fin q → ℝ, (∀ j, ∃ p, test sf (col (resid y Z c)) (col (Z j)) = .ok (some (s j), p)) ∧
      objective y Z c = some (∑ j, s j) := by
  refine ⟨fun j => testStat (centred (rbf (col (resid y Z c)) |wy - ∑ j, c j * wz j|)) (centred (rbf (col (Z j)) (wz j))),
    ?_, ?_⟩
  · intro j
    unfold test testWith
    rw [if_neg (by omega), hw, hz j]
    exact ⟨_, rfl⟩
  · rw [objective_some hy hz]
    unfold sumHsic
    rw [if_neg]
    · congr 1
      refine sum_congr rfl fun j _ => ?_
      rw [rbf_sq (col (resid y Z c)) (w := width wy wz c) (w' := |wy - ∑ j, c j * wz j|)]
      rw [sq_abs]; rfl
    · have := kernelWidth_pos hw
      exact abs_pos.1 this

/-- C188: at coefficients 0 the hypotheses hold. -/
example (y : Fin n → ℝ) (Z : Fin q → Fin n → ℝ) (wy : ℝ) (wz : Fin q → ℝ) (hy : kernelWidth (col y) = some wy) :
    kernelWidth (col (resid y Z (fun _ => 0))) = some |wy - ∑ j, (0 : ℝ) * wz j| := by
  have : resid y Z (fun _ => 0) = y := by funext i; simp [resid]
  rw [this, hy]
  simp [abs_of_pos (kernelWidth_pos hy)]

/-- Kernel of data with the two values 0 and `S`. -/
theorem rbf_two (A : Fin n → Prop) [DecidablePred A] (S w : ℝ) :
    rbf (col (fun i => S * (if A i then 1 else 0))) w =
      fun i j => Real.exp (-S ^ 2 / 2 / w ^ 2) + (1 - Real.exp (-S ^ 2 / 2 / w ^ 2)) * (if A i ↔ A j then 1 else 0) := by
  funext i j
  unfold rbf
  rw [dist_eq]
  simp only [col, Fin.sum_univ_one]
  by_cases hi : A i <;> by_cases hj : A j <;> simp [hi, hj]

theorem centred_two (E : Fin n → Fin n → ℝ) (a b : ℝ) (i j : Fin n) :
    centred (fun i j => a + b * E i j) i j = b * centred E i j := by
  have hn : (n : ℝ) ≠ 0 := by exact_mod_cast i.pos.ne'
  unfold centred
  simp only [sum_add_distrib, sum_const, card_univ, Fintype.card_fin, nsmul_eq_mul, ← mul_sum]
  field_simp
  ring

theorem testStat_two (E F : Fin n → Fin n → ℝ) (a b a' b' : ℝ) :
    testStat (centred (fun i j => a + b * E i j)) (centred (fun i j => a' + b' * F i j)) =
      b * b' * testStat (centred E) (centred F) := by
  have h : ∑ i, ∑ j, centred (fun i j => a + b * E i j) j i * centred (fun i j => a' + b' * F i j) i j =
      b * b' * ∑ i, ∑ j, centred E j i * centred F i j := by
    rw [mul_sum]
    refine sum_congr rfl fun i _ => ?_
    rw [mul_sum]
    refine sum_congr rfl fun j _ => ?_
    rw [centred_two, centred_two]; ring
  unfold testStat
  rw [h]; ring

/-- C188 (violated): for every number of observations above 3 and of regressors there are data and coefficients for which
the value is not the sum of the statistics of the test. -/
theorem C188_not_the_test (hn : 3 < n) (hq : 0 < q) (sf : ℝ → ℝ → ℝ → ℝ) :
    ∃ (y : Fin n → ℝ) (Z : Fin q → Fin n → ℝ) (c : Fin q → ℝ) (v : ℝ) (s : Fin q → ℝ),
      objective y Z c = some v ∧ (∀ j, ∃ p, test sf (col (resid y Z c)) (col (Z j)) = .ok (some (s j), p)) ∧
      v ≠ ∑ j, s j := by
  let A : Fin n → Prop := fun i => i.val = 0
  let u : Fin n → ℝ := fun i => if A i then 1 else 0
  let sg : Fin q → ℝ := fun j => if j.val = 0 then -1 else 1
  let j0 : Fin q := ⟨0, hq⟩
  have hj0 : ∀ j : Fin q, j.val = 0 ↔ j = j0 := fun j => ⟨fun h => Fin.ext h, fun h => by rw [h]⟩
  obtain ⟨w, hw⟩ : ∃ w, kernelWidth (col u) = some w := by
    rw [← Option.ne_none_iff_exists']
    intro h
    rw [kernelWidth_eq_none] at h
    have := congrFun (h ⟨0, by omega⟩ ⟨1, by omega⟩ (by norm_num) (by norm_num)) 0
    simp [col, u, A] at this
  have hwp := kernelWidth_pos hw
  have hsg : ∀ j, sg j ≠ 0 ∧ |sg j| = 1 := by
    intro j; simp only [sg]; split <;> simp
  have hz : ∀ j, kernelWidth (col (fun i => sg j * u i)) = some w := by
    intro j; rw [width_multiple hw (hsg j).1, (hsg j).2, one_mul]
  have hrZ : ∀ j, rbf (col (fun i => sg j * u i)) w = rbf (col u) w := by
    intro j
    have h := rbf_multiple u (hsg j).1 w
    rw [← h]
    refine rbf_sq _ ?_
    rw [mul_pow, ← sq_abs (sg j), (hsg j).2]; ring
  let c : Fin q → ℝ := fun j => if j.val = 0 then -1 / 2 else 0
  have hres : resid u (fun j i => sg j * u i) c = fun i => (1 / 2 : ℝ) * u i := by
    funext i
    unfold resid
    rw [sum_eq_single j0]
    · simp only [c, sg]
      rw [if_pos rfl, if_pos rfl]; ring
    · intro j _ hj
      simp only [c]
      rw [if_neg (fun h => hj ((hj0 j).1 h)), zero_mul]
    · intro h; exact absurd (mem_univ _) h
  have hwid : width w (fun _ : Fin q => w) c = 3 / 2 * w := by
    unfold width
    rw [sum_eq_single j0]
    · simp only [c]
      rw [if_pos rfl]; ring
    · intro j _ hj
      simp only [c]
      rw [if_neg (fun h => hj ((hj0 j).1 h)), zero_mul]
    · intro h; exact absurd (mem_univ _) h
  have hwr : kernelWidth (col (fun i => (1 / 2 : ℝ) * u i)) = some (1 / 2 * w) := by
    rw [width_multiple hw (by norm_num), abs_of_pos (by norm_num)]
  refine ⟨u, fun j i => sg j * u i, c, ∑ j : Fin q, testStat (centred (rbf (col (fun i => (1 / 2 : ℝ) * u i)) (3 / 2 * w)))
    (centred (rbf (col u) w)), fun _ => testStat (centred (rbf (col (fun i => (1 / 2 : ℝ) * u i)) (1 / 2 * w)))
    (centred (rbf (col u) w)), ?_, ?_, ?_⟩
  · rw [objective_some hw hz]
    unfold sumHsic
    rw [hwid, if_neg (by positivity), hres]
    simp only [hrZ]
  · intro j
    rw [hres]
    unfold test testWith
    rw [if_neg (by omega), hwr, hz j]
    simp only [hrZ]
    exact ⟨_, rfl⟩
  · rw [sum_const, sum_const]
    intro h
    simp only [card_univ, Fintype.card_fin, nsmul_eq_mul] at h
    have hq' : (q : ℝ) ≠ 0 := by exact_mod_cast hq.ne'
    have h := mul_left_cancel₀ hq' h
    have hu1 : rbf (col u) w = rbf (col (fun i => (1 : ℝ) * (if A i then 1 else 0))) w := by
      congr 1
      funext i k
      simp [col, u]
    simp only [u] at h hu1
    rw [hu1, rbf_two A 1 w, rbf_two A (1 / 2) (3 / 2 * w), rbf_two A (1 / 2) (1 / 2 * w), testStat_two, testStat_two] at h
    set T := testStat (centred (fun i j : Fin n => if A i ↔ A j then (1 : ℝ) else 0))
      (centred (fun i j : Fin n => if A i ↔ A j then (1 : ℝ) else 0)) with hT
    have hself := testStat_self_pos (col u) hwp.ne' (exists_ne_of_width hw)
    simp only [u] at hself
    rw [hu1, rbf_two, testStat_two, ← hT] at hself
    have hprod : (1 - Real.exp (-1 ^ 2 / 2 / w ^ 2)) * T ≠ 0 := by
      intro h0
      rw [mul_assoc, h0, mul_zero] at hself
      exact lt_irrefl _ hself
    have h' : (1 - Real.exp (-(1 / 2) ^ 2 / 2 / (3 / 2 * w) ^ 2)) * ((1 - Real.exp (-1 ^ 2 / 2 / w ^ 2)) * T) =
        (1 - Real.exp (-(1 / 2) ^ 2 / 2 / (1 / 2 * w) ^ 2)) * ((1 - Real.exp (-1 ^ 2 / 2 / w ^ 2)) * T) := by
      rw [← mul_assoc, ← mul_assoc]; exact h
    have h'' := mul_right_cancel₀ hprod h'
    have h3 : Real.exp (-(1 / 2) ^ 2 / 2 / (3 / 2 * w) ^ 2) = Real.exp (-(1 / 2) ^ 2 / 2 / (1 / 2 * w) ^ 2) := by linarith
    have h4 := Real.exp_injective h3
    have hw2 : w ^ 2 ≠ 0 := by positivity
    field_simp at h4
    norm_num at h4

/-! ### NaN -/

/-- C189 (partial): the value is NaN exactly if one of the variables is constant over the first 100 observations or the
width of the residual is 0. Missing: a number for all coefficients, which fails. -/
theorem C189_nan_partial (y : Fin n → ℝ) (Z : Fin q → Fin n → ℝ) (c : Fin q → ℝ) :
    objective y Z c = none ↔
      (∀ i j : Fin n, i.val < 100 → j.val < 100 → y i = y j) ∨
      (∃ k, ∀ i j : Fin n, i.val < 100 → j.val < 100 → Z k i = Z k j) ∨
      ∃ (wy : ℝ) (wz : Fin q → ℝ), kernelWidth (col y) = some wy ∧ (∀ j, kernelWidth (col (Z j)) = some (wz j)) ∧ wy = ∑ j, c j * wz j := by
  have hconst : ∀ v : Fin n → ℝ, kernelWidth (col v) = none ↔ ∀ i j : Fin n, i.val < 100 → j.val < 100 → v i = v j := by
    intro v
    rw [kernelWidth_eq_none]
    constructor
    · intro h i j hi hj; exact congrFun (h i j hi hj) 0
    · intro h i j hi hj; funext k; exact h i j hi hj
  rw [← hconst]
  simp only [← hconst]
  rcases widths_cases y Z with ⟨wy, wz, hy, hz⟩ | hn
  · rw [objective_some hy hz]
    unfold sumHsic
    constructor
    · intro h
      split at h
      · rename_i h0
        exact Or.inr (Or.inr ⟨wy, wz, hy, hz, sub_eq_zero.1 h0⟩)
      · cases h
    · rintro (h | ⟨k, h⟩ | ⟨wy', wz', hy', hz', h⟩)
      · rw [hy] at h; cases h
      · rw [hz k] at h; cases h
      · rw [hy, Option.some.injEq] at hy'
        have : wz' = wz := by
          funext j
          have := hz' j
          rw [hz j, Option.some.injEq] at this
          exact this.symm
        rw [← hy', this] at h
        rw [if_pos]
        unfold width
        rw [h, sub_self]
  · rw [objective_none hn]
    simp only [true_iff]
    rcases hn with h | h
    · exact Or.inl h
    · exact Or.inr (Or.inl h)

/-- C189 (violated): whatever the data, there are coefficients at which the value is NaN. -/
theorem C189_always_nan_somewhere (hq : 0 < q) (y : Fin n → ℝ) (Z : Fin q → Fin n → ℝ) : ∃ c, objective y Z c = none := by
  rcases widths_cases y Z with ⟨wy, wz, hy, hz⟩ | hn
  · let j0 : Fin q := ⟨0, hq⟩
    refine ⟨fun j => if j = j0 then wy / wz j else 0, ?_⟩
    rw [objective_some hy hz]
    unfold sumHsic
    rw [if_pos]
    unfold width
    rw [sum_eq_single j0]
    · beta_reduce
      rw [if_pos rfl, div_mul_cancel₀ _ (kernelWidth_pos (hz j0)).ne', sub_self]
    · intro j _ hj
      beta_reduce
      rw [if_neg hj, zero_mul]
    · intro h; exact absurd (mem_univ _) h
  · exact ⟨fun _ => 0, objective_none hn _⟩

end Verif.Mlhsicr
