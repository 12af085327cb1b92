import Verif.Model.RcdData
import Verif.Spec.Units
import Verif.Props.Hsic
import Verif.Props.FCorr
import Verif.Props.Mlhsicr
import Verif.Props.Rcd
import Verif.Proofs.AdaptiveLasso

/-! RCD in other units of measurement and with other origins. -/
set_option autoImplicit false
set_option linter.unusedSectionVars false
namespace Verif.RcdData
open Finset

variable {N : Nat}

/-! ### Least squares -/

theorem quad_zero {B C : ℝ} (h : ∀ t : ℝ, 0 ≤ -2 * t * B + t ^ 2 * C) : B = 0 := by
  by_contra hB
  have h0 : 0 ≤ C := by
    have h1 := h 1
    have h2 := h (-1)
    nlinarith
  have := h (B / (C + 1))
  have hC : 0 < C + 1 := by linarith
  have e : -2 * (B / (C + 1)) * B + (B / (C + 1)) ^ 2 * C = -(B ^ 2 * (C + 2)) / (C + 1) ^ 2 := by
    field_simp
    ring
  rw [e] at this
  have hneg : -(B ^ 2 * (C + 2)) / (C + 1) ^ 2 < 0 := by
    apply div_neg_of_neg_of_pos
    · have := sq_pos_of_ne_zero hB
      nlinarith
    · positivity
  linarith

theorem sum_sq_sub (e g : Fin N → ℝ) (t : ℝ) :
    ∑ r, (e r - t * g r) ^ 2 = ∑ r, e r ^ 2 + (-2 * t * ∑ r, e r * g r + t ^ 2 * ∑ r, g r ^ 2) := by
  rw [mul_sum, mul_sum, ← sum_add_distrib, ← sum_add_distrib]
  exact sum_congr rfl fun r _ => by ring

/-- The residual of a least squares fit has mean zero and is orthogonal to the regressors. -/
theorem normal {q : Nat} {Z : Fin q → Fin N → ℝ} {y : Fin N → ℝ} {c : Fin q → ℝ} {b : ℝ}
    (h : ∀ b' (c' : Fin q → ℝ), ∑ r, (y r - b - ∑ k, c k * Z k r) ^ 2 ≤ ∑ r, (y r - b' - ∑ k, c' k * Z k r) ^ 2) :
    ∑ r, (y r - b - ∑ k, c k * Z k r) = 0 ∧ ∀ k, ∑ r, (y r - b - ∑ k, c k * Z k r) * Z k r = 0 := by
  classical
  constructor
  · have := quad_zero (B := ∑ r, (y r - b - ∑ k, c k * Z k r) * 1) (C := ∑ _r : Fin N, (1 : ℝ) ^ 2) fun t => by
      have h1 := h (b + t) c
      have h2 := sum_sq_sub (fun r => y r - b - ∑ k, c k * Z k r) (fun _ => 1) t
      have h3 : ∑ r, (y r - (b + t) - ∑ k, c k * Z k r) ^ 2 = ∑ r, (y r - b - ∑ k, c k * Z k r - t * 1) ^ 2 :=
        sum_congr rfl fun r _ => by ring
      rw [h3, h2] at h1
      linarith
    simpa using this
  · intro m
    refine quad_zero (C := ∑ r, Z m r ^ 2) fun t => ?_
    have h1 := h b (fun k => c k + if k = m then t else 0)
    have h2 := sum_sq_sub (fun r => y r - b - ∑ k, c k * Z k r) (fun r => Z m r) t
    have h3 : ∑ r, (y r - b - ∑ k, (c k + if k = m then t else 0) * Z k r) ^ 2 =
        ∑ r, (y r - b - ∑ k, c k * Z k r - t * Z m r) ^ 2 := by
      refine sum_congr rfl fun r _ => ?_
      have : ∑ k, (c k + if k = m then t else 0) * Z k r = ∑ k, c k * Z k r + t * Z m r := by
        simp only [add_mul, sum_add_distrib, ite_mul, zero_mul, sum_ite_eq', mem_univ, if_true]
      rw [this]
      ring
    rw [h3, h2] at h1
    linarith

theorem residOf_normal {q : Nat} {Z : Fin q → Fin N → ℝ} {y : Fin N → ℝ} {c : Fin q → ℝ} (h : LeastSquaresFit Z y c) :
    ∑ r, residOf c Z y r = 0 ∧ ∀ k, ∑ r, residOf c Z y r * Z k r = 0 := by
  obtain ⟨b, hb⟩ := h
  rcases Nat.eq_zero_or_pos N with rfl | hN
  · exact ⟨by simp, fun k => by simp⟩
  obtain ⟨h0, h1⟩ := normal hb
  have hN' : (N : ℝ) ≠ 0 := by exact_mod_cast hN.ne'
  have hbv : b = mean y - ∑ k, c k * mean (Z k) := by
    have : ∑ r, (y r - b - ∑ k, c k * Z k r) = ∑ r, y r - N * b - ∑ k, c k * ∑ r, Z k r := by
      rw [sum_sub_distrib, sum_sub_distrib, sum_comm]
      simp only [mul_sum, sum_const, card_univ, Fintype.card_fin, nsmul_eq_mul]
    rw [this] at h0
    have e : ∑ k, c k * mean (Z k) = (∑ k, c k * ∑ r, Z k r) / N := by
      rw [sum_div]
      exact sum_congr rfl fun k _ => by unfold mean; ring
    rw [e]
    unfold mean
    field_simp
    linarith
  have he : ∀ r, residOf c Z y r = y r - b - ∑ k, c k * Z k r := by
    intro r
    unfold residOf
    rw [← hbv]
    ring
  simp only [he]
  exact ⟨h0, h1⟩

/-- Residuals that satisfy the normal equations are unique. -/
theorem residOf_unique {q : Nat} {Z : Fin q → Fin N → ℝ} {y : Fin N → ℝ} {c c' : Fin q → ℝ}
    (h0 : ∑ r, residOf c Z y r = 0) (h1 : ∀ k, ∑ r, residOf c Z y r * Z k r = 0)
    (h0' : ∑ r, residOf c' Z y r = 0) (h1' : ∀ k, ∑ r, residOf c' Z y r * Z k r = 0) : residOf c Z y = residOf c' Z y := by
  have hd : ∀ r, residOf c Z y r - residOf c' Z y r =
      ∑ k, (c' k - c k) * Z k r + (∑ k, c k * mean (Z k) - ∑ k, c' k * mean (Z k)) := by
    intro r
    unfold residOf
    simp only [sub_mul, sum_sub_distrib]
    ring
  have hs : ∑ r, (residOf c Z y r - residOf c' Z y r) ^ 2 = 0 := by
    have : ∀ r, (residOf c Z y r - residOf c' Z y r) ^ 2 =
        (residOf c Z y r - residOf c' Z y r) * (∑ k, c k * mean (Z k) - ∑ k, c' k * mean (Z k)) +
        ∑ k, (c' k - c k) * (residOf c Z y r * Z k r - residOf c' Z y r * Z k r) := by
      intro r
      have e : ∑ k, (c' k - c k) * (residOf c Z y r * Z k r - residOf c' Z y r * Z k r) =
          (residOf c Z y r - residOf c' Z y r) * ∑ k, (c' k - c k) * Z k r := by
        rw [mul_sum]
        exact sum_congr rfl fun k _ => by ring
      rw [e, ← mul_add, add_comm (∑ k, c k * mean (Z k) - _), ← hd r]
      ring
    simp only [this]
    rw [sum_add_distrib, ← sum_mul, sum_sub_distrib, h0, h0', sum_comm]
    simp only [← mul_sum, sum_sub_distrib, h1, h1']
    simp
  funext r
  have := (sum_eq_zero_iff_of_nonneg fun r _ => sq_nonneg _).1 hs r (mem_univ r)
  exact sub_eq_zero.1 (pow_eq_zero_iff two_ne_zero |>.1 this)

theorem mean_affine (hN : N ≠ 0) (v : Fin N → ℝ) (a b : ℝ) : mean (fun r => a * v r + b) = a * mean v + b := by
  have hN' : (N : ℝ) ≠ 0 := by exact_mod_cast hN
  unfold mean
  rw [sum_add_distrib, ← mul_sum]
  simp only [sum_const, card_univ, Fintype.card_fin, nsmul_eq_mul]
  field_simp

/-- Residuals in other units for the coefficients in the new units. -/
theorem residOf_units {q : Nat} (Z : Fin q → Fin N → ℝ) (y : Fin N → ℝ) (c : Fin q → ℝ) (a b : ℝ) {s : Fin q → ℝ}
    (t : Fin q → ℝ) (hs : ∀ k, s k ≠ 0) :
    residOf (fun k => a * c k / s k) (fun k r => s k * Z k r + t k) (fun r => a * y r + b) = fun r => a * residOf c Z y r := by
  funext r
  have hN : N ≠ 0 := by rintro rfl; exact r.elim0
  unfold residOf
  rw [mean_affine hN]
  have e1 : ∑ k, a * c k / s k * (s k * Z k r + t k) = a * ∑ k, c k * Z k r + ∑ k, a * c k / s k * t k := by
    rw [mul_sum, ← sum_add_distrib]
    refine sum_congr rfl fun k _ => ?_
    field_simp [hs k]
  have e2 : ∑ k, a * c k / s k * mean (fun r => s k * Z k r + t k) = a * ∑ k, c k * mean (Z k) + ∑ k, a * c k / s k * t k := by
    rw [mul_sum, ← sum_add_distrib]
    refine sum_congr rfl fun k _ => ?_
    rw [mean_affine hN]
    field_simp [hs k]
  rw [e1, e2]
  ring

/-- Least squares residuals in other units: only the unit of the regressed variable matters. -/
theorem residual_units {q : Nat} {Z : Fin q → Fin N → ℝ} {y : Fin N → ℝ} {c c' : Fin q → ℝ} {a b : ℝ} {s t : Fin q → ℝ}
    (hs : ∀ k, s k ≠ 0) (h : LeastSquaresFit Z y c)
    (h' : LeastSquaresFit (fun k r => s k * Z k r + t k) (fun r => a * y r + b) c') :
    residOf c' (fun k r => s k * Z k r + t k) (fun r => a * y r + b) = fun r => a * residOf c Z y r := by
  obtain ⟨h0, h1⟩ := residOf_normal h
  obtain ⟨h0', h1'⟩ := residOf_normal h'
  rw [← residOf_units Z y c a b t hs]
  have hu := residOf_units Z y c a b t hs
  refine residOf_unique h0' h1' ?_ fun k => ?_
  · rw [hu, ← mul_sum, h0, mul_zero]
  · rw [hu]
    have : ∑ r, a * residOf c Z y r * (s k * Z k r + t k) =
        a * s k * ∑ r, residOf c Z y r * Z k r + a * t k * ∑ r, residOf c Z y r := by
      rw [mul_sum, mul_sum, ← sum_add_distrib]
      exact sum_congr rfl fun r _ => by ring
    rw [this, h1 k, h0]
    ring

/-! ### The tests -/

/-- Whatever `LinearRegression` returns is a least squares fit. -/
def OlsRight (L : Lib N) : Prop := ∀ q Z y, LeastSquaresFit Z y (L.ols q Z y)

/-- The p-value of `shapiro` depends neither on the unit nor on the origin. -/
def ShapiroUnits (L : Lib N) : Prop := ∀ (v : Fin N → ℝ) (a b : ℝ), a ≠ 0 → L.shapiro (fun r => a * v r + b) = L.shapiro v

variable {L : Lib N} {c o : Nat → ℝ} {X X' : Nat → Fin N → ℝ}

theorem cols_units (h : OtherUnits c o X X') (l : List Nat) :
    cols X' l = fun k r => c (l.get k) * cols X l k r + o (l.get k) := by
  funext k r
  exact h _ r

theorem col_units (h : OtherUnits c o X X') (x : Nat) : X' x = fun r => c x * X x r + o x := by
  funext r
  exact h x r

theorem resid_units (hL : OlsRight L) (hc : ∀ j, c j ≠ 0) (h : OtherUnits c o X X') (x : Nat) (l : List Nat) :
    resid L X' x l = fun r => c x * resid L X x l r := by
  have e := residual_units (a := c x) (b := o x) (s := fun k => c (l.get k)) (t := fun k => o (l.get k))
    (fun k => hc _) (hL l.length (cols X l) (X x)) (hL l.length _ _)
  unfold resid
  rw [cols_units h, col_units h]
  exact e

theorem without_units (hL : OlsRight L) (hc : ∀ j, c j ≠ 0) (h : OtherUnits c o X X') (n : Nat) (H : Finset Nat) :
    OtherUnits c (fun x => if H = ∅ then o x else 0) (without L n X H) (without L n X' H) := by
  intro x r
  unfold without
  by_cases hH : H = ∅
  · simp only [hH, if_true]
    exact h x r
  · simp only [hH, if_false]
    rw [resid_units hL hc h]
    ring

theorem codev_affine (v w : Fin N → ℝ) (a b a' b' : ℝ) :
    codev (fun r => a * v r + b) (fun r => a' * w r + b') = a * a' * codev v w := by
  unfold codev
  rw [mul_sum]
  refine sum_congr rfl fun r _ => ?_
  have hN : N ≠ 0 := by rintro rfl; exact r.elim0
  rw [mean_affine hN, mean_affine hN]
  ring

theorem codev_nonneg (v : Fin N → ℝ) : 0 ≤ codev v v := sum_nonneg fun _ _ => mul_self_nonneg _

theorem pearsonP_affine (v w : Fin N → ℝ) {a a' : ℝ} (ha : a ≠ 0) (ha' : a' ≠ 0) (b b' : ℝ) :
    pearsonP L (fun r => a * v r + b) (fun r => a' * w r + b') = pearsonP L v w := by
  unfold pearsonP
  simp only [codev_affine]
  have e1 : a * a * codev v v = 0 ↔ codev v v = 0 := by simp [ha]
  have e2 : a' * a' * codev w w = 0 ↔ codev w w = 0 := by simp [ha']
  by_cases hz : codev v v = 0 ∨ codev w w = 0
  · rw [if_pos hz, if_pos (by rw [e1, e2]; exact hz)]
  · rw [if_neg hz, if_neg (by rw [e1, e2]; exact hz)]
    have r1 : Real.sqrt (a * a * codev v v) = |a| * Real.sqrt (codev v v) := by
      rw [Real.sqrt_mul (mul_self_nonneg a), Real.sqrt_mul_self_eq_abs]
    have r2 : Real.sqrt (a' * a' * codev w w) = |a'| * Real.sqrt (codev w w) := by
      rw [Real.sqrt_mul (mul_self_nonneg a'), Real.sqrt_mul_self_eq_abs]
    rw [r1, r2]
    congr 2
    rw [abs_div, abs_div, abs_mul, abs_mul, abs_mul (|a| * _), abs_mul |a|, abs_mul |a'|, abs_abs, abs_abs, abs_mul]
    have h1 : |a| ≠ 0 := abs_ne_zero.2 ha
    have h2 : |a'| ≠ 0 := abs_ne_zero.2 ha'
    rw [show |a| * |(Real.sqrt (codev v v))| * (|a'| * |(Real.sqrt (codev w w))|) =
      (|a| * |a'|) * (|(Real.sqrt (codev v v))| * |(Real.sqrt (codev w w))|) by ring]
    rw [mul_div_mul_left _ _ (mul_ne_zero h1 h2)]

theorem isCorrelated_affine (g : Cfg) (v w : Fin N → ℝ) {a a' : ℝ} (ha : a ≠ 0) (ha' : a' ≠ 0) (b b' : ℝ) :
    isCorrelated L g (fun r => a * v r + b) (fun r => a' * w r + b') = isCorrelated L g v w := by
  unfold isCorrelated
  rw [pearsonP_affine v w ha ha']

theorem isIndependent_affine (hN : N ≠ 0) (g : Cfg) (v w : Fin N → ℝ) {a a' : ℝ} (ha : a ≠ 0) (ha' : a' ≠ 0) (b b' : ℝ) :
    isIndependent L g (fun r => a * v r + b) (fun r => a' * w r + b') = isIndependent L g v w := by
  unfold isIndependent
  rw [FCorr.C145_units L.R hN v w ha ha' b b', Mlhsicr.col_affine, Mlhsicr.col_affine,
    Hsic.C114_hsic_units L.gammaSf (Mlhsicr.col v) (Mlhsicr.col w) a a' (fun _ => b) (fun _ => b') ha ha']

theorem indepOfResid_units (hN : N ≠ 0) (hL : OlsRight L) {g : Cfg} (hg : g.mlhsicr = false) (hc : ∀ j, c j ≠ 0)
    (h : OtherUnits c o X X') (x : Nat) (l : List Nat) : isIndependentOfResid L g X' x l = isIndependentOfResid L g X x l := by
  have e : ∀ y, isIndependent L g (resid L X' x l) (X' y) = isIndependent L g (resid L X x l) (X y) := by
    intro y
    rw [resid_units hL hc h, col_units h y]
    have := isIndependent_affine (L := L) hN g (resid L X x l) (X y) (hc x) (hc y) 0 (o y)
    simpa only [add_zero] using this
  unfold isIndependentOfResid
  simp only [e, hg, or_true, if_true]

/-- No test changes its answer. -/
theorem tests_units (hN : N ≠ 0) (hL : OlsRight L) (hS : ShapiroUnits L) {g : Cfg} (hg : g.mlhsicr = false)
    (hc : ∀ j, c j ≠ 0) (h : OtherUnits c o X X') (n : Nat) : tests L g n X' = tests L g n X := by
  unfold tests
  congr 1
  · funext H x
    rw [col_units (without_units hL hc h n H) x, hS _ _ _ (hc x)]
  · funext A a B b
    rw [col_units (without_units hL hc h n A) a, col_units (without_units hL hc h n B) b,
      isCorrelated_affine g _ _ (hc a) (hc b)]
  · funext H x l
    exact indepOfResid_units hN hL hg hc (without_units hL hc h n H) x l

/-! ### The coefficients -/

theorem idxOf_get {l : List Nat} (hl : l.Nodup) (k : Fin l.length) : l.idxOf (l.get k) = k := hl.idxOf_getElem k k.2

theorem coef_units (hL : OlsRight L) (hc : ∀ j, c j ≠ 0) (h : OtherUnits c o X X') {n : Nat} (hX : ColumnsIndependent n X)
    {ps : List Nat} (hps : ps.Nodup) (hlt : ∀ j ∈ ps, j < n) (i j : Nat) :
    coef L X' ps i j = coef L X ps i j * (c i / c j) := by
  unfold coef
  split
  swap
  · rw [zero_mul]
  rename_i hj
  set w : Fin ps.length → ℝ := L.ols ps.length (cols X ps) (X i) with hw
  set w' : Fin ps.length → ℝ := L.ols ps.length (cols X' ps) (X' i) with hw'
  have e1 : residOf w' (cols X' ps) (X' i) = fun r => c i * residOf w (cols X ps) (X i) r := resid_units hL hc h i ps
  have e2 := residOf_units (cols X ps) (X i) w (c i) (o i) (s := fun k => c (ps.get k)) (fun k => o (ps.get k)) (fun k => hc _)
  rw [← cols_units h, ← col_units h] at e2
  let D : Nat → ℝ := fun j => if hj : ps.idxOf j < ps.length then
    (w' ⟨ps.idxOf j, hj⟩ - c i * w ⟨ps.idxOf j, hj⟩ / c j) * c j else 0
  have hD : ∀ k : Fin ps.length, D (ps.get k) = (w' k - c i * w k / c (ps.get k)) * c (ps.get k) := by
    intro k
    have hk := idxOf_get hps k
    have hlt' : ps.idxOf (ps.get k) < ps.length := hk ▸ k.2
    show (if hj : _ then _ else _) = _
    rw [dif_pos hlt']
    have : (⟨ps.idxOf (ps.get k), hlt'⟩ : Fin ps.length) = k := Fin.ext hk
    rw [this]
  have hz : ∀ j, j ∉ ps → D j = 0 := by
    intro j hj
    show (if hj : _ then _ else _) = _
    rw [dif_neg]
    rw [List.idxOf_lt_length_iff]
    exact hj
  have hsum : ∀ r, ∑ j ∈ range n, D j * X j r = ∑ k : Fin ps.length, D (ps.get k) * X (ps.get k) r := by
    intro r
    have : ∑ k : Fin ps.length, D (ps.get k) * X (ps.get k) r = (ps.map (fun j => D j * X j r)).sum :=
      Fin.sum_univ_fun_getElem ps (fun j => D j * X j r)
    rw [this, ← List.sum_toFinset _ hps]
    symm
    apply sum_subset
    · intro j hj
      exact mem_range.2 (hlt j (List.mem_toFinset.1 hj))
    · intro j _ hj
      rw [hz j (fun hm => hj (List.mem_toFinset.2 hm)), zero_mul]
  have hDz := hX (∑ k : Fin ps.length, (w' k - c i * w k / c (ps.get k)) * (mean (cols X' ps k) - o (ps.get k))) D (fun r => by
    rw [hsum r]
    have e3 := congrFun (e1.trans e2.symm) r
    unfold residOf at e3
    have e4 : ∑ k, w' k * cols X' ps k r - ∑ k, c i * w k / c (ps.get k) * cols X' ps k r =
        ∑ k, w' k * mean (cols X' ps k) - ∑ k, c i * w k / c (ps.get k) * mean (cols X' ps k) := by linarith
    rw [← sum_sub_distrib, ← sum_sub_distrib] at e4
    have e5 : ∀ k : Fin ps.length, D (ps.get k) * X (ps.get k) r =
        (w' k * cols X' ps k r - c i * w k / c (ps.get k) * cols X' ps k r) - (w' k - c i * w k / c (ps.get k)) * o (ps.get k) := by
      intro k
      rw [hD, show cols X' ps k r = c (ps.get k) * X (ps.get k) r + o (ps.get k) from h _ r]
      ring
    simp only [e5]
    rw [sum_sub_distrib, e4, ← sum_sub_distrib]
    exact sum_congr rfl fun k _ => by ring)
  have hjm : j ∈ ps := List.idxOf_lt_length_iff.1 hj
  have := hDz j (hlt j hjm)
  simp only [D, dif_pos hj] at this
  have := (mul_eq_zero.1 this).resolve_right (hc j)
  rw [sub_eq_zero.1 this]
  ring

/-! ### C201 -/

/-- C201: RCD without MLHSICR, which is the default, for data measured in other units (also with the sign reversed) and from
other origins: the ancestors are the same, the entries NaN are the same, and every coefficient is converted. -/
theorem C201_rcd_units (hN : N ≠ 0) (hL : OlsRight L) (hS : ShapiroUnits L) {g : Cfg} (hg : g.mlhsicr = false)
    (hc : ∀ j, c j ≠ 0) (h : OtherUnits c o X X') {n : Nat} (hX : ColumnsIndependent n X) (maxNum fuel : Nat) {M : Rcd.Anc}
    {B : Nat → Nat → Option ℝ} (hf : fit L g n maxNum fuel X = some (M, B)) :
    ∃ B', fit L g n maxNum fuel X' = some (M, B') ∧ ∀ i j, B' i j = (B i j).map (fun b => b * (c i / c j)) := by
  unfold fit Rcd.fit at hf ⊢
  rw [tests_units hN hL hS hg hc h n]
  split at hf
  · cases hf
  · rename_i M0 hM
    rw [Option.some.injEq, Prod.mk.injEq] at hf
    obtain ⟨rfl, rfl⟩ := hf
    refine ⟨_, rfl, fun i j => ?_⟩
    unfold Rcd.adjacency
    split
    · split
      · rfl
      · split
        · rw [Option.map_some, coef_units hL hc h hX (List.nodup_range.filter _)
            (fun j hj => List.mem_range.1 (List.mem_filter.1 hj).1)]
        · rw [Option.map_some, zero_mul]
    · rw [Option.map_some, zero_mul]

/-- Least squares fits exist, so routines with the assumed properties exist. -/
theorem exists_fit {q : Nat} (Z : Fin q → Fin N → ℝ) (y : Fin N → ℝ) : ∃ c, LeastSquaresFit Z y c := by
  obtain ⟨b, w, h0, h1⟩ := Pairwise.exists_regression (List.ofFn Z) y
  have hu : ∀ r, unexplained (List.ofFn Z) y b w r = y r - b - ∑ k : Fin q, w k * Z k r := by
    intro r
    unfold unexplained
    rw [List.length_ofFn, sum_range (fun k => w k * (List.ofFn Z).getD k 0 r)]
    have : ∀ k : Fin q, (List.ofFn Z).getD k 0 r = Z k r := fun k => by simp [List.getD]
    simp only [this]
  refine ⟨fun k => w k, b, fun b' c' => ?_⟩
  simp only [hu] at h0 h1
  have h1' : ∀ k : Fin q, ∑ r, (y r - b - ∑ k : Fin q, w k * Z k r) * Z k r = 0 := by
    intro k
    have := h1 k (by simp)
    simpa [List.getD] using this
  have key : ∑ r, (y r - b' - ∑ k, c' k * Z k r) ^ 2 = ∑ r, (y r - b - ∑ k : Fin q, w k * Z k r) ^ 2 +
      ∑ r, (b - b' + ∑ k : Fin q, (w k - c' k) * Z k r) ^ 2 := by
    have hx : ∑ r, (y r - b - ∑ k : Fin q, w k * Z k r) * (b - b' + ∑ k : Fin q, (w k - c' k) * Z k r) = 0 := by
      have : ∀ r, (y r - b - ∑ k : Fin q, w k * Z k r) * (b - b' + ∑ k : Fin q, (w k - c' k) * Z k r) =
          (y r - b - ∑ k : Fin q, w k * Z k r) * (b - b') +
            ∑ k : Fin q, (w k - c' k) * ((y r - b - ∑ k : Fin q, w k * Z k r) * Z k r) := by
        intro r
        rw [mul_add, mul_sum]
        congr 1
        exact sum_congr rfl fun k _ => by ring
      simp only [this]
      rw [sum_add_distrib, ← sum_mul, h0, zero_mul, zero_add, sum_comm]
      refine sum_eq_zero fun k _ => ?_
      rw [← mul_sum, h1', mul_zero]
    have hr : ∀ r, (y r - b' - ∑ k, c' k * Z k r) ^ 2 = (y r - b - ∑ k : Fin q, w k * Z k r) ^ 2 +
        (b - b' + ∑ k : Fin q, (w k - c' k) * Z k r) ^ 2 +
        2 * ((y r - b - ∑ k : Fin q, w k * Z k r) * (b - b' + ∑ k : Fin q, (w k - c' k) * Z k r)) := by
      intro r
      simp only [sub_mul, sum_sub_distrib]
      ring
    simp only [hr]
    rw [sum_add_distrib, sum_add_distrib, ← mul_sum, hx]
    ring
  rw [key]
  have : 0 ≤ ∑ r, (b - b' + ∑ k : Fin q, (w k - c' k) * Z k r) ^ 2 := sum_nonneg fun _ _ => sq_nonneg _
  linarith

theorem exists_lib (R : FCorr.Routines) (sf : ℝ → ℝ → ℝ → ℝ) (pf : ℝ → ℝ) : ∃ L : Lib N, OlsRight L ∧ ShapiroUnits L ∧
    L.gammaSf = sf ∧ L.R = R ∧ L.pearsonSf = pf := by
  choose w h using fun (q : Nat) (Z : Fin q → Fin N → ℝ) (y : Fin N → ℝ) => exists_fit Z y
  exact ⟨⟨w, fun _ => 0, pf, sf, R, fun _ _ x => x⟩, h, fun _ _ _ _ => rfl, rfl, rfl, rfl⟩

/-- Six rows of two columns: the numbers and their squares. -/
def squares : Nat → Fin 6 → ℝ := fun j r => (r.val : ℝ) ^ (j + 1)

theorem squares_independent : ColumnsIndependent 2 squares := by
  intro a d h
  have h0 := h 0
  have h1 := h 1
  have h2 := h 2
  simp only [sum_range_succ, range_zero, sum_empty, squares] at h0 h1 h2
  norm_num at h0 h1 h2
  intro j hj
  have : j = 0 ∨ j = 1 := by omega
  rcases this with rfl | rfl <;> linarith

/-- The hypotheses are met by a temperature in Fahrenheit instead of Celsius and a height with reversed sign. -/
example (R : FCorr.Routines) (sf : ℝ → ℝ → ℝ → ℝ) (pf : ℝ → ℝ) (a b d : ℝ) : ∃ (L : Lib 6) (M : Rcd.Anc)
    (B B' : Nat → Nat → Option ℝ), L.gammaSf = sf ∧ L.R = R ∧ L.pearsonSf = pf ∧
    fit L ⟨a, b, d, false, true, 1 / 2⟩ 2 2 40 squares = some (M, B) ∧
    fit L ⟨a, b, d, false, true, 1 / 2⟩ 2 2 40 (fun j r => (if j = 0 then 9 / 5 else -1) * squares j r + if j = 0 then 32 else 7) =
      some (M, B') ∧ B' 1 0 = (B 1 0).map (fun x => x * (-5 / 9)) := by
  obtain ⟨L, hL, hS, h1, h2, h3⟩ := exists_lib (N := 6) R sf pf
  obtain ⟨M, hM, _⟩ := Rcd.C25_ancestors_terminate (tests L ⟨a, b, d, false, true, 1 / 2⟩ 2 squares) 2 (maxNum := 2) (by omega)
  have hM := hM 40 (by omega)
  have hf : ∃ B, fit L ⟨a, b, d, false, true, 1 / 2⟩ 2 2 40 squares = some (M, B) := by
    unfold fit Rcd.fit
    rw [hM]
    exact ⟨_, rfl⟩
  obtain ⟨B, hB⟩ := hf
  obtain ⟨B', hB', hc⟩ := C201_rcd_units (by norm_num) hL hS rfl (c := fun j => if j = 0 then 9 / 5 else -1)
    (o := fun j => if j = 0 then 32 else 7) (fun j => by split <;> norm_num)
    (X' := fun j r => (if j = 0 then 9 / 5 else -1) * squares j r + if j = 0 then 32 else 7) (fun j r => rfl)
    squares_independent 2 40 hB
  refine ⟨L, M, B, B', h1, h2, h3, hB, hB', ?_⟩
  rw [hc 1 0]
  norm_num

end Verif.RcdData
