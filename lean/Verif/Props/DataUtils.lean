import Verif.Proofs.DataUtils
import Mathlib.Tactic.IntervalCases
import Mathlib.Tactic.FinCases
import Mathlib.Algebra.BigOperators.Pi
import Mathlib.Algebra.Module.Submodule.Basic

/-! Properties of `remove_effect` and `evaluate_model_fit`. -/
set_option autoImplicit false
set_option linter.unusedSectionVars false
namespace Verif.DataUtils

variable {N : Nat}

/-! ### C130: removing effects -/

/-- For data of floating point type the removed features are unchanged, and every other column is what remains after least
squares with intercept on them: it has mean zero and is uncorrelated with each of them.  The reported coefficients are
those of the regression, in the order of the removed features. -/
theorem C130_residuals_partial {fit : Fit N} {n : Nat} {S : List Nat} {X Y : Nat → Fin N → ℚ} {co : Nat → List ℚ}
    (h : removeEffect fit .float n S X = some (Y, co))
    (hfit : ∀ j, j < n → j ∉ S → NormalEquations (fit (S.map X) (X j)) (S.map X) (X j)) :
    (∀ j ∈ S, Y j = X j) ∧ ∀ j, j < n → j ∉ S → IsRegressionResidual S X (X j) (Y j) ∧ (co j).length = S.length ∧
      ∃ c0, ∀ r, Y j r = X j r - (c0 + (((co j).zip S).map (fun p => p.1 * X p.2 r)).sum) := by
  obtain ⟨h1, h2⟩ := removeEffect_spec h
  refine ⟨fun j hj => h1 j (.inr hj), fun j hj hS => ?_⟩
  obtain ⟨h3, h4⟩ := h2 j hj hS
  have hn := hfit j hj hS
  refine ⟨?_, ?_, ?_⟩
  · rw [h3]; exact removed_residual hn
  · rw [h4, hn.1, List.length_map]
  · refine ⟨(fit (S.map X) (X j)).2, fun r => ?_⟩
    rw [h3, h4]
    simp only [store, predict, List.zip_map_right, List.map_map]
    rfl

/-- Removing the effects again changes nothing. -/
theorem C130_idempotent {fit : Fit N} {n : Nat} {S : List Nat} {X Y Z : Nat → Fin N → ℚ} {co co' : Nat → List ℚ}
    (h : removeEffect fit .float n S X = some (Y, co)) (h' : removeEffect fit .float n S Y = some (Z, co'))
    (hfit : ∀ j, j < n → j ∉ S → NormalEquations (fit (S.map X) (X j)) (S.map X) (X j) ∧
      NormalEquations (fit (S.map Y) (Y j)) (S.map Y) (Y j)) : Z = Y := by
  obtain ⟨h1, h2⟩ := removeEffect_spec h
  obtain ⟨h3, h4⟩ := removeEffect_spec h'
  funext j
  by_cases hj : j < n ∧ j ∉ S
  · obtain ⟨a, b⟩ := hfit j hj.1 hj.2
    have r1 : IsRegressionResidual S X (X j) (Y j) := by
      rw [(h2 j hj.1 hj.2).1]; exact removed_residual a
    have r2 : IsRegressionResidual S Y (Y j) (Z j) := by
      rw [(h4 j hj.1 hj.2).1]; exact removed_residual b
    have hYX : ∀ k ∈ S, Y k = X k := fun k hk => h1 k (.inr hk)
    have r3 : IsRegressionResidual S X (Y j) (Z j) :=
      residual_congr (fun k hk => ⟨k, hk, hYX k hk⟩) (fun k hk => ⟨k, hk, (hYX k hk).symm⟩) r2
    have r4 : IsRegressionResidual S X (Y j) (Y j) := ⟨by rw [sub_self]; exact Submodule.zero_mem _, r1.2⟩
    exact residual_unique r3 r4
  · have : ¬ j < n ∨ j ∈ S := by
      by_contra hc
      push Not at hc
      exact hj hc
    exact h3 j this

/-- The result does not depend on the order in which the features are listed, nor on repetitions. -/
theorem C130_order {fit : Fit N} {n : Nat} {S S' : List Nat} {X Y Y' : Nat → Fin N → ℚ} {co co' : Nat → List ℚ}
    (hSS : ∀ j, j ∈ S ↔ j ∈ S') (h : removeEffect fit .float n S X = some (Y, co)) (h' : removeEffect fit .float n S' X = some (Y', co'))
    (hfit : ∀ j, j < n → j ∉ S → NormalEquations (fit (S.map X) (X j)) (S.map X) (X j) ∧
      NormalEquations (fit (S'.map X) (X j)) (S'.map X) (X j)) : Y = Y' := by
  obtain ⟨h1, h2⟩ := removeEffect_spec h
  obtain ⟨h3, h4⟩ := removeEffect_spec h'
  funext j
  by_cases hj : j < n ∧ j ∉ S
  · have hj' : j ∉ S' := fun hc => hj.2 ((hSS j).2 hc)
    obtain ⟨a, b⟩ := hfit j hj.1 hj.2
    have r1 : IsRegressionResidual S X (X j) (Y j) := by
      rw [(h2 j hj.1 hj.2).1]; exact removed_residual a
    have r2 : IsRegressionResidual S' X (X j) (Y' j) := by
      rw [(h4 j hj.1 hj').1]; exact removed_residual b
    exact residual_unique r1 (residual_congr (fun k hk => ⟨k, (hSS k).2 hk, rfl⟩) (fun k hk => ⟨k, (hSS k).1 hk, rfl⟩) r2)
  · have hc : ¬ j < n ∨ j ∈ S := by
      by_contra hc
      push Not at hc
      exact hj hc
    rw [h1 j hc, h3 j (by rcases hc with hc | hc; exact .inl hc; exact .inr ((hSS j).1 hc))]

/-- Three columns: `x1 = 2 x0 + e1`, `x2 = 3 x1 + e2`. -/
def exX (j : Nat) : Fin 4 → ℚ := if j = 0 then ![0, 0, 1, 1] else if j = 1 then ![1, 3, 2, 6] else ![4, 9, 6, 19]

/-- The regressions of `x1` and `x2` on `x0`. -/
def exFit : Fit 4 := fun _ y => if y 0 = 1 then ([2], 2) else ([6], 13 / 2)

theorem exFit_normal : ∀ j, j < 3 → j ∉ [0] → NormalEquations (exFit ([0].map exX) (exX j)) ([0].map exX) (exX j) := by
  intro j hj hj0
  have : j = 1 ∨ j = 2 := by simp at hj0; omega
  rcases this with rfl | rfl <;> exact ⟨rfl, by decide +kernel, by decide +kernel⟩

theorem exRemove : ∃ Y co, removeEffect exFit .float 3 [0] exX = some (Y, co) := ⟨_, _, rfl⟩

example : ∃ Y co, removeEffect exFit .float 3 [0] exX = some (Y, co) ∧ ∑ r, Y 2 r = 0 ∧ ∑ r, Y 2 r * exX 0 r = 0 ∧ co 2 = [6] := by
  obtain ⟨Y, co, h⟩ := exRemove
  obtain ⟨-, h2⟩ := C130_residuals_partial h exFit_normal
  obtain ⟨⟨-, a, b⟩, -, -⟩ := h2 2 (by decide) (by decide)
  exact ⟨Y, co, h, a, b 0 (by simp), (removeEffect_spec h).2 2 (by decide) (by decide) |>.2.trans (by decide +kernel)⟩

/-- Four integer rows for which rounding matters. -/
def intX (j : Nat) : Fin 4 → ℚ := if j = 0 then ![0, 0, 0, 1] else ![0, 0, 5, 0]

/-- For integer arrays the residuals are cut to integers when they are written back: the result is still correlated with the
removed feature, whatever regression was used, and does not have mean zero. -/
theorem C130_integer_violated {fit : Fit 4} {Y : Nat → Fin 4 → ℚ} {co : Nat → List ℚ}
    (h : removeEffect fit .int 2 [0] intX = some (Y, co))
    (hfit : NormalEquations (fit ([0].map intX) (intX 1)) ([0].map intX) (intX 1)) :
    ∑ r, Y 1 r = 1 ∧ ∑ r, (Y 1 r - 1 / 4) * (intX 0 r - 1 / 4) ≠ 0 ∧ ¬ IsRegressionResidual [0] intX (intX 1) (Y 1) := by
  obtain ⟨-, h2⟩ := removeEffect_spec h
  have h3 := (h2 1 (by decide) (by decide)).1
  have r1 := removed_residual (S := [0]) hfit
  have r2 : IsRegressionResidual [0] intX (intX 1) ![-5/3, -5/3, 10/3, 0] := by
    refine ⟨?_, by decide +kernel, by decide +kernel⟩
    have e : intX 1 - ![-5/3, -5/3, 10/3, 0] = (fun _ => 5/3) - (5/3 : ℚ) • intX 0 := by
      funext r
      fin_cases r <;> decide +kernel
    rw [e]
    exact Submodule.sub_mem _ (const_mem _ _ _) (Submodule.smul_mem _ _ (col_mem (by simp)))
  have hres := residual_unique r1 r2
  have hY : Y 1 = ![-1, -1, 3, 0] := by
    rw [h3]
    funext r
    have := congrFun hres r
    clear hres
    rw [show intX 1 r - predict (fit (List.map intX [0]) (intX 1)) (List.map intX [0]) r = ![-5/3, -5/3, 10/3, 0] r from this]
    clear this
    revert r; decide +kernel
  refine ⟨by rw [hY]; decide +kernel, by rw [hY]; decide +kernel, ?_⟩
  rintro ⟨-, a, -⟩
  rw [hY] at a
  revert a
  decide +kernel

example : ∃ Y co, removeEffect (fun _ _ => ([-5/3], 5/3)) .int 2 [0] intX = some (Y, co) ∧ ∑ r, Y 1 r = 1 :=
  by
  refine ⟨_, _, rfl, ?_⟩
  exact (C130_integer_violated (fit := fun _ _ => ([-5/3], 5/3)) rfl ⟨rfl, by decide +kernel, by decide +kernel⟩).1

/-! ### C131: the causal model among the remaining variables -/

/-- If the data follow a linear model, the remaining variables after removing effects follow the same model: the
coefficients among them are unchanged, and the errors are what remains of the errors.  Errors that have mean zero and are
uncorrelated with the removed features are not changed at all. -/
theorem C131_model_kept {fit : Fit N} {n : Nat} {S : List Nat} {B : Nat → Nat → ℚ} {X Y e : Nat → Fin N → ℚ} {co : Nat → List ℚ}
    (hm : FollowsModel (Finset.range n) B X e) (h : removeEffect fit .float n S X = some (Y, co))
    (hfit : ∀ j, j < n → j ∉ S → NormalEquations (fit (S.map X) (X j)) (S.map X) (X j)) :
    ∃ e', FollowsModel ((Finset.range n).filter (fun j => j ∉ S)) B Y e' ∧ ∀ i, i < n → i ∉ S →
      IsRegressionResidual S X (e i) (e' i) ∧ ((∑ r, e i r = 0 ∧ ∀ j ∈ S, ∑ r, e i r * X j r = 0) → e' i = e i) := by
  obtain ⟨-, h2⟩ := C130_residuals_partial h hfit
  set U := (Finset.range n).filter (fun j => j ∉ S) with hU
  refine ⟨fun i r => Y i r - ∑ j ∈ U, B i j * Y j r, fun i _ r => by ring, fun i hi hiS => ?_⟩
  have hmemU : ∀ j ∈ U, j < n ∧ j ∉ S := by
    intro j hj; rw [hU, Finset.mem_filter, Finset.mem_range] at hj; exact hj
  have hres : IsRegressionResidual S X (e i) (fun r => Y i r - ∑ j ∈ U, B i j * Y j r) := by
    refine ⟨?_, ?_, ?_⟩
    · -- the difference is a combination of removed columns and of the differences of the remaining ones
      have hd : ∀ j ∈ U, B i j • (X j - Y j) ∈ affineSpan S X := fun j hj =>
        Submodule.smul_mem _ _ (h2 j (hmemU j hj).1 (hmemU j hj).2).1.1
      have hs : ∀ j ∈ (Finset.range n).filter (fun j => ¬ j ∉ S), B i j • X j ∈ affineSpan S X := fun j hj => by
        rw [Finset.mem_filter, not_not] at hj
        exact Submodule.smul_mem _ _ (col_mem hj.2)
      have e1 : (e i - fun r => Y i r - ∑ j ∈ U, B i j * Y j r) = (X i - Y i) -
          ∑ j ∈ U, B i j • (X j - Y j) - ∑ j ∈ (Finset.range n).filter (fun j => ¬ j ∉ S), B i j • X j := by
        funext r
        have hx := hm i (Finset.mem_range.2 hi) r
        rw [← Finset.sum_filter_add_sum_filter_not (Finset.range n) (fun j => j ∉ S)] at hx
        rw [← hU] at hx
        simp only [Pi.sub_apply, Finset.sum_apply, Pi.smul_apply, smul_eq_mul, mul_sub, Finset.sum_sub_distrib]
        linarith
      rw [e1]
      exact Submodule.sub_mem _ (Submodule.sub_mem _ (h2 i hi hiS).1.1 (Submodule.sum_mem _ hd)) (Submodule.sum_mem _ hs)
    · rw [Finset.sum_sub_distrib, (h2 i hi hiS).1.2.1, Finset.sum_comm, zero_sub, neg_eq_zero]
      refine Finset.sum_eq_zero fun j hj => ?_
      rw [← Finset.mul_sum, (h2 j (hmemU j hj).1 (hmemU j hj).2).1.2.1, mul_zero]
    · intro k hk
      simp only [sub_mul, Finset.sum_sub_distrib]
      rw [(h2 i hi hiS).1.2.2 k hk, zero_sub, neg_eq_zero]
      simp only [Finset.sum_mul]
      rw [Finset.sum_comm]
      refine Finset.sum_eq_zero fun j hj => ?_
      have : ∀ r, B i j * Y j r * X k r = B i j * (Y j r * X k r) := fun r => by ring
      simp only [this]
      rw [← Finset.mul_sum, (h2 j (hmemU j hj).1 (hmemU j hj).2).1.2.2 k hk, mul_zero]
  refine ⟨hres, fun hz => ?_⟩
  exact residual_unique hres ⟨by rw [sub_self]; exact Submodule.zero_mem _, hz⟩

/-- Coefficients of the example. -/
def exB : Nat → Nat → ℚ := fun i j => if (i, j) = (1, 0) then 2 else if (i, j) = (2, 1) then 3 else 0

/-- Errors of the example. -/
def exE (j : Nat) : Fin 4 → ℚ := if j = 0 then ![0, 0, 1, 1] else if j = 1 then ![1, 3, 0, 4] else ![1, 0, 0, 1]

theorem exX_follows : FollowsModel (Finset.range 3) exB exX exE := by
  have : ∀ i ∈ Finset.range 3, ∀ r : Fin 4, exX i r = ∑ j ∈ Finset.range 3, exB i j * exX j r + exE i r := by decide +kernel
  exact this

example : ∃ (Y : Nat → Fin 4 → ℚ) (co : Nat → List ℚ) (e' : Fin 4 → ℚ),
    removeEffect exFit .float 3 [0] exX = some (Y, co) ∧ ∀ r, Y 2 r = 3 * Y 1 r + e' r := by
  obtain ⟨Y, co, h⟩ := exRemove
  obtain ⟨e', h1, -⟩ := C131_model_kept exX_follows h exFit_normal
  refine ⟨Y, co, e' 2, h, fun r => ?_⟩
  have := h1 2 (by decide) r
  have hU : (Finset.range 3).filter (fun j => j ∉ [0]) = {1, 2} := by decide
  rw [hU, Finset.sum_pair (by decide)] at this
  have h3 : exB 2 1 = 3 := by decide +kernel
  have h4 : exB 2 2 = 0 := by decide +kernel
  rw [this, h3, h4]; ring

/-! ### C134: the graph handed to the fit indices -/

/-- The evaluated model has an equation exactly for the variables with a relation.  Its terms are one fixed coefficient for
every entry that is not taken for zero, on the variable of the column, and one latent variable for every unknown entry. -/
theorem C134_equations (rnd : ℚ → ℚ) (n : Nat) (A : Nat → Nat → Option ℚ) (ordinal : Nat → Int) :
    ((describe rnd n A ordinal).equations.map (·.1)).Nodup ∧
    (∀ i, i ∈ (describe rnd n A ordinal).equations.map (·.1) ↔ i < n ∧ HasRelation n A i) ∧
    ∀ i ts, (i, ts) ∈ (describe rnd n A ordinal).equations →
      (∀ c j, Term.fixed c j ∈ ts ↔ j < n ∧ ∃ x, A i j = some x ∧ 1 / 100000000 < |x| ∧ c = rnd x) ∧
      ∀ a b, Term.latent a b ∈ ts ↔ ∃ j, j < n ∧ A i j = none ∧ a = min i j ∧ b = max i j := by
  refine ⟨?_, ?_, ?_⟩
  · simp only [describe, List.map_map]
    have : ((fun x : Nat × List Term => x.1) ∘ fun i => (i, terms rnd n i (A i))) = id := rfl
    rw [this, List.map_id]
    exact List.nodup_range.filter _
  · intro i
    simp only [describe, List.mem_map, List.mem_filter, List.mem_range, Bool.not_eq_true', exogenous_iff]
    constructor
    · rintro ⟨_, ⟨k, hk, rfl⟩, rfl⟩; exact hk
    · intro h; exact ⟨_, ⟨i, h, rfl⟩, rfl⟩
  · intro i ts h
    simp only [describe, List.mem_map, List.mem_filter, List.mem_range, Prod.mk.injEq] at h
    obtain ⟨k, -, rfl, rfl⟩ := h
    constructor
    · intro c j
      rw [mem_terms]
      simp only [term_fixed]
      constructor
      · rintro ⟨j', hj, rfl, h⟩; exact ⟨hj, h⟩
      · rintro ⟨hj, h⟩; exact ⟨j, hj, rfl, h⟩
    · intro a b
      rw [mem_terms]
      simp only [term_latent]

/-- Every unknown pair has one latent variable, declared once; it is in the equations of both variables if both entries
are unknown. -/
theorem C134_latents (rnd : ℚ → ℚ) (n : Nat) (A : Nat → Nat → Option ℚ) (ordinal : Nat → Int) :
    (describe rnd n A ordinal).latents.Nodup ∧
    ∀ a b, (a, b) ∈ (describe rnd n A ordinal).latents ↔ a ≤ b ∧ b < n ∧ (A a b = none ∨ A b a = none) := by
  have hfold := foldl_addLatent (ts := (describe rnd n A ordinal).equations.flatMap (·.2)) (names := []) List.nodup_nil
  have hdef : (describe rnd n A ordinal).latents = ((describe rnd n A ordinal).equations.flatMap (·.2)).foldl addLatent [] := rfl
  rw [hdef]
  refine ⟨hfold.1, fun a b => ?_⟩
  rw [hfold.2 (a, b)]
  simp only [List.not_mem_nil, false_or, List.mem_flatMap, Prod.exists]
  obtain ⟨-, h1, h2⟩ := C134_equations rnd n A ordinal
  constructor
  · rintro ⟨i, ts, hm, ht⟩
    obtain ⟨j, hj, hn, rfl, rfl⟩ := ((h2 i ts hm).2 a b).1 ht
    have hi : i < n := ((h1 i).1 (List.mem_map.2 ⟨(i, ts), hm, rfl⟩)).1
    refine ⟨min_le_max, max_lt hi hj, ?_⟩
    rcases le_total i j with h | h
    · rw [min_eq_left h, max_eq_right h]; exact .inl hn
    · rw [min_eq_right h, max_eq_left h]; exact .inr hn
  · rintro ⟨hab, hb, hn⟩
    have key : ∀ i j, i < n → j < n → A i j = none → min i j = a → max i j = b → ∃ i ts,
        (i, ts) ∈ (describe rnd n A ordinal).equations ∧ Term.latent a b ∈ ts := by
      intro i j hi hj hij e1 e2
      have := (h1 i).2 ⟨hi, j, hj, .inl hij⟩
      obtain ⟨⟨i', ts⟩, hm, he⟩ := List.mem_map.1 this
      simp only at he
      subst he
      exact ⟨i', ts, hm, ((h2 i' ts hm).2 a b).2 ⟨j, hj, hij, e1.symm, e2.symm⟩⟩
    rcases hn with hn | hn
    · exact key a b (lt_of_le_of_lt hab hb) hb hn (min_eq_left hab) (max_eq_right hab)
    · exact key b a hb (lt_of_le_of_lt hab hb) hn (min_eq_right hab) (max_eq_left hab)

/-- Variables flagged with 0 or 1 are declared ordinal exactly if they are flagged. -/
theorem C134_ordinals (rnd : ℚ → ℚ) (n : Nat) (A : Nat → Nat → Option ℚ) {ordinal : Nat → Int} (h0 : ∀ i, i < n → 0 ≤ ordinal i)
    (i : Nat) : i ∈ (describe rnd n A ordinal).ordinals ↔ i < n ∧ ordinal i ≠ 0 := by
  simp only [describe]
  have hnn : ∀ x ∈ (List.range n).map ordinal, 0 ≤ x := by
    intro x hx
    obtain ⟨k, hk, rfl⟩ := List.mem_map.1 hx
    exact h0 k (List.mem_range.1 hk)
  by_cases hpos : 0 < ((List.range n).map ordinal).sum
  · rw [if_pos hpos]; simp
  · rw [if_neg hpos]
    simp only [List.not_mem_nil, false_iff, not_and, not_not]
    intro hi
    have hz : ((List.range n).map ordinal).sum = 0 := le_antisymm (not_lt.1 hpos) (List.sum_nonneg hnn)
    have hle : ordinal i ≤ ((List.range n).map ordinal).sum :=
      List.single_le_sum hnn _ (List.mem_map_of_mem (List.mem_range.2 hi))
    have := h0 i hi
    omega

/-- `0 → 1`, an unknown relation between `1` and `2`, and a tiny coefficient `0 → 2`. -/
def exA : Nat → Nat → Option ℚ := fun i j =>
  if (i, j) = (1, 0) then some (1 / 2) else if (i, j) = (1, 2) ∨ (i, j) = (2, 1) then none
  else if (i, j) = (2, 0) then some (1 / 5000000) else some 0

/-- Rounding to six decimals, ties down. -/
def rnd6 (x : ℚ) : ℚ := (⌈x * 1000000 - 1 / 2⌉ : ℤ) / 1000000

theorem rnd6_rounds : RoundsSix rnd6 := by
  intro x
  refine ⟨?_, ⌈x * 1000000 - 1 / 2⌉, rfl⟩
  have h1 := Int.le_ceil (x * 1000000 - 1 / 2)
  have h2 := Int.ceil_lt_add_one (x * 1000000 - 1 / 2)
  unfold rnd6
  rw [abs_le]
  constructor <;> linarith

example : (describe rnd6 3 exA (fun i => if i = 2 then 1 else 0)) =
    { equations := [(1, [.fixed (1 / 2) 0, .latent 1 2]), (2, [.fixed 0 0, .latent 1 2])], latents := [(1, 2)], ordinals := [2] } := by
  decide +kernel

/-! ### C135: the coefficients that are evaluated -/

/-- The evaluated coefficients are the given ones up to half of the sixth decimal, and exactly the given ones if those have
at most six decimals. -/
theorem C135_coefficients_partial {rnd : ℚ → ℚ} (hr : RoundsSix rnd) {n : Nat} {A : Nat → Nat → Option ℚ} {ordinal : Nat → Int}
    {i j : Nat} {ts : List Term} (h : (i, ts) ∈ (describe rnd n A ordinal).equations) {c : ℚ} (hc : Term.fixed c j ∈ ts) :
    ∃ x, A i j = some x ∧ |c - x| ≤ 1 / 2000000 ∧ ((∃ k : ℤ, x = k / 1000000) → c = x) := by
  obtain ⟨-, x, hx, -, rfl⟩ := (((C134_equations rnd n A ordinal).2.2 i ts h).1 c j).1 hc
  refine ⟨x, hx, (hr x).1, ?_⟩
  rintro ⟨k, hk⟩
  obtain ⟨h1, m, hm⟩ := hr x
  rw [hm, hk] at h1 ⊢
  have h2 : |(m : ℚ) - k| ≤ 1 / 2 := by
    have e : (m : ℚ) / 1000000 - k / 1000000 = (m - k) / 1000000 := by ring
    rw [e, abs_div] at h1
    have : |(1000000 : ℚ)| = 1000000 := abs_of_pos (by norm_num)
    rw [this, div_le_iff₀ (by norm_num)] at h1
    linarith
  have h3 : m = k := by
    have : |m - k| < 1 := by
      have : ((|m - k| : ℤ) : ℚ) < 1 := by push_cast; linarith
      exact_mod_cast this
    have := Int.abs_lt_one_iff.1 this
    omega
  rw [h3]

/-- But every other coefficient is changed, and coefficients below half of the sixth decimal, which are part of the graph,
are evaluated as zero. -/
theorem C135_coefficients_changed {rnd : ℚ → ℚ} (hr : RoundsSix rnd) {n : Nat} {A : Nat → Nat → Option ℚ} {ordinal : Nat → Int}
    {i j : Nat} (hi : i < n) (hj : j < n) {x : ℚ} (hA : A i j = some x) (hx : 1 / 100000000 < |x|) (hk : ∀ k : ℤ, x ≠ k / 1000000) :
    ∃ ts, (i, ts) ∈ (describe rnd n A ordinal).equations ∧ Term.fixed x j ∉ ts ∧
      (|x| < 1 / 2000000 → Term.fixed 0 j ∈ ts) := by
  obtain ⟨-, h1, h2⟩ := C134_equations rnd n A ordinal
  obtain ⟨⟨i', ts⟩, hm, he⟩ := List.mem_map.1 ((h1 i).2 ⟨hi, j, hj, .inr ⟨x, hA, hx⟩⟩)
  simp only at he
  subst he
  refine ⟨ts, hm, ?_, ?_⟩
  · intro hc
    obtain ⟨-, y, hy, -, hxy⟩ := ((h2 i' ts hm).1 x j).1 hc
    rw [hA] at hy
    cases hy
    obtain ⟨-, k, hk'⟩ := hr x
    exact hk k (hxy.trans hk')
  · intro hs
    refine ((h2 i' ts hm).1 0 j).2 ⟨hj, x, hA, hx, ?_⟩
    obtain ⟨h3, k, hk'⟩ := hr x
    have h4 : |rnd x| < 1 / 1000000 := by
      have : |rnd x| ≤ |rnd x - x| + |x| := by
        have := abs_add_le (rnd x - x) x; simpa using this
      linarith
    rw [hk', abs_div, abs_of_pos (by norm_num : (0 : ℚ) < 1000000), div_lt_div_iff_of_pos_right (by norm_num)] at h4
    have h5 : |k| < 1 := by exact_mod_cast h4
    have h6 : k = 0 := Int.abs_lt_one_iff.1 h5
    rw [hk', h6]; simp

example : ∃ ts, (2, ts) ∈ (describe rnd6 3 exA (fun _ => 0)).equations ∧ Term.fixed 0 0 ∈ ts := by
  obtain ⟨ts, h1, -, h2⟩ := C135_coefficients_changed (ordinal := fun _ => 0) rnd6_rounds (n := 3) (A := exA) (i := 2) (j := 0)
    (x := 1 / 5000000) (by decide) (by decide) (by decide +kernel) (by norm_num) (by
      intro k hk
      have : (k : ℚ) = 1 / 5 := by linarith
      have h5 : (5 * k : ℚ) = 1 := by linarith
      have : (5 * k : ℤ) = 1 := by exact_mod_cast h5
      omega)
  exact ⟨ts, h1, h2 (by norm_num)⟩

end Verif.DataUtils
