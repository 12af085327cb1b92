import Verif.Proofs.LimLoss
import Mathlib.Algebra.Order.Field.Rat
import Mathlib.Algebra.Field.Rat
import Mathlib.Tactic.NormNum
import Mathlib.Tactic.IntervalCases
import Mathlib.Data.Rat.Floor

/-! Properties of LiM and of the constraint shared with LiNA. -/
set_option autoImplicit false
set_option linter.unusedSectionVars false
namespace Verif.Lim

variable {K : Type} [Field K] [LinearOrder K] [IsStrictOrderedRing K]

/-! ### C42 -/

/-- **C42.** `h` is never negative. -/
theorem C42_nonneg (d : Nat) (hd : 0 < d) (W : Mat K) : 0 ≤ hVal d W := hVal_nonneg d W hd

/-- **C42.** `h(W) = 0` exactly when the graph of `W` has no directed cycle (whichever way the edges are read). -/
theorem C42_zero_iff_acyclic (d : Nat) (hd : 0 < d) (W : Mat K) :
    (hVal d W = 0 ↔ Acyclic (Edge d W 0)) ∧ (hVal d W = 0 ↔ Acyclic (Edge d (fun i j => W j i) 0)) := by
  constructor
  · rw [hVal_zero_iff d W hd, acyclic_edgeLim]
  · rw [hVal_zero_iff d W hd]
    have : edgeLim d W = Edge d (fun i j => W j i) 0 := by
      funext a b; exact propext (edgeLim_iff d W a b)
    rw [this]

/-- **C42.** The value is the one of the literature, `tr((I + W∘W/d)^d) - d`. -/
theorem C42_trace (d : Nat) (hd : 0 < d) (W : Mat K) :
    hVal d W = Matrix.trace ((1 + (1 / (d : K)) • (toM d W).map (fun x => x * x)) ^ d) - d := by
  rw [hVal_eq d W hd, Finset.sum_sub_distrib]
  have h1 : toM d (mOf d W) = 1 + (1 / (d : K)) • (toM d W).map (fun x => x * x) := by
    ext i j
    simp [toM, mOf, eye, Matrix.one_apply, Fin.ext_iff, div_eq_inv_mul]
  rw [← h1, ← toM_mpow]
  congr 1
  · simp [Matrix.trace, toM, Finset.sum_range]
  · simp

/-- A larger weight never lowers `h`; in particular dropping edges never raises it. -/
theorem C42_monotone (d : Nat) (hd : 0 < d) (W V : Mat K) (h : ∀ a b, a < d → b < d → |W a b| ≤ |V a b|) :
    hVal d W ≤ hVal d V := hVal_mono d W V hd h

/-- A 2-cycle is recognised, a chain is not. -/
example : hVal 2 (fun i j => if i ≠ j then (1 : ℚ) else 0) = 1 / 2 ∧
    hVal 3 (fun i j => if j = i + 1 then (2 : ℚ) else 0) = 0 := by decide +kernel

/-! ### C43 -/

theorem fit_global (d : Nat) (c : Cfg K) (fuel : Nat) (e : Env K) (og : Bool) (lt lt' : LossType) (W : Mat K)
    (h : fit d c fuel e og lt = some (Except.ok (lt', W))) :
    ∃ W0, globalPhase d c fuel (e.opt lt) e.rnd = some (Except.ok W0) ∧
      W = (if og then W0 else localSearch d c.hTol e.score W0) ∧
      lt' = (if og then lt else LossType.mixedDag) := by
  unfold fit at h
  cases hg : globalPhase d c fuel (e.opt lt) e.rnd with
  | none => rw [hg] at h; cases h
  | some r =>
    rw [hg] at h
    cases r with
    | error x => cases h
    | ok W0 =>
      refine ⟨W0, rfl, ?_⟩
      cases og with
      | true =>
        simp only [Option.map_some, Except.map, if_true, Option.some.injEq, Except.ok.injEq, Prod.mk.injEq] at h
        exact ⟨h.2.symm, h.1.symm⟩
      | false =>
        simp only [Option.map_some, Except.map, Bool.false_eq_true, if_false, Option.some.injEq, Except.ok.injEq,
          Prod.mk.injEq] at h
        exact ⟨h.2.symm, h.1.symm⟩

theorem global_threshold (d : Nat) (c : Cfg K) (fuel : Nat) (opt : K → K → Dbl K → Dbl K) (rnd : Nat → Dbl K)
    (W : Mat K) (h : globalPhase d c fuel opt rnd = some (Except.ok W)) : ∃ w, W = threshold c.wThr (adj w) := by
  unfold globalPhase at h
  cases hg : outer d c fuel opt rnd c.maxIter (initSt rnd) with
  | none => rw [hg] at h; cases h
  | some r =>
    rw [hg] at h
    cases r with
    | error x => cases h
    | ok s =>
      simp only [Option.map_some, Except.map, Option.some.injEq, Except.ok.injEq] at h
      exact ⟨s.w, h.symm⟩

/-- **C43 (partial).** If the tolerance is below `(w_threshold² / d)^d`, the returned graph is acyclic whenever the
matrix of the optimisation phase meets the tolerance.  Missing: other tolerances and runs in which the optimisation
stops without meeting it, where the statement is false (`C43_default_cycle`, `C43_no_convergence`). -/
theorem C43_acyclic_partial (d : Nat) (hd : 0 < d) (c : Cfg K) (fuel : Nat) (e : Env K) (og : Bool)
    (lt lt' : LossType) (W W0 : Mat K) (h : fit d c fuel e og lt = some (Except.ok (lt', W)))
    (hg : globalPhase d c fuel (e.opt lt) e.rnd = some (Except.ok W0)) (hc : hVal d W0 ≤ c.hTol)
    (hθ : 0 < c.wThr) (hθ1 : c.wThr ≤ 1) (htol : c.hTol < (c.wThr * c.wThr / d) ^ d) :
    Acyclic (Edge d (fun i j => W j i) 0) := by
  obtain ⟨W0', hg', hW, _⟩ := fit_global d c fuel e og lt lt' W h
  rw [hg] at hg'
  simp only [Option.some.injEq, Except.ok.injEq] at hg'
  subst hg'
  obtain ⟨w, hw⟩ := global_threshold d c fuel _ _ W0 hg
  have hbig0 : BigEdges c.wThr W0 := by subst hw; intro a b hab; exact threshold_ne _ _ _ _ hab
  have key : BigEdges c.wThr W ∧ hVal d W ≤ c.hTol := by
    cases og with
    | true => simp only [if_true] at hW; subst hW; exact ⟨hbig0, hc⟩
    | false =>
      simp only [Bool.false_eq_true, if_false] at hW
      subst hW
      refine ⟨big_localSearch d _ _ W0 _ hθ1 hbig0, ?_⟩
      rcases acc_localSearch d c.hTol e.score W0 with h | h
      · have h2 : localSearch d c.hTol e.score W0 = W0 := h.2
        rw [h2]; exact hc
      · exact h.2.2.le
  have hac : Acyclic (edgeLim d W) := by
    by_contra hn
    have hd1 : (1 : K) ≤ d := by exact_mod_cast hd
    have h1 : c.wThr * c.wThr ≤ (d : K) := by nlinarith
    have := hVal_lower d W hd c.wThr hθ h1 (fun a b _ _ hab => key.1 a b hab) hn
    exact absurd (lt_of_le_of_lt key.2 htol) (not_lt.2 this)
  have : edgeLim d W = Edge d (fun i j => W j i) 0 := by
    funext a b; exact propext (edgeLim_iff d W a b)
  rw [← this]; exact hac

/-- With the local search, a result that differs from the matrix of the optimisation phase is acyclic under the
same condition on the tolerance, whether or not the optimisation converged. -/
theorem C43_changed_acyclic_partial (d : Nat) (hd : 0 < d) (c : Cfg K) (fuel : Nat) (e : Env K)
    (lt lt' : LossType) (W W0 : Mat K) (h : fit d c fuel e false lt = some (Except.ok (lt', W)))
    (hg : globalPhase d c fuel (e.opt lt) e.rnd = some (Except.ok W0)) (hne : W ≠ W0)
    (hθ : 0 < c.wThr) (hθ1 : c.wThr ≤ 1) (htol : c.hTol ≤ (c.wThr * c.wThr / d) ^ d) :
    Acyclic (Edge d (fun i j => W j i) 0) := by
  obtain ⟨W0', hg', hW, _⟩ := fit_global d c fuel e false lt lt' W h
  rw [hg] at hg'
  simp only [Option.some.injEq, Except.ok.injEq] at hg'
  subst hg'
  simp only [Bool.false_eq_true, if_false] at hW
  obtain ⟨w, hw⟩ := global_threshold d c fuel _ _ W0 hg
  have hbig0 : BigEdges c.wThr W0 := by subst hw; intro a b hab; exact threshold_ne _ _ _ _ hab
  have hbig : BigEdges c.wThr W := by subst hW; exact big_localSearch d _ _ W0 _ hθ1 hbig0
  have hlt : hVal d W < c.hTol := by
    rcases acc_localSearch d c.hTol e.score W0 with h' | h'
    · exact absurd (hW.trans h'.2) hne
    · subst hW; exact h'.2.2
  have hac : Acyclic (edgeLim d W) := by
    by_contra hn
    have hd1 : (1 : K) ≤ d := by exact_mod_cast hd
    have h1 : c.wThr * c.wThr ≤ (d : K) := by nlinarith
    have := hVal_lower d W hd c.wThr hθ h1 (fun a b _ _ hab => hbig a b hab) hn
    exact absurd (lt_of_lt_of_le hlt htol) (not_lt.2 this)
  have : edgeLim d W = Edge d (fun i j => W j i) 0 := by
    funext a b; exact propext (edgeLim_iff d W a b)
  rw [← this]; exact hac

/-- The default settings (lim.py:30-38). -/
def defaults : Cfg ℚ := ⟨150, 1 / 10 ^ 8, 10 ^ 16, 1 / 10⟩

/-- With the default settings the condition of `C43_acyclic_partial` holds for up to three variables. -/
example (d : Nat) (h0 : 0 < d) (h3 : d ≤ 3) :
    defaults.hTol < (defaults.wThr * defaults.wThr / (d : ℚ)) ^ d ∧ 0 < defaults.wThr ∧ defaults.wThr ≤ 1 := by
  unfold defaults
  interval_cases d <;> norm_num

/-- Four variables in a cycle, every weight at the default edge threshold. -/
def cycle4 : Mat ℚ := fun i j => if j = (i + 1) % 4 then 1 / 10 else 0

/-- An optimiser that stops at that matrix; constant score. -/
def cycleEnv : Env ℚ := ⟨fun _ _ _ _ => (cycle4, fun _ _ => 0), fun _ => (fun _ _ => 0, fun _ _ => 0), fun _ => 0⟩

theorem cycle4_h : hVal 4 (adj (cycle4, fun _ _ => (0 : ℚ))) ≤ defaults.hTol ∧
    hVal 4 (adj (cycle4, fun _ _ => (0 : ℚ))) ≠ 0 := by
  unfold defaults
  decide +kernel

/-- **C43 fails for four variables with the default settings**: a directed cycle passes the tolerance and is
returned, with and without the local search. -/
theorem C43_default_cycle (og : Bool) : ∃ lt' W, fit 4 defaults 1 cycleEnv og LossType.mixed = some (Except.ok (lt', W)) ∧
    ¬ Acyclic (Edge 4 (fun i j => W j i) 0) := by
  have hg := globalPhase_first 4 defaults 1 (cycleEnv.opt LossType.mixed) cycleEnv.rnd (by decide) (by decide)
    (by unfold defaults; norm_num) cycle4_h
  have hW : ∀ i j, threshold defaults.wThr (adj (cycleEnv.opt LossType.mixed 1 0 (cycleEnv.rnd 0))) i j =
      cycle4 i j := by
    intro i j
    simp only [threshold, cycleEnv, adj, sub_zero, cycle4, defaults]
    split <;> norm_num
  have hcyc : ∀ W : Mat ℚ, (∀ i j, W i j = cycle4 i j) → ¬ Acyclic (Edge 4 (fun i j => W j i) 0) := by
    intro W hW hac
    have e : ∀ a b, a < 4 → b < 4 → b = (a + 1) % 4 → Edge 4 (fun i j => W j i) 0 a b := by
      intro a b ha hb hab
      refine ⟨ha, hb, ?_⟩
      show 0 < |W a b|
      rw [hW a b, cycle4, if_pos hab]
      norm_num
    exact hac 0 (((Relation.TransGen.single (e 0 1 (by decide) (by decide) rfl)).tail
      (e 1 2 (by decide) (by decide) rfl)).tail (e 2 3 (by decide) (by decide) rfl)
      |>.tail (e 3 0 (by decide) (by decide) rfl))
  unfold fit
  rw [hg]
  cases og with
  | true => exact ⟨_, _, rfl, hcyc _ hW⟩
  | false =>
    refine ⟨_, _, rfl, hcyc _ ?_⟩
    intro i j
    show localSearch 4 defaults.hTol cycleEnv.score _ i j = _
    rcases acc_localSearch 4 defaults.hTol cycleEnv.score
      (threshold defaults.wThr (adj (cycleEnv.opt LossType.mixed 1 0 (cycleEnv.rnd 0)))) with h | h
    · have h2 := h.2
      unfold localSearch
      rw [h2]; exact hW i j
    · exact absurd h.2.1 (lt_irrefl _)

/-- **C43 fails whatever the tolerance** when the optimiser does not converge: one pass, the optimiser stops at a
2-cycle, and that matrix is returned. -/
theorem C43_no_convergence (hTol : ℚ) (h0 : hTol < 1 / 2) : ∃ (e : Env ℚ) (lt' : LossType) (W : Mat ℚ),
    fit 2 ⟨1, hTol, 10 ^ 16, 1 / 10⟩ 1 e true LossType.mixed = some (Except.ok (lt', W)) ∧
      ¬ Acyclic (Edge 2 (fun i j => W j i) 0) := by
  have hv : hVal 2 (adj ((fun i j => if i ≠ j then (1 : ℚ) else 0), fun _ _ => (0 : ℚ))) = 1 / 2 := by decide +kernel
  have ha : ¬ absSum 2 (adj ((fun i j => if i ≠ j then (1 : ℚ) else 0), fun _ _ => (0 : ℚ))) < 9 / 100 := by
    decide +kernel
  refine ⟨⟨fun _ _ _ _ => (fun i j => if i ≠ j then 1 else 0, fun _ _ => 0), fun _ => (fun _ _ => 0, fun _ _ => 0),
    fun _ => 0⟩, LossType.mixed, threshold (1 / 10) (adj ((fun i j => if i ≠ j then (1 : ℚ) else 0), fun _ _ => (0 : ℚ))),
    ?_, ?_⟩
  · unfold fit globalPhase outer inner initSt
    simp only [geQuarter, Bool.false_eq_true, if_false, show (1 : ℚ) < 10 ^ 16 by norm_num, if_true]
    unfold afterInner
    simp only [hv, show ¬ ((1 : ℚ) / 2 ≤ hTol ∧ (1 : ℚ) / 2 ≠ 0) by intro h; linarith [h.1], if_false,
      show ¬ ((10 : ℚ) ^ 16 * (1 / 1000000) ≤ 1 ∧ (100000 : ℚ) < 1 / 2) by norm_num,
      show ¬ ((10 : ℚ) ^ 16 ≤ 1) by norm_num, ha]
    rfl
  · intro hac
    have e : ∀ a b, a < 2 → b < 2 → a ≠ b → Edge 2 (fun i j => threshold (1 / 10)
        (adj ((fun i j => if i ≠ j then (1 : ℚ) else 0), fun _ _ => (0 : ℚ))) j i) 0 a b := by
      intro a b ha hb hab
      refine ⟨ha, hb, ?_⟩
      simp only [threshold, adj, if_pos hab, sub_zero, abs_one]
      norm_num
    exact hac 0 ((Relation.TransGen.single (e 0 1 (by decide) (by decide) (by decide))).tail
      (e 1 0 (by decide) (by decide) (by decide)))

/-- LiNA has the same property: a result meeting the tolerance is acyclic if the tolerance is small enough. -/
theorem C43_lina_partial (d : Nat) (hd : 0 < d) (c : Cfg K) (fuel : Nat) (opt : K → K → Dbl K → Dbl K) (W : Mat K)
    (h : linaEstimate d c fuel opt = some (Except.ok W)) (hc : hVal d W ≤ c.hTol)
    (hθ : 0 < c.wThr) (hθ1 : c.wThr ≤ 1) (htol : c.hTol < (c.wThr * c.wThr / d) ^ d) :
    Acyclic (Edge d (fun i j => W j i) 0) := by
  unfold linaEstimate at h
  cases hg : linaOuter d c fuel opt c.maxIter (fun _ _ => 0, fun _ _ => 0) 1 0 none with
  | none => rw [hg] at h; cases h
  | some r =>
    rw [hg] at h
    cases r with
    | error x => cases h
    | ok w =>
      simp only [Option.map_some, Except.map, Option.some.injEq, Except.ok.injEq] at h
      subst h
      have hac : Acyclic (edgeLim d (threshold c.wThr (adj w))) := by
        by_contra hn
        have hd1 : (1 : K) ≤ d := by exact_mod_cast hd
        have h1 : c.wThr * c.wThr ≤ (d : K) := by nlinarith
        have := hVal_lower d _ hd c.wThr hθ h1 (fun a b _ _ hab => threshold_ne _ _ _ _ hab) hn
        exact absurd (lt_of_le_of_lt hc htol) (not_lt.2 this)
      have : edgeLim d (threshold c.wThr (adj w)) = Edge d (fun i j => threshold c.wThr (adj w) j i) 0 := by
        funext a b; exact propext (edgeLim_iff d _ a b)
      rw [← this]; exact hac

/-- LiNA's defaults (threshold 0.3) satisfy the condition for up to four latent factors. -/
example (d : Nat) (h0 : 0 < d) (h3 : d ≤ 4) : (1 / 10 ^ 8 : ℚ) < ((3 / 10) * (3 / 10) / (d : ℚ)) ^ d := by
  interval_cases d <;> norm_num

/-! ### C80: gradients -/

/-- **C80.** The gradient of the constraint, `G_h.T * W * 2`, is the gradient of `h`. -/
theorem C80_constraint (d : Nat) (hd : 0 < d) (W : Mat ℝ) : IsGrad d (hVal d) (hGrad d W) W := hVal_isGrad d hd W

theorem C80_logistic (n d : Nat) (X W : Mat ℝ) :
    IsGrad d (logisticLoss n d X).loss ((logisticLoss n d X).grad W) W := by
  have := isGrad_const_mul (1 / n : ℝ) (isGrad_total n d X W (fun s j x => logaddexp0 x - X s j * x)
    (fun s j => sigmoid (pred d X W s j) - X s j) (fun s j => by
      have h := (logaddexp0_deriv (pred d X W s j)).sub ((hasDerivAt_id (pred d X W s j)).const_mul (X s j))
      refine h.congr_deriv ?_
      simp))
  exact this

theorem C80_l2 (n d : Nat) (X W : Mat ℝ) : IsGrad d (l2Loss n d X).loss ((l2Loss n d X).grad W) W := by
  have := isGrad_const_mul (1 / 2 / n : ℝ) (isGrad_total n d X W (fun s j x => (X s j - x) ^ 2)
    (fun s j => -2 * (X s j - pred d X W s j)) (fun s j => by
      have h := ((hasDerivAt_id (pred d X W s j)).const_sub (X s j)).pow 2
      refine h.congr_deriv ?_
      simp))
  refine isGrad_congr this (fun i j _ _ => ?_)
  simp only [l2Loss, xT]
  rw [Finset.mul_sum, Finset.mul_sum]
  exact Finset.sum_congr rfl (fun s _ => by ring)

theorem C80_lina_poisson (n d : Nat) (X W : Mat ℝ) :
    IsGrad d (linaPoisson n d X).loss ((linaPoisson n d X).grad W) W := by
  have := isGrad_const_mul (1 / n : ℝ) (isGrad_total n d X W (fun s j x => Real.exp x - X s j * x)
    (fun s j => Real.exp (pred d X W s j) - X s j) (fun s j => by
      have h := (Real.hasDerivAt_exp (pred d X W s j)).sub ((hasDerivAt_id (pred d X W s j)).const_mul (X s j))
      refine h.congr_deriv ?_
      simp))
  exact this

theorem laplace_total (n d : Nat) (X W : Mat ℝ) :
    IsGrad d (fun V => total n d (fun s j => - Real.log (Real.cosh (X s j - pred d X V s j))))
      (xT n X (fun s j => Real.tanh (X s j - pred d X W s j))) W :=
  isGrad_total n d X W (fun s j x => - Real.log (Real.cosh (X s j - x))) _ (fun s j => by
    have h := (logcosh_deriv (X s j) (pred d X W s j)).neg
    refine h.congr_deriv ?_
    simp)

theorem C80_lina_laplace (n d : Nat) (X W : Mat ℝ) :
    IsGrad d (linaLaplace n d X).loss ((linaLaplace n d X).grad W) W := by
  have := isGrad_const_mul (-1 : ℝ) (laplace_total n d X W)
  unfold linaLaplace
  simpa using this

/-- **C80.** Hence LiNA's objective (every loss type) is optimised with its true gradient. -/
theorem C80_lina_objective (n d : Nat) (hd : 0 < d) (X : Mat ℝ) (l : LossG)
    (hl : l = l2Loss n d X ∨ l = logisticLoss n d X ∨ l = linaPoisson n d X ∨ l = linaLaplace n d X)
    (rho alpha lambda1 : ℝ) (w : Dbl ℝ) :
    IsGrad2 d (objective d l rho alpha lambda1) (objectiveGrad d l rho alpha lambda1 w) w := by
  refine objective_isGrad d hd l rho alpha lambda1 w ?_
  rcases hl with rfl | rfl | rfl | rfl
  · exact C80_l2 n d X _
  · exact C80_logistic n d X _
  · exact C80_lina_poisson n d X _
  · exact C80_lina_laplace n d X _

/-- **C80.** For LiM's default loss the gradient is right when all variables are continuous. -/
theorem C80_mixed_continuous_partial (n d : Nat) (X W : Mat ℝ) :
    IsGrad d (mixedLoss n d X (fun _ => true)).loss ((mixedLoss n d X (fun _ => true)).grad W) W := by
  have := isGrad_const_mul (-1 / n : ℝ) (laplace_total n d X W)
  have h2 : (mixedLoss n d X (fun _ => true)).loss =
      fun V => -1 / n * total n d (fun s j => - Real.log (Real.cosh (X s j - pred d X V s j))) := by
    funext V
    simp [mixedLoss, total]
  rw [h2]
  refine isGrad_congr this (fun i j _ _ => ?_)
  simp [mixedLoss]
  ring

/-- **C80 fails for LiM with discrete variables**: if all variables are discrete, the returned gradient is the
negative of the gradient of the loss, for all data. -/
theorem C80_mixed_discrete_sign (n d : Nat) (X W : Mat ℝ) :
    IsGrad d (mixedLoss n d X (fun _ => false)).loss (fun i j => - (mixedLoss n d X (fun _ => false)).grad W i j) W := by
  have := isGrad_const_mul (-1 : ℝ) (C80_logistic n d X W)
  have h2 : (mixedLoss n d X (fun _ => false)).loss = fun V => -1 * (logisticLoss n d X).loss V := by
    funext V
    simp [mixedLoss, logisticLoss, total]
    ring
  rw [h2]
  refine isGrad_congr this (fun i j _ _ => ?_)
  simp [mixedLoss, logisticLoss]

/-- **C80 fails for LiM's "laplace"**: the sign is wrong for all data. -/
theorem C80_lim_laplace_sign (n d : Nat) (X W : Mat ℝ) :
    IsGrad d (limLaplace n d X).loss (fun i j => - (limLaplace n d X).grad W i j) W := by
  refine isGrad_congr (isGrad_const_mul (-1 / n : ℝ) (laplace_total n d X W)) (fun i j _ _ => ?_)
  simp [limLaplace]
  ring

/-- The gradient of LiM's "poisson" loss: the data term couples every pair of variables, because
`np.sum(X.T @ M)` adds all entries of a `d × d` matrix. -/
theorem C80_lim_poisson_true (n d : Nat) (X W : Mat ℝ) (c : ℝ) :
    IsGrad d (limPoisson n d X c).loss
      (fun i j => 1 / n * (-(∑ k ∈ Finset.range d, xT n X X i k) +
        xT n X (fun s j => Real.exp (pred d X W s j)) i j)) W := by
  have h1 := isGrad_total n d X W (fun s j x => -(∑ k ∈ Finset.range d, X s k) * x)
    (fun s _ => -(∑ k ∈ Finset.range d, X s k)) (fun s j => by
      simpa using (hasDerivAt_id (pred d X W s j)).const_mul (-(∑ k ∈ Finset.range d, X s k)))
  have h2 := isGrad_total n d X W (fun s j x => Real.exp x) (fun s j => Real.exp (pred d X W s j))
    (fun s j => Real.hasDerivAt_exp _)
  have h3 := isGrad_const_mul (1 / n : ℝ) (isGrad_add (isGrad_add h1 h2) (isGrad_const c W))
  have hf : (limPoisson n d X c).loss = fun V => 1 / n * ((total n d fun s j => -(∑ k ∈ Finset.range d, X s k) * pred d X V s j) +
      (total n d fun s j => Real.exp (pred d X V s j)) + c) := by
    funext V
    show 1 / (n : ℝ) * (_ + _ + _) = _
    congr 3
    unfold total xT
    rw [← Finset.sum_neg_distrib]
    simp only [neg_mul, Finset.sum_neg_distrib, neg_inj, Finset.sum_mul]
    rw [show (∑ i ∈ Finset.range d, ∑ j ∈ Finset.range d, ∑ s ∈ Finset.range n, X s i * pred d X V s j) =
      ∑ i ∈ Finset.range d, ∑ s ∈ Finset.range n, ∑ j ∈ Finset.range d, X s i * pred d X V s j from
      Finset.sum_congr rfl (fun i _ => Finset.sum_comm)]
    rw [Finset.sum_comm]
    exact Finset.sum_congr rfl (fun s _ => Finset.sum_comm)
  rw [hf]
  refine isGrad_congr h3 (fun i j _ _ => ?_)
  simp only [add_zero]
  congr 2
  unfold xT
  rw [Finset.sum_comm, ← Finset.sum_neg_distrib]
  exact Finset.sum_congr rfl (fun s _ => by rw [mul_neg, Finset.mul_sum])

/-- The "poisson" gradient of LiM is right exactly when, for every pair `(i, j)`, the products of variable `i` with all
variables other than `j` add up to 0. -/
theorem C80_lim_poisson_iff (n d : Nat) (hn : 0 < n) (X W : Mat ℝ) (c : ℝ) :
    IsGrad d (limPoisson n d X c).loss ((limPoisson n d X c).grad W) W ↔
      ∀ i j, i < d → j < d → ∑ k ∈ (Finset.range d).erase j, ∑ s ∈ Finset.range n, X s i * X s k = 0 := by
  have hn' : (n : ℝ) ≠ 0 := by exact_mod_cast hn.ne'
  have hsplit : ∀ i j, j < d → ∑ k ∈ Finset.range d, xT n X X i k =
      (∑ k ∈ (Finset.range d).erase j, ∑ s ∈ Finset.range n, X s i * X s k) + xT n X X i j := by
    intro i j hj
    rw [← Finset.sum_erase_add _ _ (Finset.mem_range.2 hj)]
    rfl
  constructor
  · intro h i j hi hj
    have e := isGrad_unique h (C80_lim_poisson_true n d X W c) i j hi hj
    rw [hsplit i j hj] at e
    simp only [limPoisson] at e
    have e2 := mul_left_cancel₀ (one_div_ne_zero hn') e
    linarith
  · intro h
    refine isGrad_congr (C80_lim_poisson_true n d X W c) (fun i j hi hj => ?_)
    rw [hsplit i j hj, h i j hi hj]
    simp only [limPoisson, zero_add]

/-- Two variables, one sample with both values 1, no edges: all three returned gradients differ from the true
ones. -/
theorem C80_wrong_gradients :
    ¬ IsGrad 2 (limLaplace 1 2 (fun _ _ => 1)).loss ((limLaplace 1 2 (fun _ _ => 1)).grad (fun _ _ => 0)) (fun _ _ => 0) ∧
    ¬ IsGrad 2 (limPoisson 1 2 (fun _ _ => 1) 0).loss ((limPoisson 1 2 (fun _ _ => 1) 0).grad (fun _ _ => 0)) (fun _ _ => 0) ∧
    ¬ IsGrad 2 (mixedLoss 1 2 (fun _ _ => 1) (fun _ => false)).loss
      ((mixedLoss 1 2 (fun _ _ => 1) (fun _ => false)).grad (fun _ _ => 0)) (fun _ _ => 0) := by
  refine ⟨fun h => ?_, fun h => ?_, fun h => ?_⟩
  · have e := isGrad_unique h (C80_lim_laplace_sign 1 2 (fun _ _ => 1) (fun _ _ => 0)) 0 1 (by decide) (by decide)
    simp [limLaplace, xT, pred] at e
    have hpos : 0 < Real.tanh 1 := by
      rw [Real.tanh_eq_sinh_div_cosh]
      exact div_pos (Real.sinh_pos_iff.2 one_pos) (Real.cosh_pos 1)
    linarith
  · have e := isGrad_unique h (C80_lim_poisson_true 1 2 (fun _ _ => 1) (fun _ _ => 0) 0) 0 1 (by decide) (by decide)
    simp [limPoisson, xT, pred] at e
    norm_num at e
  · have e := isGrad_unique h (C80_mixed_discrete_sign 1 2 (fun _ _ => 1) (fun _ _ => 0)) 0 1 (by decide) (by decide)
    simp [mixedLoss, xT, pred, sigmoid] at e
    norm_num at e

/-! ### C81: the local search -/

/-- **C81.** The local search never returns a matrix with a larger score, a changed matrix has a strictly smaller
score and passes the acyclicity test. -/
theorem C81_improves (d : Nat) (hTol : K) (L : Mat K → K) (W : Mat K) :
    L (localSearch d hTol L W) ≤ L W ∧
      (localSearch d hTol L W ≠ W → L (localSearch d hTol L W) < L W ∧ hVal d (localSearch d hTol L W) < hTol) := by
  rcases acc_localSearch d hTol L W with h | h
  · have h2 : localSearch d hTol L W = W := h.2
    rw [h2]
    exact ⟨le_refl _, fun h => absurd rfl h⟩
  · exact ⟨h.2.1.le, fun _ => ⟨h.2.1, h.2.2⟩⟩

/-- **C81.** Apart from directions, the local search removes at most one adjacency and adds at most one. -/
theorem C81_skeleton (d : Nat) (hTol : K) (L : Mat K → K) (W : Mat K) :
    LosesAtMostOne W (localSearch d hTol L W) ∧ LosesAtMostOne (localSearch d hTol L W) W :=
  skeleton_localSearch d hTol L W

/-- A single edge is turned round when the score prefers it. -/
example : localSearch 2 (1 / 100 : ℚ) (fun V => if V 1 0 ≠ 0 then 0 else 1) (fun i j => if i = 0 ∧ j = 1 then 5 else 0) 1 0 = 1 ∧
    localSearch 2 (1 / 100 : ℚ) (fun V => if V 1 0 ≠ 0 then 0 else 1) (fun i j => if i = 0 ∧ j = 1 then 5 else 0) 0 1 = 0 := by
  decide +kernel

/-! ### C82: refitting -/

/-- **C82 is violated**: after a successful fit with local search every later fit optimises the "mixed_dag" loss,
whatever loss type was requested. -/
theorem C82_loss_type_lost (d : Nat) (c : Cfg K) (fuel : Nat) (e : Env K) (lt lt' : LossType) (W : Mat K)
    (h : fit d c fuel e false lt = some (Except.ok (lt', W))) : lt' = LossType.mixedDag := by
  obtain ⟨_, _, _, h3⟩ := fit_global d c fuel e false lt lt' W h
  simpa using h3

/-- With `only_global` the loss type is kept and a second fit repeats the first (given the same random numbers). -/
theorem C82_only_global_partial (d : Nat) (c : Cfg K) (fuel : Nat) (e : Env K) (lt lt' : LossType) (W : Mat K)
    (h : fit d c fuel e true lt = some (Except.ok (lt', W))) :
    fit d c fuel e true lt' = some (Except.ok (lt', W)) := by
  obtain ⟨_, _, _, h3⟩ := fit_global d c fuel e true lt lt' W h
  simp only [if_true] at h3
  subst h3
  exact h

/-- An optimiser whose answer depends on the loss type: `0 → 1` for "mixed", `1 → 0` otherwise (both within the
tolerance but not exactly acyclic, so that the loop stops at once). -/
def twoEnv : Env ℚ := ⟨fun lt _ _ _ => if lt = LossType.mixed
    then (fun i j => if i = 0 ∧ j = 1 then 1 else if i = 1 ∧ j = 0 then 1 / 10 ^ 6 else 0, fun _ _ => 0)
    else (fun i j => if i = 1 ∧ j = 0 then 1 else if i = 0 ∧ j = 1 then 1 / 10 ^ 6 else 0, fun _ _ => 0),
  fun _ => (fun _ _ => 0, fun _ _ => 0), fun _ => 0⟩

/-- **C82**: the same call repeated on the same object gives a different result. -/
theorem C82_history_dependent : ∃ W W' lt1 lt2, fit 2 defaults 1 twoEnv false LossType.mixed = some (Except.ok (lt1, W)) ∧
    fit 2 defaults 1 twoEnv false lt1 = some (Except.ok (lt2, W')) ∧ W 0 1 ≠ W' 0 1 := by
  have hm : ∀ lt, hVal 2 (adj (twoEnv.opt lt 1 0 (twoEnv.rnd 0))) ≤ defaults.hTol ∧
      hVal 2 (adj (twoEnv.opt lt 1 0 (twoEnv.rnd 0))) ≠ 0 := by
    intro lt
    cases lt <;> (unfold defaults; decide +kernel)
  have hg := fun lt => globalPhase_first 2 defaults 1 (twoEnv.opt lt) twoEnv.rnd (by decide) (by decide)
    (by unfold defaults; norm_num) (hm lt)
  have hl : ∀ W, localSearch 2 defaults.hTol twoEnv.score W = W := by
    intro W
    rcases acc_localSearch 2 defaults.hTol twoEnv.score W with h | h
    · exact h.2
    · exact absurd h.2.1 (lt_irrefl _)
  refine ⟨threshold defaults.wThr (adj (twoEnv.opt LossType.mixed 1 0 (twoEnv.rnd 0))),
    threshold defaults.wThr (adj (twoEnv.opt LossType.mixedDag 1 0 (twoEnv.rnd 0))),
    LossType.mixedDag, LossType.mixedDag, ?_, ?_, ?_⟩
  · unfold fit; rw [hg]; simp [Except.map, hl]
  · unfold fit; rw [hg]; simp [Except.map, hl]
  · decide +kernel

/-- `C43_acyclic_partial` applied to that run: two variables, default settings. -/
example : ∃ W lt, fit 2 defaults 1 twoEnv true LossType.mixed = some (Except.ok (lt, W)) ∧ W 0 1 = 1 ∧
    Acyclic (Edge 2 (fun i j => W j i) 0) := by
  have hm : hVal 2 (adj (twoEnv.opt LossType.mixed 1 0 (twoEnv.rnd 0))) ≤ defaults.hTol ∧
      hVal 2 (adj (twoEnv.opt LossType.mixed 1 0 (twoEnv.rnd 0))) ≠ 0 := by unfold defaults; decide +kernel
  have hg := globalPhase_first 2 defaults 1 (twoEnv.opt LossType.mixed) twoEnv.rnd (by decide) (by decide)
    (by unfold defaults; norm_num) hm
  have hf : fit 2 defaults 1 twoEnv true LossType.mixed = some (Except.ok (LossType.mixed,
      threshold defaults.wThr (adj (twoEnv.opt LossType.mixed 1 0 (twoEnv.rnd 0))))) := by
    unfold fit; rw [hg]; rfl
  refine ⟨_, _, hf, by decide +kernel, C43_acyclic_partial 2 (by decide) defaults 1 twoEnv true _ _ _ _ hf hg ?_
    (by unfold defaults; norm_num) (by unfold defaults; norm_num) (by unfold defaults; norm_num)⟩
  exact le_trans (hVal_mono 2 _ _ (by decide) (fun a b _ _ => threshold_abs _ _ a b)) hm.1

/-! ### C83: the loops -/

/-- **C83.** The optimisation loops end (if the optimiser does), for every optimiser and every random numbers. -/
theorem C83_terminates [Archimedean K] (d : Nat) (c : Cfg K) : ∃ N, ∀ fuel, N ≤ fuel →
    ∀ (e : Env K) (og : Bool) (lt : LossType), (fit d c fuel e og lt).isSome := by
  obtain ⟨N, hN⟩ := outer_terminates (K := K) d c
  refine ⟨N, fun fuel hf e og lt => ?_⟩
  unfold fit globalPhase
  rw [Option.isSome_map, Option.isSome_map]
  exact hN fuel hf _ _ _ _ (le_refl _)

/-- **C83 (partial).** The matrix of the optimisation phase is a thresholded solution of the optimiser, or random
start values.  Missing: that the second case cannot happen — it can, see `C83_random_result`. -/
theorem C83_solution_partial (d : Nat) (c : Cfg K) (fuel : Nat) (opt : K → K → Dbl K → Dbl K) (rnd : Nat → Dbl K)
    (W : Mat K) (h : globalPhase d c fuel opt rnd = some (Except.ok W)) :
    (∃ r a w, W = threshold c.wThr (adj (opt r a w))) ∨ (∃ k, W = threshold c.wThr (adj (rnd k))) := by
  unfold globalPhase at h
  cases hg : outer d c fuel opt rnd c.maxIter (initSt rnd) with
  | none => rw [hg] at h; cases h
  | some r =>
    rw [hg] at h
    cases r with
    | error x => cases h
    | ok s =>
      simp only [Option.map_some, Except.map, Option.some.injEq, Except.ok.injEq] at h
      subst h
      rcases outer_ok d c fuel opt rnd _ _ _ hg with ⟨h1, _⟩ | ⟨r, a, w, h1, _⟩ | ⟨k, h1⟩
      · right; exact ⟨0, by rw [h1]; rfl⟩
      · left; exact ⟨r, a, w, by rw [h1]⟩
      · right; exact ⟨k, by rw [h1]⟩

/-- **C83 is violated**: if the solution of the last pass is nearly zero, `fit` returns freshly drawn random
numbers instead of it. -/
theorem C83_random_result : ∃ (e : Env ℚ) (W : Mat ℚ), (∀ lt r a w i j, (e.opt lt r a w).1 i j = 0 ∧ (e.opt lt r a w).2 i j = 0) ∧
    fit 2 ⟨1, 1 / 10 ^ 8, 10 ^ 16, 1 / 10⟩ 1 e true LossType.mixed = some (Except.ok (LossType.mixed, W)) ∧
    W 0 1 = 1 / 2 := by
  have hv : hVal 2 (adj ((fun _ _ => (0 : ℚ)), fun _ _ => (0 : ℚ))) = 0 := by decide +kernel
  have ha : absSum 2 (adj ((fun _ _ => (0 : ℚ)), fun _ _ => (0 : ℚ))) < 9 / 100 := by decide +kernel
  refine ⟨⟨fun _ _ _ _ => (fun _ _ => 0, fun _ _ => 0), fun _ => (fun _ _ => 3 / 4, fun _ _ => 1 / 4), fun _ => 0⟩,
    threshold (1 / 10) (adj ((fun _ _ => (3 / 4 : ℚ)), fun _ _ => (1 / 4 : ℚ))), fun _ _ _ _ _ _ => ⟨rfl, rfl⟩, ?_, ?_⟩
  · unfold fit globalPhase outer inner initSt
    simp only [geQuarter, Bool.false_eq_true, if_false, show (1 : ℚ) < 10 ^ 16 by norm_num, if_true]
    unfold afterInner
    simp only [hv, ne_eq, not_true_eq_false, and_false, if_false,
      show ¬ ((10 : ℚ) ^ 16 * (1 / 1000000) ≤ 1 ∧ (100000 : ℚ) < 0) by norm_num,
      show ¬ ((10 : ℚ) ^ 16 ≤ 1) by norm_num, ha, if_true]
    rfl
  · decide +kernel

end Verif.Lim
