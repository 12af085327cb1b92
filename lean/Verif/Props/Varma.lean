import Verif.Proofs.Varma
import Verif.Props.Var
import Mathlib.Tactic.IntervalCases

/-!
Properties of `VARMALiNGAM` (C37, C39, C40, C64, C68, C70, C71).
-/
set_option autoImplicit false
set_option linter.unusedSectionVars false
namespace Verif.Varma

open Verif.Paths (Err clean)
open Verif.Var (Data mm mv oneSub concat lagFn lagFn1)

variable {K : Type} [Field K] [LinearOrder K] [IsStrictOrderedRing K]

/-! ### C37: history of the object -/

/-- **C37, what happens.** After a fit that produced AR and MA coefficients, a further `fit` keeps them whatever the new
data are. -/
theorem C37_varma_second_fit_reuses (E : Env K) (o1 o2 : Obj K) (X2 : Data K) (phis thetas : List (Nat → Nat → K))
    (ha : o1.ar = some phis) (hm : o1.ma = some thetas) (h2 : fit E o1 X2 = .ok o2) :
    o2.ar = o1.ar ∧ o2.ma = o1.ma ∧ o2.order = o1.order := by
  obtain ⟨p', t', pq, resid, ms, h3, _, rfl⟩ := fit_ok h2
  rw [armaPart_some ha hm] at h3
  simp only [Except.ok.injEq, Prod.mk.injEq] at h3
  exact ⟨by rw [ha]; exact h3.1.symm, by rw [hm]; exact h3.2.1.symm, h3.2.2.1.symm⟩

/-- **C37, partial.** If both coefficient arrays are given in the constructor, the result of `fit` does not depend on
earlier calls (for the same random numbers). -/
theorem C37_varma_specified_partial (E : Env K) (o o1 : Obj K) (X1 X2 : Data K) (phis thetas : List (Nat → Nat → K))
    (ha : o.ar = some phis) (hm : o.ma = some thetas) (h1 : fit E o X1 = .ok o1) : fit E o1 X2 = fit E o X2 := by
  obtain ⟨p', t', pq, resid, ms, h3, _, rfl⟩ := fit_ok h1
  rw [armaPart_some ha hm] at h3
  simp only [Except.ok.injEq, Prod.mk.injEq] at h3
  obtain ⟨rfl, rfl, rfl, rfl⟩ := h3
  unfold fit armaPart matrices
  simp only [ha, hm]

/-! ### C68: fitting with known coefficients -/

/-- **C68, negation (general).** With pruning (the default) and an MA part, `fit` with specified AR and MA coefficients
fails on every data set: the errors have fewer rows than the data. -/
theorem C68_specified_coefficients_fail (E : Env K) (o : Obj K) (X : Data K) (phis thetas : List (Nat → Nat → K))
    (hn : 0 < E.n) (ha : o.ar = some phis) (hm : o.ma = some thetas) (hp : o.prune = true) (hq : 0 < o.order.2)
    (hX : max phis.length thetas.length + 2 ≤ X.rows) : ∃ e, fit E o X = .error e := by
  cases hf : fit E o X with
  | error e => exact ⟨e, rfl⟩
  | ok o' =>
    exfalso
    obtain ⟨p', t', pq, resid, ms, h3, h4, rfl⟩ := fit_ok hf
    rw [armaPart_some ha hm] at h3
    simp only [Except.ok.injEq, Prod.mk.injEq] at h3
    obtain ⟨rfl, rfl, rfl, rfl⟩ := h3
    unfold matrices at h4
    simp only [Option.getD_some] at h4
    split at h4
    · cases h4
    · rename_i hlen
      push Not at hlen
      unfold pruning at h4
      rw [if_pos] at h4
      · cases h4
      · have hr : (disturbances E.n (E.lingam (calcResiduals E.n (E.noise X) X phis thetas)).2
            (calcResiduals E.n (E.noise X) X phis thetas)).rows = X.rows - max phis.length thetas.length := rfl
        have := le_max_right phis.length thetas.length
        rw [hr]
        refine ⟨hq, hn, by omega, by omega⟩

/-- **C68, negation.** Hence a `VARMALiNGAM` object with pruning and an MA part can be fitted only once: the second
`fit` (and therefore `bootstrap` after `fit`) raises, even on the same data. -/
theorem C68_second_fit_fails (E : Env K) (o o1 : Obj K) (X1 X2 : Data K) (phis thetas : List (Nat → Nat → K))
    (hn : 0 < E.n) (h1 : fit E o X1 = .ok o1) (ha : o1.ar = some phis) (hm : o1.ma = some thetas)
    (hp : o.prune = true) (hq : 0 < o1.order.2) (hX : max phis.length thetas.length + 2 ≤ X2.rows) :
    ∃ e, fit E o1 X2 = .error e := by
  refine C68_specified_coefficients_fail E o1 X2 phis thetas hn ha hm ?_ hq hX
  obtain ⟨_, _, _, _, _, _, _, rfl⟩ := fit_ok h1
  exact hp

/-! ### C39: the lag of a total effect -/

/-- **C39, partial.** For lags 0 and 1 the value is computed from the column of the requested lag. Missing: larger lags. -/
theorem C39_small_lags_partial (n : Nat) (psis : List (Nat → Nat → K)) (src dst L : Nat) (hL : L ≤ 1) :
    totalEffect2 n psis src dst L = Var.totalEffect2 n psis src dst L := by
  unfold totalEffect2 Var.totalEffect2
  interval_cases L <;> simp

/-- **C39, negation (general).** For an unpruned model with at least one AR lag the reported total effect for *every*
lag `L ≥ 1` is the first AR coefficient `φ_1[dst, src]`, even for lags beyond the order of the model. -/
theorem C39_always_lag_one (n : Nat) (psi0 : Nat → Nat → K) (phis : List (Nat → Nat → K)) (p : Nat)
    (hE : Acyclic (Edge n psi0 0)) (src dst L : Nat) (hs : src < n) (hd : dst < n) (hL : 1 ≤ L) (hp : 1 ≤ p)
    (hphi : p ≤ phis.length) :
    totalEffect2 n (calcPsi n psi0 phis p) src dst L = some (.ok (some (lagFn1 phis 1 dst src))) := by
  have h1 : totalEffect2 n (calcPsi n psi0 phis p) src dst L = Var.totalEffect2 n (Var.calcB n psi0 (phis.take p)) src dst 1 := by
    unfold totalEffect2 Var.totalEffect2
    rw [if_neg (by omega), if_neg (by omega), Nat.mul_one]
    rfl
  rw [h1, Var.C38_is_var_coefficient n psi0 _ hE src dst 1 hs hd le_rfl (by rw [List.length_take]; omega)]
  unfold lagFn1
  congr 3
  rw [List.getD_eq_getElem?_getD, List.getD_eq_getElem?_getD, List.getElem?_take, if_pos (by omega)]

/-- One variable with `x(t) = x(t-2) + e(t)`. -/
def exPsi : List (Nat → Nat → ℚ) := [fun _ _ => 0, fun _ _ => 0, fun _ _ => 1]

/-- **C39, negation.** The effect at lag 2 is 1 (the only path is the direct edge), but 0 is reported. -/
theorem C39_lag_two_wrong :
    totalEffect2 1 exPsi 0 0 2 = some (.ok (some 0)) ∧
    Var.pathsOf 1 2 (concat 1 exPsi) 0 0 2 0 none = some (.ok ([[2, 0]], [some 1])) := by
  decide +kernel

/-! ### C40: the MA transformation -/

/-- Which `Ω` is right: if `Ω_k (I - Ψ0) = (I - Ψ0) θ_k` (that is, `Ω_k = (I - Ψ0) θ_k (I - Ψ0)⁻¹`) and
`Ψ_k = (I - Ψ0) φ_k`, then every solution of the VARMA equation solves the structural equation with disturbances
`e = (I - Ψ0) u`. -/
theorem C40_right_transformation (n p q : Nat) (φ θ Ψ Ω : Nat → Nat → Nat → K)
    (hΨ : ∀ k, k < p → ∀ i j, i < n → j < n → Ψ (k + 1) i j = mm n (oneSub (Ψ 0)) (φ (k + 1)) i j)
    (hΩ : ∀ k, k < q → ∀ i j, i < n → j < n → mm n (Ω (k + 1)) (oneSub (Ψ 0)) i j = mm n (oneSub (Ψ 0)) (θ (k + 1)) i j)
    (x u : Nat → Nat → K) (t : Nat) (h : VarmaEq n p q φ θ x u t) :
    StructVarmaEq n p q Ψ Ω x (fun s => mv n (oneSub (Ψ 0)) (u s)) t := by
  intro i hi
  have hrow : mv n (oneSub (Ψ 0)) (x t) i =
      mv n (oneSub (Ψ 0)) (fun j => (∑ k ∈ Finset.range p, mv n (φ (k + 1)) (x (t - (k + 1))) j)) i +
      mv n (oneSub (Ψ 0)) (u t) i +
      mv n (oneSub (Ψ 0)) (fun j => (∑ k ∈ Finset.range q, mv n (θ (k + 1)) (u (t - (k + 1))) j)) i := by
    unfold mv
    rw [← Finset.sum_add_distrib, ← Finset.sum_add_distrib]
    refine Finset.sum_congr rfl fun j hj => ?_
    rw [h j (Finset.mem_range.1 hj)]
    ring
  rw [Var.mv_oneSub n _ _ hi, Var.mv_sum, Var.mv_sum] at hrow
  have h1 : ∀ k ∈ Finset.range p, mv n (oneSub (Ψ 0)) (mv n (φ (k + 1)) (x (t - (k + 1)))) i =
      ∑ j ∈ Finset.range n, Ψ (k + 1) i j * x (t - (k + 1)) j := by
    intro k hk
    rw [← Var.mm_mv]
    unfold mv
    refine Finset.sum_congr rfl fun j hj => ?_
    rw [hΨ k (Finset.mem_range.1 hk) i j hi (Finset.mem_range.1 hj)]
  have h2 : ∀ k ∈ Finset.range q, mv n (oneSub (Ψ 0)) (mv n (θ (k + 1)) (u (t - (k + 1)))) i =
      ∑ j ∈ Finset.range n, Ω (k + 1) i j * mv n (oneSub (Ψ 0)) (u (t - (k + 1))) j := by
    intro k hk
    rw [← Var.mm_mv]
    have h3 : mv n (mm n (oneSub (Ψ 0)) (θ (k + 1))) (u (t - (k + 1))) i =
        mv n (mm n (Ω (k + 1)) (oneSub (Ψ 0))) (u (t - (k + 1))) i := by
      unfold mv
      refine Finset.sum_congr rfl fun j hj => ?_
      rw [hΩ k (Finset.mem_range.1 hk) i j hi (Finset.mem_range.1 hj)]
    rw [h3, Var.mm_mv]
    rfl
  rw [Finset.sum_congr rfl h1, Finset.sum_congr rfl h2] at hrow
  rw [Finset.sum_range_succ']
  have h4 : ∑ j ∈ Finset.range n, Ψ 0 i j * x (t - 0) j = mv n (Ψ 0) (x t) i := rfl
  rw [h4]
  linarith

/-- **C40, partial.** The reported `Ω` (`(I - Ψ0) θ`, the inverse being dropped) is the right one exactly when `θ Ψ0 = 0`.
Missing: all other models. -/
theorem C40_correct_iff_partial (n : Nat) (psi0 θ : Nat → Nat → K) (hE : Acyclic (Edge n psi0 0)) (thetas : List (Nat → Nat → K))
    (hθ : thetas = [θ]) :
    (∀ i j, i < n → j < n → mm n (lagFn (calcOmega n psi0 thetas 1) 0) (oneSub psi0) i j = mm n (oneSub psi0) θ i j) ↔
    ∀ i j, i < n → j < n → mm n θ psi0 i j = 0 := by
  subst hθ
  have e1 : lagFn (calcOmega n psi0 [θ] 1) 0 = mm n (oneSub psi0) θ := rfl
  rw [e1]
  have key : ∀ i j, j < n → mm n (mm n (oneSub psi0) θ) (oneSub psi0) i j =
      mm n (oneSub psi0) θ i j - mv n (oneSub psi0) (fun k => mm n θ psi0 k j) i := by
    intro i j hj
    have h1 : mm n (mm n (oneSub psi0) θ) (oneSub psi0) i j =
        mm n (oneSub psi0) θ i j - mv n (mm n (oneSub psi0) θ) (fun k => psi0 k j) i := by
      unfold mv
      show ∑ k ∈ Finset.range n, mm n (oneSub psi0) θ i k * oneSub psi0 k j = _
      simp only [oneSub, mul_sub, Finset.sum_sub_distrib]
      congr 1
      simp [Finset.sum_ite_eq', hj]
    rw [h1, Var.mm_mv]
    rfl
  constructor
  · intro h i j hi hj
    refine Var.fix_zero hE (u := fun k => mm n θ psi0 k j) (fun i hi => ?_) i hi
    have := h i j hi hj
    rw [key i j hj, Var.mv_oneSub n _ _ hi] at this
    unfold mv at this
    linarith
  · intro h i j hi hj
    rw [key i j hj]
    have : mv n (oneSub psi0) (fun k => mm n θ psi0 k j) i = 0 := by
      unfold mv
      refine Finset.sum_eq_zero fun k hk => ?_
      show oneSub psi0 i k * mm n θ psi0 k j = 0
      rw [h k j (Finset.mem_range.1 hk) hj, mul_zero]
    rw [this, sub_zero]

/-- `x0 → x1` with weight 1. -/
def exPsi0 : Nat → Nat → ℚ := fun i j => if i = 1 ∧ j = 0 then 1 else 0
/-- An MA matrix with `θ Ψ0 ≠ 0`. -/
def exTheta : Nat → Nat → ℚ := fun i j => if i = 0 ∧ j = 1 then 1 else 0
/-- Innovations: `(1, 0)` at time 0, nothing afterwards. -/
def exU : Nat → Nat → ℚ := fun t i => if t = 0 ∧ i = 0 then 1 else 0

/-- **C40, negation.** `x = 0` at time 1 solves the VARMA equation, but not the structural equation with the reported
matrices. -/
theorem C40_wrong_omega :
    VarmaEq 2 0 1 (fun _ _ _ => 0) (lagFn1 [exTheta]) (fun t i => if t = 0 then exU 0 i else 0) exU 1 ∧
    ¬ StructVarmaEq 2 0 1 (lagFn (calcPsi 2 exPsi0 [] 0)) (lagFn1 (calcOmega 2 exPsi0 [exTheta] 1))
      (fun t i => if t = 0 then exU 0 i else 0) (fun s => mv 2 (oneSub exPsi0) (exU s)) 1 := by
  constructor
  · intro i hi
    interval_cases i <;> decide +kernel
  · intro h
    have := h 0 (by decide)
    revert this
    decide +kernel

/-! ### C64 for VARMA -/

/-- **C64.** With or without pruning: if the LiNGAM model returns an order and a consistent matrix, every instantaneous
edge of the reported `psi_0` goes forward in `causal_order_`, and the instantaneous graph is acyclic. -/
theorem C64_varma_instantaneous_acyclic (E : Env K) (o o' : Obj K) (X : Data K)
    (hL : ∀ R, IsOrder E.n (E.lingam R).1 ∧
      ∀ i j, i < E.n → j < E.n → (E.lingam R).2 i j ≠ 0 → Before (E.lingam R).1 j i)
    (h : fit E o X = .ok o') :
    ∃ order psis omegas, o'.causalOrder = some order ∧ o'.adjacency = some (psis, omegas) ∧ IsOrder E.n order ∧
      (∀ i j, i < E.n → j < E.n → lagFn psis 0 i j ≠ 0 → Before order j i) ∧
      Acyclic (Edge E.n (lagFn psis 0) 0) := by
  obtain ⟨phis, thetas, pq, resid, ⟨psis, omegas⟩, _, h2, rfl⟩ := fit_ok h
  obtain ⟨ho, hB⟩ := hL resid
  have key : ∀ i j, i < E.n → j < E.n → lagFn psis 0 i j ≠ 0 → Before (E.lingam resid).1 j i := by
    intro i j hi hj hne
    unfold matrices at h2
    split at h2
    · cases h2
    · split at h2
      · unfold pruning at h2
        split at h2
        · cases h2
        · simp only [Except.ok.injEq, Prod.mk.injEq] at h2
          rw [← h2.1] at hne
          have e1 : lagFn ((List.range (1 + pq.1)).map (fun k => block E.n k (psiOmega E.n pq.1 pq.2 E.lasso X
              (disturbances E.n (E.lingam resid).2 resid) (E.lingam resid).1))) 0 i j =
              psiOmega E.n pq.1 pq.2 E.lasso X (disturbances E.n (E.lingam resid).2 resid) (E.lingam resid).1 i j := by
            unfold lagFn
            rw [List.getD_eq_getElem?_getD, List.getElem?_map, List.getElem?_range (by omega)]
            simp [block]
          have him : i ∈ (E.lingam resid).1 := (ho.2 i).2 hi
          rw [e1, psiOmega_row ho.1 him] at hne
          split at hne
          · rename_i hmem
            unfold predictors at hmem
            rw [List.mem_filter, decide_eq_true_eq] at hmem
            have hj' : j ∈ (E.lingam resid).1 := (ho.2 j).2 hj
            have hsplit := List.take_append_drop ((E.lingam resid).1.idxOf i) (E.lingam resid).1
            rw [← hsplit, List.mem_append] at hj'
            have hjt := hj'.resolve_right hmem.2
            have hidx : (E.lingam resid).1.idxOf i < (E.lingam resid).1.length := List.idxOf_lt_length_of_mem him
            have hdrop : i ∈ (E.lingam resid).1.drop ((E.lingam resid).1.idxOf i) := by
              rw [List.drop_eq_getElem_cons hidx, List.getElem_idxOf]
              simp
            have := Before.of_mem_append hjt hdrop
            rwa [hsplit] at this
          · exact absurd rfl hne
      · simp only [Except.ok.injEq, Prod.mk.injEq] at h2
        rw [← h2.1] at hne
        exact hB i j hi hj hne
  refine ⟨_, psis, omegas, rfl, rfl, ho, key, ?_⟩
  refine acyclic_of_before ho.1 ?_
  rintro a b ⟨ha, hb, hw⟩
  exact key b a hb ha (abs_pos.1 hw)

/-! ### C70: the adjustment columns of `estimate_total_effect` -/

/-- **C70, negation (general).** If variable `j` has a nonzero coefficient of the last AR lag `p` for the source, then for
every `from_lag ≥ 1` the regression includes column `n (p + 1) + j`. In the regression data this column is the *error*
`e_j(t-1)`, not the value `x_j(t-1-p)` which is the parent of the source at lag 1. -/
theorem C70_wrong_adjustment (n : Nat) (psis omegas : List (Nat → Nat → K)) (src j p L : Nat) (hj : j < n)
    (hp : psis.length = p + 1) (hL : 1 ≤ L) (hne : lagFn psis p src j ≠ 0) :
    n * (p + 1) + j ∈ effectPredictors n psis omegas src L ∧
    ∀ (q : Nat) (X ee : Data K) (t : Nat), 1 ≤ q → 1 ≤ t → t < ee.rows →
      effectJoined n p q X ee t (n * (p + 1) + j) = ee.val (t - 1) j := by
  have hn : 0 < n := by omega
  constructor
  · unfold effectPredictors
    refine List.mem_cons_of_mem _ ?_
    rw [List.mem_map]
    refine ⟨n * p + j, ?_, ?_⟩
    · rw [List.mem_filter, List.mem_range, decide_eq_true_eq, abs_pos, Var.concat_block hn _ _ _ _ hj]
      constructor
      · rw [List.length_append, hp]
        have : n * (p + 1) ≤ n * (p + 1 + omegas.length) := Nat.mul_le_mul_left n (by omega)
        rw [Nat.mul_succ] at this
        omega
      · unfold lagFn
        rw [List.getD_eq_getElem?_getD, List.getElem?_append_left (by omega), ← List.getD_eq_getElem?_getD]
        exact hne
    · rw [if_neg (by omega), Nat.mul_succ]; omega
  · intro q X ee t hq ht htr
    unfold effectJoined joined
    rw [Nat.mul_add_div hn, Nat.div_eq_of_lt hj, Nat.add_zero, if_pos (by omega), if_neg (by omega), Nat.mul_add_mod,
      Nat.mod_eq_of_lt hj]
    congr 1
    have e1 : p + 1 - p = 1 := by omega
    rw [e1]
    rcases Nat.eq_or_lt_of_le (by omega : 1 ≤ ee.rows) with h | h
    · omega
    · rw [Nat.mod_eq_of_lt h, show t + ee.rows - 1 = t - 1 + ee.rows by omega, Nat.add_mod_right,
        Nat.mod_eq_of_lt (by omega)]

/-- **C70, negation (last lag of the errors).** If variable `j` has a nonzero coefficient of the last MA lag for the source, then for every
`from_lag ≥ 1` the regression includes a column that is 0 in every row, and nothing stands for the parent at lag 1. -/
theorem C70_zero_column (n : Nat) (psis omegas : List (Nat → Nat → K)) (src j p q L : Nat) (hj : j < n)
    (hp : psis.length = p + 1) (hq : omegas.length = q + 1) (hL : 1 ≤ L) (hne : lagFn omegas q src j ≠ 0) :
    n * (p + q + 2) + j ∈ effectPredictors n psis omegas src L ∧
    ∀ (X ee : Data K) (t : Nat), effectJoined n p (q + 1) X ee t (n * (p + q + 2) + j) = 0 := by
  have hn : 0 < n := by omega
  constructor
  · unfold effectPredictors
    refine List.mem_cons_of_mem _ ?_
    rw [List.mem_map]
    refine ⟨n * (p + q + 1) + j, ?_, ?_⟩
    · rw [List.mem_filter, List.mem_range, decide_eq_true_eq, abs_pos, Var.concat_block hn _ _ _ _ hj]
      constructor
      · rw [List.length_append, hp, hq]
        have : n * (p + 1 + (q + 1)) = n * (p + q + 1) + n := by ring
        omega
      · unfold lagFn
        rw [List.getD_eq_getElem?_getD, List.getElem?_append_right (by omega), ← List.getD_eq_getElem?_getD, hp,
          show p + q + 1 - (p + 1) = q by omega]
        exact hne
    · rw [if_neg (by omega)]
      have : n * (p + q + 2) = n * (p + q + 1) + n := by ring
      omega
  · intro X ee t
    unfold effectJoined
    rw [Nat.mul_add_div hn, Nat.div_eq_of_lt hj, Nat.add_zero, if_neg (by omega)]

/-- The hypotheses are met. -/
example : 2 * 2 + 1 ∈ effectPredictors 2 [fun _ _ => (0 : ℚ)] [fun _ _ => 1] 0 1 :=
  (C70_zero_column 2 [fun _ _ => (0 : ℚ)] [fun _ _ => 1] 0 1 0 0 1 (by norm_num) rfl rfl le_rfl (by simp [lagFn])).1

/-- **C70, partial.** At lag 0 the predictors are the source and exactly its parents (lagged values and errors). Missing:
lags `≥ 1`. -/
theorem C70_lag_zero_partial (n : Nat) (psis omegas : List (Nat → Nat → K)) (src : Nat) (hs : src < n) :
    ∃ ps, effectPredictors n psis omegas src 0 = src :: ps ∧ ps.Nodup ∧
      ∀ k j, j < n → (n * k + j ∈ ps ↔ k < (psis ++ omegas).length ∧ lagFn (psis ++ omegas) k src j ≠ 0) := by
  obtain ⟨ps, h1, h2, h3⟩ := Var.C67_adjustment_set n (psis ++ omegas) src 0 hs
  refine ⟨ps, ?_, h2, fun k j hj => by simpa using h3 k j hj⟩
  simpa [effectPredictors, Var.predictors] using h1

/-! ### C71: residuals and generated series follow the VARMA model -/

/-- **C71.** With given coefficients, `residuals_` are innovations of the data: there is a sequence `u` (with arbitrary
starting values) that solves the VARMA equation at every time from `max(p, q)` on, and the residual rows are its values
there. -/
theorem C71_residuals (E : Env K) (o o' : Obj K) (X : Data K) (phis thetas : List (Nat → Nat → K))
    (ha : o.ar = some phis) (hm : o.ma = some thetas) (h : fit E o X = .ok o') :
    ∃ (R : Data K) (u : Nat → Nat → K), o'.residuals = some R ∧ R.rows = X.rows - max phis.length thetas.length ∧
      (∀ r i, R.val r i = u (r + max phis.length thetas.length) i) ∧
      ∀ t, max phis.length thetas.length ≤ t → t < X.rows →
        VarmaEq E.n phis.length thetas.length (lagFn1 phis) (lagFn1 thetas) X.val u t := by
  obtain ⟨p', t', pq, resid, ms, h3, h4, rfl⟩ := fit_ok h
  rw [armaPart_some ha hm] at h3
  simp only [Except.ok.injEq, Prod.mk.injEq] at h3
  obtain ⟨rfl, rfl, rfl, rfl⟩ := h3
  refine ⟨_, epsilon E.n X.rows (E.noise X) X.val phis thetas, rfl, rfl, fun r i => rfl, ?_⟩
  intro t ht htr i _
  have := epsilon_row E.n (E.noise X) X.val phis thetas htr i
  rw [if_neg (by omega)] at this
  unfold mv at this
  linarith

/-- **C71.** Every series generated by the bootstrap solves the VARMA equation with the drawn residuals as innovations. -/
theorem C71_series_follows_varma (n start N : Nat) (phis thetas : List (Nat → Nat → K)) (e : Nat → Nat → K)
    (hp : phis.length ≤ start) (t : Nat) (ht : t < N) (hs : start ≤ t) :
    VarmaEq n phis.length thetas.length (lagFn1 phis) (lagFn1 thetas) (generate n start phis thetas e N) e t := by
  intro i _
  rw [generate_row n start phis thetas e hp ht, if_neg (by omega)]
  rfl

/-! ### Concrete cases -/

/-- A small instance: one variable, ARMA(1,1) with fixed coefficients, full-length residuals (as `VARMAX` returns). -/
def exEnv : Env ℚ where
  n := 1
  varmax X pq := ⟨some [fun _ _ => 1 / 2], some [fun _ _ => 1 / 3], pq, X, some 0⟩
  lingam _ := ([0], fun _ _ => 0)
  lasso _ _ _ _ _ := 1
  noise _ _ _ := 0

/-- `VARMALiNGAM(order=(1, 1), criterion=None)`. -/
def exObj : Obj ℚ := { ar := none, ma := none, order := (1, 1), useCriterion := false, prune := true }

/-- Four samples. -/
def exX : Data ℚ := ⟨4, fun t _ => t⟩

/-- C68: the first fit succeeds, the second raises. -/
example : (match fit exEnv exObj exX with
    | .ok o1 => (o1.ar.isSome, o1.ma.isSome, o1.order, match fit exEnv o1 exX with | .ok _ => false | .error _ => true)
    | .error _ => (false, false, (0, 0), false)) = (true, true, (1, 1), true) := by decide +kernel
/-- C64: pruned instance. -/
example : (fit exEnv exObj exX).toOption.bind (fun o => o.adjacency.map (fun m => (m.1.length, m.2.length, lagFn m.1 0 0 0,
    lagFn m.1 1 0 0))) = some (2, 1, 0, 1) := by decide +kernel
/-- C39: hypotheses of the general theorem. -/
example : Acyclic (Edge 2 exPsi0 0) := by
  refine acyclic_of_before (l := [0, 1]) (by decide) ?_
  rintro a b ⟨ha, hb, hw⟩
  have h2 : a = 0 ∧ b = 1 := by
    by_contra hc
    apply hw.ne'
    unfold exPsi0
    rw [if_neg (fun h => hc ⟨h.2, h.1⟩), abs_zero]
  obtain ⟨rfl, rfl⟩ := h2
  exact ⟨[], [], [], rfl⟩
/-- C70: hypotheses. -/
example : lagFn exPsi 2 0 0 ≠ 0 ∧ exPsi.length = 2 + 1 := by decide +kernel
/-- C71: a generated series. -/
example : (List.range 3).map (fun t => generate 1 1 [fun _ _ => (2 : ℚ)] [fun _ _ => (1 : ℚ)] (fun _ _ => 1) 3 t 0) = [1, 4, 10] := by
  decide +kernel

end Verif.Varma
