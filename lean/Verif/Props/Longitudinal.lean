import Verif.Proofs.Longitudinal
import Verif.Props.Paths
import Mathlib.Algebra.Order.Field.Rat
import Mathlib.Tactic.IntervalCases

/-!
Properties of `LongitudinalLiNGAM` (C41, C72 – C79).
-/
set_option autoImplicit false
set_option linter.unusedSectionVars false
namespace Verif.Longitudinal

open Verif.Paths (clean)

variable {K : Type} [Field K] [LinearOrder K] [IsStrictOrderedRing K]

/-! ### C41: which lag is where -/

/-- The matrices of time `t` as the documentation reads them: `[t, k]` is lag `k`. -/
def documented (A : Nat → Nat → Nat → Nat → Option K) (t k i j : Nat) : K := (A t k i j).getD 0

/-- The matrices of time `t` with the lags `1, …, L` in reverse. -/
def reversed (L : Nat) (A : Nat → Nat → Nat → Nat → Option K) (t k i j : Nat) : K :=
  (A t (if k = 0 then 0 else L + 1 - k) i j).getD 0

/-- **C41, what is reported.** Without prior knowledge, for every number of lags, the structural equations of time `t`
hold with the reported matrices read in *reverse* lag order; the disturbance is `(I - B(t,t))` times the residual. -/
theorem C41_reversed (E : Env K) (o o' : Obj K) (X : Panel K) (hpk : o.pk = none) (h : fit E o X = .ok o') :
    ∃ A R, o'.adjacency = some A ∧ o'.residuals_ = .ok R ∧ ∀ t, o.nLags ≤ t → t < X.T → ∀ s,
      (∀ l i j, l ≤ o.nLags → (A t l i j).isSome) ∧ (∀ i, (R t s i).isSome) ∧
      StructEq X.p o.nLags (reversed o.nLags A t) (fun t' i => X.val t' s i) t
        (fun i => (R t s i).getD 0 - ∑ j ∈ Finset.range X.p, documented A t 0 i j * (R t s j).getD 0) := by
  unfold fit at h
  split at h
  · cases h
  rw [hpk] at h
  obtain ⟨hL, _, _, rs, A, _, hA, _, h1, h2, _⟩ := fitPlain_ok h
  refine ⟨A, _, h1, by unfold Obj.residuals_; rw [h2], ?_⟩
  intro t ht hT s
  obtain ⟨r, _, _, hA0, hAl⟩ := hA t ht hT
  refine ⟨?_, ?_, ?_⟩
  · intro l i j hl
    rcases Nat.eq_zero_or_pos l with rfl | h0
    · rw [hA0]; rfl
    · rw [hAl l h0 hl]; rfl
  · intro i
    simp only [ht, hT, and_self, if_true]
    rfl
  · rw [Var.structEq_iff X.p o.nLags _ (fun k => mTau E o.nLags X t (o.nLags - k))]
    · intro i hi
      have e0 : reversed o.nLags A t 0 = documented A t 0 := rfl
      rw [e0, Var.mv_oneSub _ _ _ hi]
      simp only [ht, hT, and_self, if_true, Option.getD_some]
      unfold Var.mv
      rw [nT_innovation E _ X t ht]
      congr 1
      exact Finset.sum_congr rfl fun j _ => by rw [nT_innovation E _ X t ht]
    · intro k hk
      funext i j
      unfold reversed
      rw [if_neg (Nat.succ_ne_zero k), if_pos rfl, hAl _ (by omega) (by omega)]
      simp only [Option.getD_some]
      have e : o.nLags + 1 - (k + 1) - 1 = o.nLags - (k + 1) := by omega
      rw [e]
      unfold lagged Var.mm Var.oneSub
      refine Finset.sum_congr rfl fun m _ => ?_
      simp only [hA0, Option.getD_some]

/-- **C41, partial.** With one lag (the default) the documented reading is right.  Missing: `n_lags ≥ 2`, where it is
wrong (see `C41_two_lags_wrong`). -/
theorem C41_one_lag_partial (E : Env K) (o o' : Obj K) (X : Panel K) (hpk : o.pk = none) (hl : o.nLags = 1)
    (h : fit E o X = .ok o') :
    ∃ A R, o'.adjacency = some A ∧ o'.residuals_ = .ok R ∧ ∀ t, 1 ≤ t → t < X.T → ∀ s,
      StructEq X.p 1 (documented A t) (fun t' i => X.val t' s i) t
        (fun i => (R t s i).getD 0 - ∑ j ∈ Finset.range X.p, documented A t 0 i j * (R t s j).getD 0) := by
  obtain ⟨A, R, h1, h2, h3⟩ := C41_reversed E o o' X hpk h
  rw [hl] at h3
  refine ⟨A, R, h1, h2, fun t ht hT s => ?_⟩
  have h4 := (h3 t ht hT s).2.2
  intro i hi
  have h5 := h4 i hi
  simp only [Finset.sum_range_succ, Finset.sum_range_zero, zero_add] at h5 ⊢
  exact h5

/-- **C41, prior knowledge.** The branch with prior knowledge reports the estimated block of lag `n_lags + 1 - l` at
position `l`, i.e. the same reversal. -/
theorem C41_prior_reversed (E : Env K) (o o' : Obj K) (X : Panel K) (P : Nat → Nat → Nat → Nat → Int)
    (hpk : o.pk = some P) (h : fit E o X = .ok o') :
    ∃ A order B, o'.adjacency = some A ∧ jointFit E o.nLags P X = .ok (order, B) ∧
      ∀ t, o.nLags ≤ t → t < X.T → ∀ k, k ≤ o.nLags → ∀ i j,
        reversed o.nLags A t k i j = B (X.p * t + i) (X.p * (t - k) + j) := by
  unfold fit at h
  split at h
  · cases h
  rw [hpk] at h
  simp only at h
  unfold fitPrior at h
  split at h
  · cases h
  · rename_i order B hB
    injection h with h
    subst h
    refine ⟨_, order, B, rfl, hB, ?_⟩
    intro t ht hT k hk i j
    unfold reversed splitAdj blockOf
    by_cases h0 : k = 0
    · subst h0
      simp [ht, hT]
    · have e1 : o.nLags + 1 - k ≠ 0 := by omega
      have e2 : o.nLags + 1 - k ≤ o.nLags := by omega
      have e3 : o.nLags + 1 - (o.nLags + 1 - k) = k := by omega
      simp [h0, ht, hT, e1, e2, e3, Nat.lt_succ_of_le hk]

/-! A concrete case: one variable, three time points, two lags; the regression is ordinary least squares with
intercept on two regressors (normal equations of the centred data). -/

/-- Centred cross product of two columns over `n` samples, times `n`. -/
def cross (n : Nat) (x y : Nat → ℚ) : ℚ :=
  n * (∑ s ∈ Finset.range n, x s * y s) - (∑ s ∈ Finset.range n, x s) * ∑ s ∈ Finset.range n, y s

/-- Least squares with intercept and two regressors (Cramer's rule). -/
def ols2 (n : Nat) (x : Nat → Nat → ℚ) (y : Nat → Nat → ℚ) (i c : Nat) : ℚ :=
  let d := cross n (x 0) (x 0) * cross n (x 1) (x 1) - cross n (x 0) (x 1) * cross n (x 0) (x 1)
  if c = 0 then (cross n (x 0) (y i) * cross n (x 1) (x 1) - cross n (x 1) (y i) * cross n (x 0) (x 1)) / d
  else (cross n (x 1) (y i) * cross n (x 0) (x 0) - cross n (x 0) (y i) * cross n (x 0) (x 1)) / d

/-- Environment with least squares. -/
def env2 : Env ℚ := ⟨ols2, .pwling, fun _ _ _ _ _ _ _ i => some i, fun _ _ _ _ _ _ => 1⟩

/-- Three subjects; `x_0 = (0, 1, 0)`, `x_1 = (0, 0, 1)`, `x_2 = 3 x_1 + 5 x_0`. -/
def panel2 : Panel ℚ := ⟨3, 3, 1, fun t s _ =>
  let x0 : ℚ := if s = 1 then 1 else 0
  let x1 : ℚ := if s = 2 then 1 else 0
  if t = 0 then x0 else if t = 1 then x1 else 3 * x1 + 5 * x0⟩

/-- `LongitudinalLiNGAM(n_lags=L)`. -/
def fresh (L : Nat) : Obj ℚ := { nLags := L, pk := none }

/-- An entry of `adjacency_matrices_` after `fit`. -/
def entry (r : Except Err (Obj ℚ)) (t l i j : Nat) : Option ℚ :=
  r.toOption.bind (fun o => o.adjacency.bind (fun A => A t l i j))

/-- **C41, negation.** In data with `x_2 = 3 x_1 + 5 x_0` exactly, the matrix documented as `B(2, 1)` (lag 1) holds 5
and the one documented as lag 2 holds 3. -/
theorem C41_two_lags_wrong :
    (∀ s, s < 3 → panel2.val 2 s 0 = 3 * panel2.val 1 s 0 + 5 * panel2.val 0 s 0) ∧
    [entry (fit env2 (fresh 2) panel2) 2 0 0 0, entry (fit env2 (fresh 2) panel2) 2 1 0 0,
      entry (fit env2 (fresh 2) panel2) 2 2 0 0] = [some 0, some 5, some 3] := by
  decide +kernel

/-- The hypotheses of `C41_one_lag_partial` and `C41_reversed` are met: the fits succeed. -/
example : [entry (fit env2 (fresh 1) panel2) 1 0 0 0, entry (fit env2 (fresh 1) panel2) 0 0 0 0] = [some 0, none] := by
  decide +kernel

/-! ### C72: prior knowledge -/

theorem pkFull_zero {p L : Nat} {P : Nat → Nat → Nat → Nat → Int} (hp : 0 < p) {t k i j : Nat} (hk : k ≤ t) (hL : k ≤ L)
    (hi : i < p) (hj : j < p) (h : P t k i j = 0) : pkFull p L P (p * t + i) (p * (t - k) + j) = 0 := by
  unfold pkFull
  have e1 : (p * t + i) / p = t := by rw [Nat.mul_add_div hp, Nat.div_eq_of_lt hi, Nat.add_zero]
  have e2 : (p * (t - k) + j) / p = t - k := by rw [Nat.mul_add_div hp, Nat.div_eq_of_lt hj, Nat.add_zero]
  have e3 : (p * t + i) % p = i := by rw [Nat.mul_add_mod, Nat.mod_eq_of_lt hi]
  have e4 : (p * (t - k) + j) % p = j := by rw [Nat.mul_add_mod, Nat.mod_eq_of_lt hj]
  have e5 : t - (t - k) = k := by omega
  simp only [e1, e2, e3, e4, e5, h, if_true]
  rw [if_pos (by omega)]

/-- **C72, partial.** With at most one lag, an entry 0 of the prior knowledge gives an entry 0 at the same position of
`adjacency_matrices_`.  For more lags the position is the reversed one (second part). -/
theorem C72_prior_zero_partial (E : Env K) (o o' : Obj K) (X : Panel K) (P : Nat → Nat → Nat → Nat → Int)
    (hpk : o.pk = some P) (h : fit E o X = .ok o') :
    ∃ A, o'.adjacency = some A ∧ ∀ t, o.nLags ≤ t → t < X.T → ∀ k, k ≤ o.nLags → ∀ i j, i < X.p → j < X.p →
      P t k i j = 0 → (o.nLags ≤ 1 → documented A t k i j = 0) ∧ reversed o.nLags A t k i j = 0 := by
  obtain ⟨A, order, B, h1, h2, h3⟩ := C41_prior_reversed E o o' X P hpk h
  refine ⟨A, h1, fun t ht hT k hk i j hi hj hz => ?_⟩
  have hp : 0 < X.p := by omega
  have h4 : reversed o.nLags A t k i j = 0 := by
    rw [h3 t ht hT k hk i j]
    exact Direct.C03_prior_zero_no_edge (cfg := ⟨some (pkFull X.p o.nLags P), false, E.measure⟩) rfl h2 _ _
      (pkFull_zero hp (by omega) hk hi hj hz)
  refine ⟨fun hL => ?_, h4⟩
  rw [← h4]
  unfold documented reversed
  have : (if k = 0 then 0 else o.nLags + 1 - k) = k := by split <;> omega
  rw [this]

/-- **C72.** Whatever the prior knowledge says, no effect from a later to an earlier time point and none over more than
`n_lags` time points is estimated. -/
theorem C72_window (E : Env K) (L : Nat) (P : Nat → Nat → Nat → Nat → Int) (X : Panel K) (order : List Nat) (B : Nat → Nat → K)
    (h : jointFit E L P X = .ok (order, B)) (t s i j : Nat) (hi : i < X.p) (hj : j < X.p) (hts : t < s ∨ s + L < t) :
    B (X.p * t + i) (X.p * s + j) = 0 := by
  have hp : 0 < X.p := by omega
  refine Direct.C03_prior_zero_no_edge (cfg := ⟨some (pkFull X.p L P), false, E.measure⟩) rfl h _ _ ?_
  unfold pkFull
  have e1 : (X.p * t + i) / X.p = t := by rw [Nat.mul_add_div hp, Nat.div_eq_of_lt hi, Nat.add_zero]
  have e2 : (X.p * s + j) / X.p = s := by rw [Nat.mul_add_div hp, Nat.div_eq_of_lt hj, Nat.add_zero]
  simp only [e1, e2]
  rw [if_neg (by omega)]
  unfold pkBase
  simp only [e1]
  rw [if_neg]
  rintro ⟨h1, h2⟩
  rw [Nat.succ_mul, Nat.mul_comm t] at h1 h2
  rw [Nat.mul_succ] at h1
  rcases hts with h3 | h3
  · have : X.p * (t + 1) ≤ X.p * s := Nat.mul_le_mul_left _ h3
    rw [Nat.mul_succ] at this
    omega
  · have : X.p * (s + L + 1) ≤ X.p * t := Nat.mul_le_mul_left _ h3
    rw [Nat.mul_succ, Nat.mul_add] at this
    omega

/-- "No effect of lag 1 at time 2", nothing else is known. -/
def noLagOne : Nat → Nat → Nat → Nat → Int := fun t k _ _ => if t = 2 ∧ k = 1 then 0 else -1

/-- **C72, negation.** One variable, two lags: the prior knowledge `[2, 1] = 0` is given, and `adjacency_matrices_[2, 1]`
is 1. -/
theorem C72_prior_zero_violated :
    noLagOne 2 1 0 0 = 0 ∧
    entry (fit env2 { nLags := 2, pk := some noLagOne } panel2) 2 1 0 0 = some 1 := by
  decide +kernel

/-- The hypotheses of `C72_prior_zero_partial` are met with one lag. -/
example : [entry (fit env2 { nLags := 1, pk := some noLagOne } panel2) 2 1 0 0,
    entry (fit env2 { nLags := 1, pk := some noLagOne } panel2) 1 1 0 0] = [some 0, some 1] := by
  decide +kernel

/-! ### C73: total effects -/

/-- **C73.** `estimate_total_effect2` is the sum over all directed paths from the source at `from_t` to the destination
at `to_t` in the graph over *all* time points described by the matrices (NaN = no edge): restricting the matrix to the
time points between loses no path. -/
theorem C73_total_effect_is_path_sum (p L T : Nat) (orders : List (List (Option Nat)))
    (A : Nat → Nat → Nat → Nat → Option K) (hE : ∀ t, Acyclic (Edge p (documented A t 0) 0))
    (srcT src dstT dst : Nat) (hs : src < p) (hd : dst < p) (hle : srcT ≤ dstT) (hT : dstT < T)
    (hne : ¬ (srcT = dstT ∧ src = dst))
    (hord : srcT = dstT → some src ∈ orders.getD srcT [] ∧ some dst ∈ orders.getD srcT [])
    (paths : List (List Nat)) (hnd : paths.Nodup)
    (hpaths : ∀ q, q ∈ paths ↔ IsPath (Edge (p * T) (unrollT p L (documented A)) 0) (p * srcT + src) (p * dstT + dst) q) :
    totalEffect2 p L orders A srcT src dstT dst =
      some (.ok (some ((paths.map (pathWeight (unrollT p L (documented A)))).sum))) := by
  have hp : 0 < p := by omega
  set k := dstT - srcT + 1 with hk
  have hk1 : k - 1 = dstT - srcT := by omega
  have hsh : ∀ v w, v < p * k → w < p * k → clean (expansion p L srcT k A) w v =
      unrollT p L (documented A) (p * srcT + w) (p * srcT + v) :=
    fun v w hv hw => expansion_unroll p L srcT k hp A hw hv
  have hN : p * srcT + p * k ≤ p * T := by rw [← Nat.mul_add]; exact Nat.mul_le_mul_left p (by omega)
  have hac : Acyclic (Edge (p * k) (clean (expansion p L srcT k A)) 0) := by
    intro i hi
    have : Relation.TransGen (Edge (p * T) (unrollT p L (documented A)) 0) (p * srcT + i) (p * srcT + i) := by
      refine Relation.TransGen.lift (p * srcT + ·) ?_ _ _ hi
      rintro a b ⟨h1, h2, h3⟩
      rw [hsh a b h1 h2] at h3
      show Edge _ _ _ (p * srcT + a) (p * srcT + b)
      exact ⟨by omega, by omega, h3⟩
    exact unrollT_acyclic (le_refl 0) hp hE _ this
  have hsrc : src < p * k := by
    have : p * 1 ≤ p * k := Nat.mul_le_mul_left p (by omega)
    omega
  have hdst : p * (dstT - srcT) + dst < p * k := by
    rw [hk, Nat.mul_succ]; omega
  have hne' : src ≠ p * (dstT - srcT) + dst := by
    intro h
    rcases Nat.eq_zero_or_pos (dstT - srcT) with h0 | h0
    · rw [h0] at h; exact hne ⟨by omega, by omega⟩
    · have : p * 1 ≤ p * (dstT - srcT) := Nat.mul_le_mul_left p h0
      omega
  have hend : p * srcT + (p * (k - 1) + dst) = p * dstT + dst := by
    rw [hk1, ← Nat.add_assoc, ← Nat.mul_add]
    congr 2; omega
  have hwin : ∀ q, q ∈ paths ↔ ∃ q', q = q'.map (p * srcT + ·) ∧ (∀ x ∈ q', x < p * k) ∧
      IsPath (Edge (p * k) (clean (expansion p L srcT k A)) 0) src (p * (k - 1) + dst) q' := by
    intro q
    rw [hpaths, ← hend]
    exact isPath_window hp (by omega) (le_refl 0) hs hd (by omega) q
  have hinj : Function.Injective (fun q : List Nat => q.map (p * srcT + ·)) :=
    List.map_injective_iff.2 (fun a b h => by simpa using h)
  unfold totalEffect2
  rw [if_neg (by omega), if_neg]
  swap
  · rintro ⟨h1, h2⟩
    have := hord h1.symm
    rw [h1] at h2
    tauto
  rw [← hk, Paths.calcTotalEffect_acyclic hac hsrc hdst hne']
  simp only
  rw [← hk1]
  have hperm : ((Paths.enum (Paths.toIndices (p * k) (expansion p L srcT k A) 0) (p * (k - 1) + dst) (p * k) src).map
      (fun q => q.map (p * srcT + ·))).Perm paths := by
    rw [List.perm_ext_iff_of_nodup]
    · intro q
      rw [hwin q, List.mem_map]
      constructor
      · rintro ⟨q', hq', rfl⟩
        rw [Paths.mem_enum_acyclic hac hsrc] at hq'
        exact ⟨q', rfl, Paths.isPath_lt hsrc hq', hq'⟩
      · rintro ⟨q', rfl, _, hq'⟩
        exact ⟨q', (Paths.mem_enum_acyclic hac hsrc).2 hq', rfl⟩
    · exact (Paths.enum_nodup (Paths.toIndices_nodup _ _ _) _ _).map hinj
    · exact hnd
  rw [← (hperm.map (pathWeight (unrollT p L (documented A)))).sum_eq, List.map_map]
  congr 4
  apply List.map_congr_left
  intro q hq
  rw [Paths.mem_enum_acyclic hac hsrc] at hq
  exact pathWeight_shift hsh (Paths.isPath_lt hsrc hq)

/-! ### C74: paths -/

/-- **C74.** For one bootstrap sample, `get_paths` considers exactly the directed paths of the longitudinal graph
between the two variables, each once, numbered relative to `from_t`, with the product of the coefficients. -/
theorem C74_paths_exact (p L T : Nat) (A : Nat → Nat → Nat → Nat → Option K)
    (hE : ∀ t, Acyclic (Edge p (documented A t 0) 0))
    (srcT src dstT dst : Nat) (hs : src < p) (hd : dst < p) (hle : srcT ≤ dstT) (hT : dstT < T)
    (hne : ¬ (srcT = dstT ∧ src = dst)) (thr : Option K) (hthr : ∀ t, thr = some t → 0 < t) :
    ∃ paths, pathsOf p L A src dst srcT dstT thr =
        some (.ok (paths, paths.map (fun q => some (pathWeight (unrollT p L (documented A)) (q.map (p * srcT + ·)))))) ∧
      paths.Nodup ∧
      ∀ q, IsPath (Edge (p * T) (unrollT p L (documented A)) (thr.getD 0)) (p * srcT + src) (p * dstT + dst) q ↔
        ∃ q' ∈ paths, q = q'.map (p * srcT + ·) := by
  have hp : 0 < p := by omega
  set t0 := thr.getD 0 with ht0
  have ht : 0 ≤ t0 := by
    rw [ht0]
    cases thr with
    | none => simp
    | some t => simpa using (hthr t rfl).le
  set k := dstT - srcT + 1 with hk
  have hk1 : k - 1 = dstT - srcT := by omega
  have hsh : ∀ v w, v < p * k → w < p * k → clean (expansion p L srcT k A) w v =
      unrollT p L (documented A) (p * srcT + w) (p * srcT + v) :=
    fun v w hv hw => expansion_unroll p L srcT k hp A hw hv
  have hN : p * srcT + p * k ≤ p * T := by rw [← Nat.mul_add]; exact Nat.mul_le_mul_left p (by omega)
  have hac : Acyclic (Edge (p * k) (clean (expansion p L srcT k A)) t0) := by
    intro i hi
    have : Relation.TransGen (Edge (p * T) (unrollT p L (documented A)) t0) (p * srcT + i) (p * srcT + i) := by
      refine Relation.TransGen.lift (p * srcT + ·) ?_ _ _ hi
      rintro a b ⟨h1, h2, h3⟩
      rw [hsh a b h1 h2] at h3
      show Edge _ _ _ (p * srcT + a) (p * srcT + b)
      exact ⟨by omega, by omega, h3⟩
    exact unrollT_acyclic ht hp hE _ this
  have hsrc : src < p * k := by
    have : p * 1 ≤ p * k := Nat.mul_le_mul_left p (by omega)
    omega
  have hne' : src ≠ p * (dstT - srcT) + dst := by
    intro h
    rcases Nat.eq_zero_or_pos (dstT - srcT) with h0 | h0
    · rw [h0] at h; exact hne ⟨by omega, by omega⟩
    · have : p * 1 ≤ p * (dstT - srcT) := Nat.mul_le_mul_left p h0
      omega
  have hend : p * srcT + (p * (k - 1) + dst) = p * dstT + dst := by
    rw [hk1, ← Nat.add_assoc, ← Nat.mul_add]
    congr 2; omega
  have hgo : pathsOf p L A src dst srcT dstT thr =
      some (.ok (Paths.enum (Paths.toIndices (p * k) (expansion p L srcT k A) t0) (p * (dstT - srcT) + dst) (p * k) src,
        (Paths.enum (Paths.toIndices (p * k) (expansion p L srcT k A) t0) (p * (dstT - srcT) + dst) (p * k) src).map
          (fun q => some (pathWeight (clean (expansion p L srcT k A)) q)))) := by
    have hg : pathsOf.go p L A src dst srcT dstT t0 =
      some (.ok (Paths.enum (Paths.toIndices (p * k) (expansion p L srcT k A) t0) (p * (dstT - srcT) + dst) (p * k) src,
        (Paths.enum (Paths.toIndices (p * k) (expansion p L srcT k A) t0) (p * (dstT - srcT) + dst) (p * k) src).map
          (fun q => some (pathWeight (clean (expansion p L srcT k A)) q)))) := by
      unfold pathsOf.go
      rw [if_neg (by omega), if_neg (fun h => hne ⟨h.1.symm, h.2.symm⟩), ← hk, Paths.findAllPaths_acyclic ht hac hsrc hne']
    unfold pathsOf
    cases thr with
    | none => exact hg
    | some t =>
      simp only
      rw [if_neg (by simpa using hthr t rfl)]
      exact hg
  refine ⟨_, ?_, Paths.enum_nodup (Paths.toIndices_nodup (p * k) (expansion p L srcT k A) t0)
    (dst := p * (dstT - srcT) + dst) (p * k) src, ?_⟩
  · rw [hgo]
    congr 3
    apply List.map_congr_left
    intro q hq
    rw [Paths.mem_enum_acyclic hac hsrc] at hq
    rw [pathWeight_shift hsh (Paths.isPath_lt hsrc hq)]
  · intro q
    rw [← hend, show unrollT p L (documented A) = unrollT p L (fun t l i j => (A t l i j).getD 0) from rfl,
      isPath_window hp (by omega : srcT + k ≤ T) ht hs hd (by omega) q, hk1]
    constructor
    · rintro ⟨q', rfl, _, hq'⟩
      exact ⟨q', (Paths.mem_enum_acyclic hac hsrc).2 hq', rfl⟩
    · rintro ⟨q', hq', rfl⟩
      rw [Paths.mem_enum_acyclic hac hsrc] at hq'
      exact ⟨q', rfl, Paths.isPath_lt hsrc hq', hq'⟩

/-- **C74.** Requests against time, or from a variable to itself at the same time, are refused. -/
theorem C74_refused (p L : Nat) (A : Nat → Nat → Nat → Nat → Option K) (src dst srcT dstT : Nat)
    (h : dstT < srcT ∨ (srcT = dstT ∧ src = dst)) :
    pathsOf p L A src dst srcT dstT none = some (.error .value) := by
  show pathsOf.go p L A src dst srcT dstT 0 = _
  unfold pathsOf.go
  rcases h with h | h
  · rw [if_pos h]
  · rw [if_neg (by omega), if_pos ⟨h.1.symm, h.2.symm⟩]

/-! ### C76: instantaneous graphs and causal orders -/

/-- **C76.** Fewer than two time points are refused, by `fit` and by `bootstrap`; without prior knowledge and with at
least one lag, two time points are enough for `fit`. -/
theorem C76_needs_two_times (E : Env K) (o : Obj K) (X : Panel K) (nSampling startT : Nat) (idx : Nat → Nat → Nat) :
    (X.T < 2 → fit E o X = .error .value ∧ bootstrap E o X nSampling startT idx = some (.error .value)) ∧
    (o.pk = none → 0 < o.nLags → 2 ≤ X.T → ∃ o', fit E o X = .ok o') := by
  refine ⟨fun h => ⟨by unfold fit; rw [if_pos h], by unfold bootstrap; rw [if_pos h]⟩, fun hp hl h => ?_⟩
  have hin : ∀ ts, ∃ rs, instants E o.nLags X ts = .ok rs := by
    intro ts
    induction ts with
    | nil => exact ⟨[], rfl⟩
    | cons t ts ih =>
      obtain ⟨rs, hrs⟩ := ih
      obtain ⟨order, B, h3, _⟩ := Direct.C01_order_is_permutation (K := K) false E.measure
        (E.score X.n X.p (fun s i => nT E o.nLags X t i s)) (E.lasso X.n X.p (fun s i => nT E o.nLags X t i s)) X.p
      have h4 : instant E o.nLags X t = .ok (order, B) := h3
      unfold instants
      rw [h4, hrs]
      exact ⟨_, rfl⟩
  obtain ⟨rs, hrs⟩ := hin (List.range' o.nLags (X.T - o.nLags))
  unfold fit
  rw [if_neg (by omega), hp]
  simp only
  unfold fitPlain
  rw [if_neg (by omega), hrs]
  exact ⟨_, rfl⟩

/-- **C76.** With or without prior knowledge: at every time point from `n_lags` on, `causal_orders_[t]` is a permutation
of the features and every nonzero instantaneous coefficient goes from an earlier to a later feature of it; at every time
point the instantaneous graph is acyclic; for earlier time points everything is NaN. -/
theorem C76_orders (E : Env K) (o o' : Obj K) (X : Panel K) (hp : 0 < X.p) (h : fit E o X = .ok o') :
    o'.nLags = o.nLags ∧ o'.pk = o.pk ∧ ∃ A orders, o'.adjacency = some A ∧ o'.orders = some orders ∧
      (∀ t, o.nLags ≤ t → t < X.T → ∃ ord, orders.getD t [] = ord.map some ∧ IsOrder X.p ord ∧
        ∀ i j, i < X.p → j < X.p → documented A t 0 i j ≠ 0 → Before ord j i) ∧
      (∀ t, t < o.nLags → t < X.T → orders.getD t [] = List.replicate X.p none) ∧
      (∀ t l i j, t < o.nLags → A t l i j = none) ∧
      ∀ t, Acyclic (Edge X.p (documented A t 0) 0) := by
  have hac : ∀ A : Nat → Nat → Nat → Nat → Option K, (∀ t, ¬ (o.nLags ≤ t ∧ t < X.T) → ∀ l i j, A t l i j = none) →
      (∀ t, o.nLags ≤ t → t < X.T → ∃ ord, IsOrder X.p ord ∧
        ∀ i j, i < X.p → j < X.p → documented A t 0 i j ≠ 0 → Before ord j i) →
      ∀ t, Acyclic (Edge X.p (documented A t 0) 0) := by
    intro A h1 h2 t
    by_cases ht : o.nLags ≤ t ∧ t < X.T
    · obtain ⟨ord, ho, hb⟩ := h2 t ht.1 ht.2
      refine acyclic_of_before ho.1 ?_
      rintro a b ⟨ha, hb', hw⟩
      exact hb b a hb' ha (abs_pos.1 hw)
    · intro i hi
      cases hi with
      | single h =>
        have := h.2.2
        simp [documented, h1 t ht] at this
      | tail _ h =>
        have := h.2.2
        simp [documented, h1 t ht] at this
  unfold fit at h
  split at h
  · cases h
  cases hpk : o.pk with
  | none =>
    rw [hpk] at h
    obtain ⟨hL, e1, e2, rs, A, hlen, hA, hAn, h1, _, h3⟩ := fitPlain_ok h
    have hord : ∀ t, o.nLags ≤ t → t < X.T → ∃ ord,
        (List.replicate o.nLags (List.replicate X.p none) ++
          rs.map (fun (r : List Nat × (Nat → Nat → K)) => r.1.map some)).getD t [] = ord.map some ∧
        IsOrder X.p ord ∧ ∀ i j, i < X.p → j < X.p → documented A t 0 i j ≠ 0 → Before ord j i := by
      intro t ht hT
      obtain ⟨r, hr, hi, hA0, _⟩ := hA t ht hT
      refine ⟨r.1, ?_, ?_, ?_⟩
      · rw [List.getD_eq_getElem?_getD, List.getElem?_append_right (by simpa using ht)]
        simp [hr]
      · exact Direct.C01_order_is_permutation_pk hi
      · intro i j _ _ hne
        refine Direct.C02_edges_follow_order hi i j ?_
        unfold documented at hne
        rw [hA0] at hne
        exact hne
    refine ⟨e1, by rw [e2, hpk], A, _, h1, h3, hord, ?_, ?_, ?_⟩
    · intro t ht hT
      rw [List.getD_eq_getElem?_getD, List.getElem?_append_left (by simpa using ht)]
      simp [ht]
    · intro t l i j ht
      exact hAn t l i j (by omega)
    · refine hac A (fun t ht l i j => hAn t l i j ht) ?_
      intro t ht hT
      obtain ⟨ord, _, h5, h6⟩ := hord t ht hT
      exact ⟨ord, h5, h6⟩
  | some P =>
    rw [hpk] at h
    simp only at h
    unfold fitPrior at h
    split at h
    · cases h
    · rename_i order B hB
      injection h with h
      subst h
      have ho := Direct.C01_order_is_permutation_pk hB
      have hAn : ∀ t l i j, ¬ (o.nLags ≤ t ∧ t < X.T) → splitAdj X.p o.nLags X.T B t l i j = none := by
        intro t l i j hn
        unfold splitAdj
        simp only
        split
        · rw [if_neg (fun h => hn ⟨h.1, h.2.1⟩)]
        · split
          · rw [if_neg (fun h => hn ⟨h.1, h.2.1⟩)]
          · rfl
      have hord : ∀ t, o.nLags ≤ t → t < X.T → ∃ ord,
          ((List.range X.T).map (fun t =>
            if t < o.nLags then List.replicate X.p none else (orderAt X.p order t).map some)).getD t [] = ord.map some ∧
          IsOrder X.p ord ∧ ∀ i j, i < X.p → j < X.p → documented (splitAdj X.p o.nLags X.T B) t 0 i j ≠ 0 →
            Before ord j i := by
        intro t ht hT
        refine ⟨orderAt X.p order t, ?_, orderAt_isOrder ho hT hp, ?_⟩
        · simp [List.getD_eq_getElem?_getD, hT, ht]
        · intro i j hi hj hne
          refine orderAt_before ho hT hi hj (Direct.C02_edges_follow_order hB _ _ ?_)
          unfold documented splitAdj blockOf at hne
          simpa [ht, hT] using hne
      refine ⟨rfl, hpk, _, _, rfl, rfl, hord, ?_, ?_, ?_⟩
      · intro t ht hT
        simp [List.getD_eq_getElem?_getD, hT, ht]
      · intro t l i j ht
        exact hAn t l i j (by omega)
      · refine hac _ (fun t ht l i j => hAn t l i j ht) ?_
        intro t ht hT
        obtain ⟨ord, _, h5, h6⟩ := hord t ht hT
        exact ⟨ord, h5, h6⟩

theorem pkFull_same {p L : Nat} {P : Nat → Nat → Nat → Nat → Int} (hp : 0 < p) {t i j : Nat} (hi : i < p) (hj : j < p) :
    pkFull p L P (p * t + i) (p * t + j) = if P t 0 i j = 0 then 0 else if P t 0 i j = 1 then 1 else -1 := by
  unfold pkFull
  have e1 : (p * t + i) / p = t := by rw [Nat.mul_add_div hp, Nat.div_eq_of_lt hi, Nat.add_zero]
  have e2 : (p * t + j) / p = t := by rw [Nat.mul_add_div hp, Nat.div_eq_of_lt hj, Nat.add_zero]
  have e3 : (p * t + i) % p = i := by rw [Nat.mul_add_mod, Nat.mod_eq_of_lt hi]
  have e4 : (p * t + j) % p = j := by rw [Nat.mul_add_mod, Nat.mod_eq_of_lt hj]
  have e5 : pkBase p L (p * t + i) (p * t + j) = -1 := by
    unfold pkBase
    simp only [e1]
    rw [if_pos]
    rw [Nat.mul_succ, Nat.succ_mul, Nat.mul_comm t]
    omega
  simp only [e1, e2, e3, e4, Nat.sub_self, e5]
  rw [if_pos (by omega)]

/-- **C72.** Known instantaneous relations are found again in `causal_orders_` (measures `pwling` and `kernel`): a known path puts its start
before its end, and a known absence of a path (unless the other direction is excluded as well) puts the variable first that cannot be
reached. -/
theorem C72_prior_order (E : Env K) (o o' : Obj K) (X : Panel K) (P : Nat → Nat → Nat → Nat → Int) (hm : E.measure ≠ .fast)
    (hpk : o.pk = some P) (h : fit E o X = .ok o') :
    ∃ orders, o'.orders = some orders ∧ ∀ t, o.nLags ≤ t → t < X.T → ∃ ord, orders.getD t [] = ord.map some ∧ IsOrder X.p ord ∧
      ∀ i j, i < X.p → j < X.p → (P t 0 i j = 1 → Before ord j i) ∧ (P t 0 i j = 0 → P t 0 j i ≠ 0 → Before ord i j) := by
  unfold fit at h
  split at h
  · cases h
  rw [hpk] at h
  simp only at h
  unfold fitPrior at h
  split at h
  · cases h
  · rename_i order B hB
    injection h with h
    subst h
    have ho := Direct.C01_order_is_permutation_pk hB
    refine ⟨_, rfl, fun t ht hT => ⟨orderAt X.p order t, by simp [List.getD_eq_getElem?_getD, hT, ht], ?_⟩⟩
    by_cases hp : 0 < X.p
    · refine ⟨orderAt_isOrder ho hT hp, fun i j hi hj => ?_⟩
      have hlt : ∀ i, i < X.p → X.p * t + i < X.T * X.p := by
        intro i hi
        have : X.p * (t + 1) ≤ X.p * X.T := Nat.mul_le_mul_left _ hT
        rw [Nat.mul_succ] at this
        rw [Nat.mul_comm X.T]
        omega
      obtain ⟨h1, h2⟩ := Direct.C04_hard_prior_respected (cfg := ⟨some (pkFull X.p o.nLags P), false, E.measure⟩) rfl rfl hm hB
        (X.p * t + i) (X.p * t + j) (hlt i hi) (hlt j hj)
      rw [pkFull_same hp hi hj] at h1 h2
      rw [pkFull_same hp hj hi] at h2
      refine ⟨fun h3 => orderAt_before ho hT hi hj (h1 ?_), fun h3 h4 => orderAt_before ho hT hj hi (h2 ?_ ?_)⟩
      · rw [if_neg (by rw [h3]; decide), if_pos h3]
      · rw [if_pos h3]
      · rw [if_neg h4]
        split <;> decide
    · have h0 : X.p = 0 := by omega
      have hn : order = [] := by
        have := ho.2
        rw [h0, Nat.mul_zero] at this
        exact List.eq_nil_iff_forall_not_mem.2 fun x hx => by have := (this x).1 hx; omega
      refine ⟨?_, fun i j hi => by omega⟩
      rw [hn, h0]
      exact ⟨by simp [orderAt], by simp [orderAt]⟩

/-- "Variable 0 has an effect on variable 1 at every time", nothing else is known; the order found respects this. -/
example : ((fit { env2 with score := fun _ _ _ _ _ _ _ i => some (i : ℚ) } { nLags := 1, pk := some fun _ k i j => if k = 0 ∧ i = 1 ∧ j = 0 then 1 else -1 }
    { panel2 with p := 2 }).toOption.bind (fun o => o.orders)) = some [[none, none], [some 0, some 1], [some 0, some 1]] := by
  decide +kernel

/-- **C73 for a fitted model.** After any successful `fit`, for any two different variables at time points from `n_lags`
on, `estimate_total_effect2` is the sum over the directed paths of the graph described by `adjacency_matrices_`. -/
theorem C73_fitted (E : Env K) (o o' : Obj K) (X : Panel K) (h : fit E o X = .ok o')
    (srcT src dstT dst : Nat) (hs : src < X.p) (hd : dst < X.p) (hL : o.nLags ≤ srcT) (hle : srcT ≤ dstT) (hT : dstT < X.T)
    (hne : ¬ (srcT = dstT ∧ src = dst)) :
    ∃ A orders, o'.adjacency = some A ∧ o'.orders = some orders ∧
      ∀ paths : List (List Nat), paths.Nodup →
        (∀ q, q ∈ paths ↔ IsPath (Edge (X.p * X.T) (unrollT X.p o.nLags (documented A)) 0)
          (X.p * srcT + src) (X.p * dstT + dst) q) →
        totalEffect2 X.p o.nLags orders A srcT src dstT dst =
          some (.ok (some ((paths.map (pathWeight (unrollT X.p o.nLags (documented A)))).sum))) := by
  obtain ⟨_, _, A, orders, h1, h2, h3, _, _, h4⟩ := C76_orders E o o' X (by omega) h
  refine ⟨A, orders, h1, h2, fun paths hnd hp => ?_⟩
  refine C73_total_effect_is_path_sum X.p o.nLags X.T orders A h4 srcT src dstT dst hs hd hle hT hne ?_ paths hnd hp
  intro _
  obtain ⟨ord, e1, e2, _⟩ := h3 srcT hL (by omega)
  rw [e1]
  exact ⟨List.mem_map.2 ⟨src, (e2.2 _).2 hs, rfl⟩, List.mem_map.2 ⟨dst, (e2.2 _).2 hd, rfl⟩⟩

/-! ### C75: bootstrap over all lags -/

theorem fit_congr (E : Env K) (o1 o2 : Obj K) (X : Panel K) (h1 : o1.nLags = o2.nLags) (h2 : o1.pk = o2.pk) {o1' : Obj K}
    (h : fit E o1 X = .ok o1') : ∃ o2', fit E o2 X = .ok o2' ∧ o2'.adjacency = o1'.adjacency ∧ o2'.orders = o1'.orders := by
  unfold fit at h ⊢
  split at h
  · cases h
  rename_i hT
  rw [if_neg hT]
  rw [h2] at h
  cases hpk : o2.pk with
  | none =>
    rw [hpk] at h
    simp only at h ⊢
    unfold fitPlain at h ⊢
    rw [h1] at h
    split at h
    · cases h
    · rename_i h0
      rw [if_neg h0]
      split at h
      · cases h
      · rename_i rs hrs
        injection h with h
        subst h
        exact ⟨_, rfl, rfl, rfl⟩
  | some P =>
    rw [hpk] at h
    simp only at h ⊢
    unfold fitPrior at h ⊢
    rw [h1] at h
    split at h
    · cases h
    · rename_i order B hB
      injection h with h
      subst h
      exact ⟨_, rfl, rfl, rfl⟩

/-- **C75, negation.** If the bootstrap starts before time point `n_lags` – the default `start_from_t=1` with
`n_lags ≥ 2` – and there are at least two features, it always fails: the causal order of an early time point is NaN. -/
theorem C75_early_start_fails (E : Env K) (o : Obj K) (X : Panel K) (hp : 2 ≤ X.p) (nSampling : Nat) (hn : 0 < nSampling)
    (startT : Nat) (hs : startT < o.nLags) (hT : startT < X.T) (idx : Nat → Nat → Nat) :
    ∃ e, bootstrap E o X nSampling startT idx = some (.error e) := by
  unfold bootstrap
  split
  · exact ⟨_, rfl⟩
  obtain ⟨m, rfl⟩ : ∃ m, nSampling = m + 1 := ⟨nSampling - 1, by omega⟩
  rw [List.range_succ_eq_map]
  unfold bootLoop
  cases hf : fit E o (resample X (idx 0)) with
  | error e => exact ⟨e, rfl⟩
  | ok o' =>
    obtain ⟨e1, _, A, orders, hA, hO, _, h4, _, _⟩ := C76_orders E o o' _ (by unfold resample; simp only; omega) hf
    have h5 : orders.getD startT [] = List.replicate X.p none := h4 startT hs hT
    simp only [hA, hO, Option.getD_some]
    have hpairs : ∃ rest, effectPairs X.T orders startT = ((startT, none), (startT, none)) :: rest := by
      unfold effectPairs
      obtain ⟨k, hk⟩ : ∃ k, X.T - startT = k + 1 := ⟨X.T - startT - 1, by omega⟩
      obtain ⟨q, hq⟩ : ∃ q, X.p = q + 2 := ⟨X.p - 2, by omega⟩
      rw [hk, List.range'_succ, List.flatMap_cons]
      simp only [h5, hq, List.replicate_succ, List.length_cons, List.length_replicate]
      rw [List.range_succ_eq_map, List.flatMap_cons]
      simp
    obtain ⟨rest, hr⟩ := hpairs
    rw [hr]
    unfold totalEffects
    exact ⟨_, rfl⟩

/-- **C75, partial.** Without prior knowledge, with `n_lags ≥ 1` and a start not before time point `n_lags`, the
bootstrap always succeeds.  Missing: earlier starts, in particular the default with `n_lags ≥ 2`. -/
theorem C75_late_start_partial (E : Env K) (o : Obj K) (X : Panel K) (hp : 0 < X.p) (hT : 2 ≤ X.T) (hpk : o.pk = none)
    (hL : 0 < o.nLags) (nSampling startT : Nat) (hs : o.nLags ≤ startT) (idx : Nat → Nat → Nat) :
    ∃ r, bootstrap E o X nSampling startT idx = some (.ok r) := by
  have hfit : ∀ (o1 : Obj K) (Y : Panel K), Y.T = X.T → o1.pk = none → o1.nLags = o.nLags → ∃ o2, fit E o1 Y = .ok o2 := by
    intro o1 Y hY h1 h2
    have hin : ∀ ts, ∃ rs, instants E o1.nLags Y ts = .ok rs := by
      intro ts
      induction ts with
      | nil => exact ⟨[], rfl⟩
      | cons t ts ih =>
        obtain ⟨rs, hrs⟩ := ih
        obtain ⟨order, B, h3, _⟩ := Direct.C01_order_is_permutation (K := K) false E.measure
          (E.score Y.n Y.p (fun s i => nT E o1.nLags Y t i s)) (E.lasso Y.n Y.p (fun s i => nT E o1.nLags Y t i s)) Y.p
        have h4 : instant E o1.nLags Y t = .ok (order, B) := h3
        unfold instants
        rw [h4, hrs]
        exact ⟨_, rfl⟩
    obtain ⟨rs, hrs⟩ := hin (List.range' o1.nLags (Y.T - o1.nLags))
    unfold fit
    rw [if_neg (by omega), h1]
    simp only
    unfold fitPlain
    rw [if_neg (by omega), hrs]
    exact ⟨_, rfl⟩
  have hloop : ∀ (is : List Nat) (o1 : Obj K) (acc : List (Sample K)), o1.pk = none → o1.nLags = o.nLags →
      ∃ r, bootLoop E X startT idx is o1 acc = some (.ok r) := by
    intro is
    induction is with
    | nil => intro o1 acc _ _; exact ⟨_, rfl⟩
    | cons i is ih =>
      intro o1 acc h1 h2
      obtain ⟨o2, ho2⟩ := hfit o1 (resample X (idx i)) rfl h1 h2
      obtain ⟨e1, e2, A, orders, hA, hO, h3, _, _, h6⟩ := C76_orders E o1 o2 (resample X (idx i)) hp ho2
      unfold bootLoop
      rw [ho2]
      simp only [hA, hO, Option.getD_some]
      have hte : ∃ te, totalEffects X.p o2.nLags orders A (effectPairs X.T orders startT) (fun _ _ => some 0) =
          some (.ok te) := by
        apply totalEffects_ok
        rintro ⟨⟨srcT, src⟩, ⟨dstT, dst⟩⟩ hq
        rw [mem_effectPairs] at hq
        obtain ⟨⟨q1, q2⟩, c, hc, rfl, hd⟩ := hq
        obtain ⟨ord, f1, f2, _⟩ := h3 srcT (by omega) q2
        rw [f1] at hc hd ⊢
        rw [List.length_map] at hc
        have hsrc : (ord.map some).getD c none = some ord[c] := by
          simp [List.getD_eq_getElem?_getD, hc]
        have hsp : ord[c] < X.p := (f2.2 _).1 (List.getElem_mem hc)
        rcases hd with ⟨rfl, hd⟩ | ⟨g1, g2, hd⟩
        · rw [List.mem_iff_getElem] at hd
          obtain ⟨d, hd, rfl⟩ := hd
          rw [List.length_drop, List.length_map] at hd
          have hd' : c + 1 + d < ord.length := by omega
          have hdst : ((ord.map some).drop (c + 1))[d]'(by simpa using by omega) = some ord[c + 1 + d] := by simp
          have hdp : ord[c + 1 + d] < X.p := (f2.2 _).1 (List.getElem_mem hd')
          have hneq : ord[c] ≠ ord[c + 1 + d] := by
            intro he
            have := (List.Nodup.getElem_inj_iff f2.1).1 he
            omega
          obtain ⟨v, hv⟩ := totalEffect2_ok (L := o2.nLags) (orders := orders) h6 hsp hdp (le_refl dstT)
            (fun h => hneq h.2)
            (fun _ => ⟨by rw [f1]; exact List.mem_map.2 ⟨_, List.getElem_mem hc, rfl⟩,
              by rw [f1]; exact List.mem_map.2 ⟨_, List.getElem_mem hd', rfl⟩⟩)
          exact ⟨ord[c], ord[c + 1 + d], v, hsrc, hdst, hv⟩
        · obtain ⟨ord', f1', f2', _⟩ := h3 dstT (by omega) g2
          rw [f1'] at hd
          obtain ⟨d, hdm, rfl⟩ := List.mem_map.1 hd
          obtain ⟨v, hv⟩ := totalEffect2_ok (L := o2.nLags) (orders := orders) h6 hsp ((f2'.2 d).1 hdm)
            (by omega : srcT ≤ dstT) (fun h => by omega) (fun h => by omega)
          exact ⟨ord[c], d, v, hsrc, rfl, hv⟩
      obtain ⟨te, hte⟩ := hte
      have hX : (resample X (idx i)).p = X.p := rfl
      rw [hte]
      exact ih o2 _ (by rw [e2, h1]) (by rw [e1, h2])
  unfold bootstrap
  rw [if_neg (by omega)]
  exact hloop _ o [] hpk rfl

/-! ### C77: residuals with prior knowledge -/

/-- **C77, negation.** With prior knowledge, `residuals_` (and with it `get_error_independence_p_values`) is never
available, whatever is fitted. -/
theorem C77_prior_no_residuals (E : Env K) (o o' : Obj K) (X : Panel K) (P : Nat → Nat → Nat → Nat → Int)
    (hpk : o.pk = some P) (hnew : o.residuals = none) (h : fit E o X = .ok o') : o'.residuals_ = .error .attribute := by
  unfold fit at h
  split at h
  · cases h
  rw [hpk] at h
  simp only at h
  unfold fitPrior at h
  split at h
  · cases h
  · injection h with h
    subst h
    unfold Obj.residuals_
    rw [hnew]

/-- **C77, partial.** Without prior knowledge `residuals_` holds, for every time point from `n_lags` on, what the
regression on the past leaves of the data (the intercept is not subtracted). -/
theorem C77_residuals_partial (E : Env K) (o o' : Obj K) (X : Panel K) (hpk : o.pk = none) (h : fit E o X = .ok o') :
    ∃ (R : Nat → Nat → Nat → Option K) (M : Nat → Nat → Nat → K), o'.residuals_ = .ok R ∧ (∀ t, M t = E.ols X.n (fun c s => X.val (t - o.nLags + c / X.p) s (c % X.p))
        (fun i s => X.val t s i)) ∧
      ∀ t, o.nLags ≤ t → t < X.T → ∀ s i, R t s i = some (X.val t s i -
        ∑ c ∈ Finset.range (X.p * o.nLags), M t i c * X.val (t - o.nLags + c / X.p) s (c % X.p)) := by
  unfold fit at h
  split at h
  · cases h
  rw [hpk] at h
  obtain ⟨hL, _, _, rs, A, _, _, _, _, h2, _⟩ := fitPlain_ok h
  refine ⟨_, fun t => coef E o.nLags X t, by unfold Obj.residuals_; rw [h2], fun t => rfl, ?_⟩
  intro t ht hT s i
  simp only [ht, hT, and_self, if_true]
  rfl

/-! ### C78: bootstrap samples -/

/-- **C78.** The result of `fit` does not depend on earlier calls on the same object. -/
theorem C78_fit_history_independent (E : Env K) (o o1 o2 : Obj K) (X1 X2 : Panel K) (hp : 0 < X1.p)
    (h1 : fit E o X1 = .ok o1) (h2 : fit E o1 X2 = .ok o2) :
    ∃ o2', fit E o X2 = .ok o2' ∧ o2'.adjacency = o2.adjacency ∧ o2'.orders = o2.orders := by
  obtain ⟨e1, e2, _⟩ := C76_orders E o o1 X1 hp h1
  exact fit_congr E o1 o X2 e1 e2 h2

/-- **C78.** Every bootstrap sample is what `fit` returns for a panel in which whole subjects were drawn: one drawn
index per row, used at all time points.  Its total effects are those of `estimate_total_effect2` on its own matrices. -/
theorem C78_bootstrap_samples (E : Env K) (o o' : Obj K) (X : Panel K) (hp : 0 < X.p) (nSampling startT : Nat)
    (hs : o.nLags ≤ startT) (idx : Nat → Nat → Nat) (samples : List (Sample K))
    (h : bootstrap E o X nSampling startT idx = some (.ok (o', samples))) :
    samples.length = nSampling ∧ ∀ i, i < nSampling → ∃ s oi orders, samples[i]? = some s ∧
      fit E o ⟨X.T, X.n, X.p, fun t r j => X.val t (idx i r) j⟩ = .ok oi ∧
      oi.adjacency = some s.adjacency ∧ oi.orders = some orders ∧
      ∀ srcT dstT src dst, startT ≤ srcT → srcT < dstT → dstT < X.T → src < X.p → dst < X.p →
        totalEffect2 X.p o.nLags orders s.adjacency srcT src dstT dst =
          some (.ok (s.effects (dstT * X.p + dst) (srcT * X.p + src))) := by
  have hloop : ∀ (is : List Nat) (o1 : Obj K) (acc : List (Sample K)), o1.pk = o.pk → o1.nLags = o.nLags →
      bootLoop E X startT idx is o1 acc = some (.ok (o', samples)) →
      samples.length = acc.length + is.length ∧ (∀ k, k < acc.length → samples[k]? = acc[k]?) ∧
      ∀ k (hk : k < is.length), ∃ s oi orders, samples[acc.length + k]? = some s ∧
        fit E o ⟨X.T, X.n, X.p, fun t r j => X.val t (idx is[k] r) j⟩ = .ok oi ∧
        oi.adjacency = some s.adjacency ∧ oi.orders = some orders ∧
        ∀ srcT dstT src dst, startT ≤ srcT → srcT < dstT → dstT < X.T → src < X.p → dst < X.p →
          totalEffect2 X.p o.nLags orders s.adjacency srcT src dstT dst =
            some (.ok (s.effects (dstT * X.p + dst) (srcT * X.p + src))) := by
    intro is
    induction is with
    | nil =>
      intro o1 acc _ _ h
      simp only [bootLoop, Option.some.injEq, Except.ok.injEq, Prod.mk.injEq] at h
      obtain ⟨_, rfl⟩ := h
      simp
    | cons i is ih =>
      intro o1 acc h1 h2 h
      unfold bootLoop at h
      split at h
      · cases h
      · rename_i o2 ho2
        obtain ⟨e1, e2, A, orders, hA, hO, h3, _, _, h6⟩ := C76_orders E o1 o2 (resample X (idx i)) hp ho2
        simp only [hA, hO, Option.getD_some] at h
        split at h
        · cases h
        · cases h
        · rename_i te hte
          obtain ⟨i1, i2, i3⟩ := ih o2 _ (by rw [e2, h1]) (by rw [e1, h2]) h
          rw [List.length_append, List.length_singleton] at i1 i2 i3
          refine ⟨by rw [i1, List.length_cons]; omega, ?_, ?_⟩
          · intro k hk
            rw [i2 k (by omega), List.getElem?_append_left hk]
          · intro k hk
            cases k with
            | zero =>
              obtain ⟨oi, g1, g2, g3⟩ := fit_congr E o1 o _ h2 h1 ho2
              refine ⟨⟨A, te⟩, oi, orders, ?_, g1, ?_, ?_, ?_⟩
              · rw [Nat.add_zero, i2 _ (by omega), List.getElem?_append_right (le_refl _)]
                simp
              · rw [g2, hA]
              · rw [g3, hO]
              · intro srcT dstT src dst f1 f2 f3 f4 f5
                have hL : o2.nLags = o.nLags := by rw [e1, h2]
                rw [hL] at hte
                refine (totalEffects_entry ?_ hte f4 f5).1 ?_
                · rintro ⟨⟨a, b⟩, ⟨c, d⟩⟩ hq s' d' hb hd
                  simp only at hb hd
                  subst hb hd
                  rw [mem_effectPairs] at hq
                  obtain ⟨⟨q1, q2⟩, c', hc, hsrc, hd⟩ := hq
                  obtain ⟨ord, k1, k2, _⟩ := h3 a (by omega) q2
                  have hlt : ∀ t x, o.nLags ≤ t → t < X.T → some x ∈ orders.getD t [] → x < X.p := by
                    intro t x ht hT hx
                    obtain ⟨ord', k1', k2', _⟩ := h3 t (by omega) hT
                    rw [k1'] at hx
                    obtain ⟨y, hy, hyx⟩ := List.mem_map.1 hx
                    injection hyx with hyx
                    subst hyx
                    exact (k2'.2 y).1 hy
                  constructor
                  · refine hlt a s' (by omega) q2 ?_
                    rw [hsrc, List.getD_eq_getElem?_getD (l := orders.getD a []), List.getElem?_eq_getElem hc]
                    exact List.getElem_mem hc
                  · rcases hd with ⟨rfl, hd⟩ | ⟨r1, r2, hd⟩
                    · exact hlt _ d' (by omega) q2 (List.mem_of_mem_drop hd)
                    · exact hlt _ d' (by omega) r2 hd
                · rw [mem_effectPairs]
                  obtain ⟨ord, k1, k2, _⟩ := h3 srcT (by omega) (by show srcT < X.T; omega)
                  obtain ⟨ord', k1', k2', _⟩ := h3 dstT (by omega) f3
                  refine ⟨⟨f1, by omega⟩, ord.idxOf src, ?_, ?_, .inr ⟨f2, f3, ?_⟩⟩
                  · rw [k1, List.length_map]
                    exact List.idxOf_lt_length_of_mem ((k2.2 _).2 f4)
                  · rw [k1, List.getD_eq_getElem?_getD, List.getElem?_map,
                      List.getElem?_eq_getElem (List.idxOf_lt_length_of_mem ((k2.2 _).2 f4))]
                    simp
                  · rw [k1']
                    exact List.mem_map.2 ⟨dst, (k2'.2 _).2 f5, rfl⟩
            | succ k =>
              obtain ⟨s, oi, orders', j1, j2⟩ := i3 k (by simpa using hk)
              refine ⟨s, oi, orders', ?_, by simpa using j2⟩
              rw [← j1]
              congr 1
              omega
  unfold bootstrap at h
  split at h
  · cases h
  obtain ⟨i1, _, i3⟩ := hloop _ o [] rfl rfl h
  refine ⟨by simpa using i1, fun i hi => ?_⟩
  obtain ⟨s, oi, orders, j1, j2⟩ := i3 i (by simpa using hi)
  exact ⟨s, oi, orders, by simpa using j1, by simpa using j2⟩

/-! ### C79: the regression behind `estimate_total_effect` -/

/-- **C79, partial.** The regression uses the source at `from_t` and exactly the variables with a nonzero entry in
`adjacency_matrices_[from_t, k]`, taken from time `from_t - k`.  These are the parents of the source when the lags are
where the documentation says (one lag, see `C41_one_lag_partial`); for more lags see `C79_wrong_time`. -/
theorem C79_adjustment_partial (L : Nat) (A : Nat → Nat → Nat → Nat → Option K) (X : Panel K) (srcT src dstT : Nat)
    (hs : src < X.p) :
    ∃ ps, predictors X.p L A srcT src = (src + X.p) :: ps ∧ ps.Nodup ∧
      (∀ s, joined X srcT dstT s (src + X.p) = X.val srcT s src) ∧
      (∀ c ∈ ps, ∃ k j, k ≤ L ∧ j < X.p ∧ c = X.p * (k + 1) + j) ∧
      ∀ k j, k ≤ L → j < X.p → (X.p * (k + 1) + j ∈ ps ↔ documented A srcT k src j ≠ 0) ∧
        ∀ s, joined X srcT dstT s (X.p * (k + 1) + j) = X.val (srcT - k) s j := by
  have hp : 0 < X.p := by omega
  have hdiv : ∀ k j, j < X.p → (X.p * k + j) / X.p = k ∧ (X.p * k + j) % X.p = j := by
    intro k j hj
    exact ⟨by rw [Nat.mul_add_div hp, Nat.div_eq_of_lt hj, Nat.add_zero], by rw [Nat.mul_add_mod, Nat.mod_eq_of_lt hj]⟩
  have hj : ∀ k j s, j < X.p → joined X srcT dstT s (X.p * (k + 1) + j) = X.val (srcT - k) s j := by
    intro k j s h
    unfold joined
    rw [(hdiv _ _ h).1, (hdiv _ _ h).2, if_neg (Nat.succ_ne_zero k), Nat.add_sub_cancel]
  refine ⟨_, rfl, ?_, ?_, ?_, ?_⟩
  · refine List.Nodup.map ?_ ((List.nodup_range).filter _)
    intro a b h
    simpa using h
  · intro s
    have := hj 0 src s hs
    rw [show X.p * (0 + 1) + src = src + X.p by rw [Nat.zero_add, Nat.mul_one, Nat.add_comm]] at this
    simpa using this
  · intro c hc
    obtain ⟨d, hd, rfl⟩ := List.mem_map.1 hc
    rw [List.mem_filter, List.mem_range] at hd
    have h1 : d / X.p < L + 1 := (Nat.div_lt_iff_lt_mul hp).2 (by rw [Nat.mul_comm]; exact hd.1)
    refine ⟨d / X.p, d % X.p, by omega, Nat.mod_lt _ hp, ?_⟩
    have := Nat.div_add_mod d X.p
    rw [Nat.mul_succ]
    omega
  · intro k j hk hjp
    refine ⟨?_, fun s => hj k j s hjp⟩
    have e : X.p * (k + 1) + j = (X.p * k + j) + X.p := by rw [Nat.mul_succ]; omega
    have hlt : X.p * k + j < X.p * (L + 1) := by
      have : X.p * (k + 1) ≤ X.p * (L + 1) := Nat.mul_le_mul_left _ (by omega)
      rw [Nat.mul_succ] at this
      omega
    rw [e, List.mem_map]
    unfold documented
    constructor
    · rintro ⟨d, hd, hde⟩
      have : d = X.p * k + j := by omega
      subst this
      rw [List.mem_filter, (hdiv _ _ hjp).1, (hdiv _ _ hjp).2, decide_eq_true_eq] at hd
      exact abs_pos.1 hd.2
    · intro h
      refine ⟨_, ?_, rfl⟩
      rw [List.mem_filter, (hdiv _ _ hjp).1, (hdiv _ _ hjp).2, decide_eq_true_eq, List.mem_range]
      exact ⟨hlt, abs_pos.2 h⟩

/-- Three subjects; `x_2 = 5 x_0`: only an effect of lag 2. -/
def panelLag2 : Panel ℚ := ⟨3, 3, 1, fun t s _ =>
  let x0 : ℚ := if s = 1 then 1 else 0
  let x1 : ℚ := if s = 2 then 1 else 0
  if t = 0 then x0 else if t = 1 then x1 else 5 * x0⟩

/-- **C79, negation.** In data with `x_2 = 5 x_0` exactly, the adjustment for the source at time 2 uses column 2, which
holds the variable at time 1, and not the parent at time 0. -/
theorem C79_wrong_time :
    ((fit env2 (fresh 2) panelLag2).toOption.bind (fun o => o.adjacency)).map (fun A => predictors 1 2 A 2 0) =
      some [1, 2] ∧
    (∀ s, s < 3 → joined panelLag2 2 2 s 2 = panelLag2.val 1 s 0) ∧
    (∀ s, s < 3 → panelLag2.val 2 s 0 = 5 * panelLag2.val 0 s 0) := by
  decide +kernel

/-! ### Concrete cases -/

/-- Two features, three time points, one lag; regression coefficients 1, DirectLiNGAM order `[1, 0]`. -/
def env1 : Env ℚ := ⟨fun _ _ _ _ _ => 1, .pwling, fun _ _ _ _ _ _ _ i => some i, fun _ _ _ _ _ _ => 2⟩

/-- A panel with three time points, two samples, two features. -/
def panel1 : Panel ℚ := ⟨3, 2, 2, fun t s i => t + 2 * s + i⟩

/-- C73, C76: the fit succeeds; the total effect from feature 1 at time 1 to feature 0 at time 2 is the sum
`2·(−1) + 2·1·2 + (−1) + 1·2 = 3` over four paths. -/
example : (fit env1 (fresh 1) panel1).toOption.bind (fun o => o.orders) =
    some [[none, none], [some 1, some 0], [some 1, some 0]] := by decide +kernel

example : ((fit env1 (fresh 1) panel1).toOption.bind (fun o => o.adjacency)).map (fun A =>
    ((totalEffect2 2 1 [[none, none], [some 1, some 0], [some 1, some 0]] A 1 1 2 0).map (fun r => r.toOption))) =
    some (some (some (some 3))) := by decide +kernel

/-- C74: the paths behind it, numbered from time point 1. -/
example : ((fit env1 (fresh 1) panel1).toOption.bind (fun o => o.adjacency)).map (fun A =>
    ((pathsOf 2 1 A 1 0 1 2 none).map (fun r => (r.toOption).map (fun v => v.1)))) =
    some (some (some [[1, 0, 2], [1, 0, 3, 2], [1, 2], [1, 3, 2]])) := by decide +kernel

/-- C75: with one lag the default start works, with two lags it fails. -/
example : (bootstrap env1 (fresh 1) panel1 2 1 (fun _ s => s)).map (fun r => r.toOption.map (fun v => v.2.length)) =
    some (some 2) := by decide +kernel

example : (bootstrap env1 (fresh 2) panel1 2 1 (fun _ s => s)).map (fun r => r.toOption.map (fun v => v.2.length)) =
    some none := by decide +kernel

/-- C77: prior knowledge without restrictions; the fit succeeds, the residuals are missing. -/
example : (fit env1 { nLags := 1, pk := some (fun _ _ _ _ => -1) } panel1).toOption.map
    (fun o => o.residuals_.toOption.isSome) = some false := by decide +kernel

end Verif.Longitudinal
