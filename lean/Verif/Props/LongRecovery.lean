import Verif.Proofs.LongRecovery
import Verif.Props.Longitudinal
import Verif.Props.DirectData

/-!
# LongitudinalLiNGAM: recovery of the structural matrices (C155)
-/
set_option linter.unusedSectionVars false
set_option autoImplicit false
namespace Verif.Longitudinal
open Finset

variable {N : Nat}

/-- The panel follows structural equations at every time point from `L` on: `B t k` are the coefficients of lag `k` at time
`t`, `e t s` the errors of sample `s`. -/
def FollowsPanel (L T n p : Nat) (B : Nat → Nat → Nat → Nat → ℚ) (x e : Nat → Nat → Nat → ℚ) : Prop :=
  ∀ t, L ≤ t → t < T → ∀ s, s < n → StructEq p L (B t) (fun t' i => x t' s i) t (e t s)

/-- The errors at time `t` are uncorrelated, over the samples, with the values of the `L` time points before. -/
def ErrorsNew (L T n p : Nat) (x e : Nat → Nat → Nat → ℚ) : Prop :=
  ∀ t, L ≤ t → t < T → ∀ i, i < p → ∀ u, u < L → ∀ j, j < p →
    Uncorrelated (fun s : Fin n => e t s i) (fun s : Fin n => x (t - L + u) s j)

/-- The values of the `L` time points before `t` are linearly independent, also together with a constant. -/
def WindowIndependent (L T n p : Nat) (x : Nat → Nat → Nat → ℚ) : Prop :=
  ∀ t, L ≤ t → t < T → ∀ (d : Nat → Nat → ℚ) (q : ℚ),
    (∀ s, s < n → ∑ u ∈ range L, ∑ j ∈ range p, d u j * x (t - L + u) s j = q) → ∀ u, u < L → ∀ j, j < p → d u j = 0

/-- `LinearRegression` returns least squares coefficients (with intercept) for every time point. -/
def OlsRight (E : Env ℚ) (L : Nat) (X : Panel ℚ) : Prop :=
  ∀ t, L ≤ t → t < X.T → ∀ i, i < X.p → ∀ c, c < X.p * L →
    Uncorrelated (fun s : Fin X.n => X.val t s i - ∑ c ∈ range (X.p * L), coef E L X t i c * stacked L X t c s)
      (fun s : Fin X.n => stacked L X t c s)

/-- `DirectLiNGAM` is right on data with `n` samples that follow the model with coefficients `B0` and errors `e`. -/
def DirectRight (E : Env ℚ) (n p : Nat) (B0 : Nat → Nat → ℚ) (e : Nat → Fin n → ℚ) : Prop :=
  ∀ D : Nat → Nat → ℚ, FollowsModel (range p) B0 (fun i s => D s i) e →
    ∃ order Bh, Direct.fit ⟨none, false, E.measure⟩ (E.score n p D) (E.lasso n p D) p = .ok (order, Bh) ∧
      (∀ i j, i < p → j < p → B0 i j ≠ 0 → Before order j i) ∧ ∀ i j, i < p → j < p → Bh i j = B0 i j

/-- **C155, what is reported.** The panel follows structural equations, the errors are new at every time point, and the
regressions and `DirectLiNGAM` are right.  Then the reported matrices of every time point from `n_lags` on are the true ones,
with the lags in reverse; the reported order is consistent with the instantaneous effects. -/
theorem C155_recovered_partial (E : Env ℚ) (o : Obj ℚ) (X : Panel ℚ) (hpk : o.pk = none) (hL : 0 < o.nLags) (hT : 2 ≤ X.T)
    {B : Nat → Nat → Nat → Nat → ℚ} {e : Nat → Nat → Nat → ℚ}
    (hx : FollowsPanel o.nLags X.T X.n X.p B X.val e) (hu : ErrorsNew o.nLags X.T X.n X.p X.val e)
    (hind : WindowIndependent o.nLags X.T X.n X.p X.val) (hols : OlsRight E o.nLags X)
    (hd : ∀ t, o.nLags ≤ t → t < X.T → DirectRight E X.n X.p (B t 0) (fun i s => e t s i)) :
    ∃ o' A orders, fit E o X = .ok o' ∧ o'.adjacency = some A ∧ o'.orders = some orders ∧
      ∀ t, o.nLags ≤ t → t < X.T →
        (∀ k, k ≤ o.nLags → ∀ i j, i < X.p → j < X.p → reversed o.nLags A t k i j = B t k i j) ∧
        ∃ ord, orders.getD t [] = ord.map some ∧ IsOrder X.p ord ∧
          ∀ i j, i < X.p → j < X.p → B t 0 i j ≠ 0 → Before ord j i := by
  obtain ⟨o', h⟩ := (C76_needs_two_times E o X 0 0 (fun _ _ => 0)).2 hpk hL hT
  have h' := h
  unfold fit at h
  rw [if_neg (by omega), hpk] at h
  obtain ⟨_, _, _, rs, A, hlen, hA, _, h1, _, h3⟩ := fitPlain_ok h
  refine ⟨o', A, _, h', h1, h3, fun t ht htT => ?_⟩
  obtain ⟨r, hr, hinst, hA0, hAl⟩ := hA t ht htT
  -- one time point
  have hrow : ∀ i, i < X.p → ∀ s : Fin X.n, X.val t s i = ∑ j ∈ range X.p, B t 0 i j * X.val t s j +
      ∑ c ∈ range (X.p * o.nLags), B t (o.nLags - c / X.p) i (c % X.p) * stacked o.nLags X t c s + e t s i := by
    intro i hi s
    have := hx t ht htT s s.2 i hi
    rw [lag_sum o.nLags X (B t) t i s ht] at this
    exact this
  have hcl : ∀ c, c < X.p * o.nLags → c / X.p < o.nLags ∧ c % X.p < X.p := by
    intro c hc
    have hp : 0 < X.p := Nat.pos_of_ne_zero (by rintro h; rw [h] at hc; simp at hc)
    exact ⟨by rw [Nat.div_lt_iff_lt_mul hp, Nat.mul_comm]; exact hc, Nat.mod_lt _ hp⟩
  obtain ⟨hG, hres⟩ := reduced_form (N := X.n) (n := X.p) (w := X.p * o.nLags) (x := fun i s => X.val t s i)
    (e := fun i s => e t s i) (z := fun c s => stacked o.nLags X t c s) (B0 := B t 0)
    (G := fun i c => B t (o.nLags - c / X.p) i (c % X.p)) (A := coef E o.nLags X t) hrow
    (fun i hi c hc => uncorrelated_iff.1 (hu t ht htT i hi _ (hcl c hc).1 _ (hcl c hc).2))
    (by
      intro d q hdq c hc
      have := hind t ht htT (fun u j => d (X.p * u + j)) q (fun s hs => by
        rw [← hdq ⟨s, hs⟩, sum_blocks]
        refine sum_congr rfl fun u _ => sum_congr rfl fun j hj => ?_
        have hj := mem_range.1 hj
        unfold stacked
        rw [Nat.mul_add_div (by omega), Nat.div_eq_of_lt hj, Nat.mul_add_mod, Nat.mod_eq_of_lt hj, Nat.add_zero])
        _ (hcl c hc).1 _ (hcl c hc).2
      beta_reduce at this
      rwa [Nat.div_add_mod] at this)
    (fun i hi c hc => uncorrelated_iff.1 (hols t ht htT i hi c hc))
  obtain ⟨order, Bh, hfit, hbef, hBh⟩ := hd t ht htT (fun s i => nT E o.nLags X t i s) (fun i hi s => hres i (mem_range.1 hi) s)
  have hr2 : r = (order, Bh) := by
    have : instant E o.nLags X t = .ok (order, Bh) := hfit
    rw [hinst] at this
    injection this
  subst hr2
  refine ⟨?_, order, ?_, ?_, hbef⟩
  · intro k hk i j hi hj
    unfold reversed
    by_cases hk0 : k = 0
    · subst hk0
      rw [if_pos rfl, hA0, Option.getD_some]
      exact hBh i j hi hj
    · rw [if_neg hk0, hAl _ (by omega) (by omega), Option.getD_some]
      have hlt : X.p * (o.nLags - k) + j < X.p * o.nLags := by
        have : X.p * (o.nLags - k + 1) ≤ X.p * o.nLags := Nat.mul_le_mul_left _ (by omega)
        rw [Nat.mul_succ] at this
        omega
      have hg := hG i hi _ hlt
      rw [Nat.mul_add_div (by omega), Nat.div_eq_of_lt hj, Nat.mul_add_mod, Nat.mod_eq_of_lt hj, Nat.add_zero,
        show o.nLags - (o.nLags - k) = k by omega] at hg
      rw [← hg]
      show Var.mv X.p (Var.oneSub Bh) (fun m => mTau E o.nLags X t (o.nLags + 1 - k - 1) m j) i = _
      rw [Var.mv_oneSub _ _ _ hi]
      unfold Var.mv mTau
      rw [show o.nLags + 1 - k - 1 = o.nLags - k by omega]
      congr 1
      exact sum_congr rfl fun l hl => by rw [hBh i l hi (mem_range.1 hl)]
  · rw [List.getD_eq_getElem?_getD, List.getElem?_append_right (by simpa using ht)]
    simp [hr]
  · exact Direct.fitOrder_isOrder (Direct.fit_ok hfit).1

/-- **C155**, one lag (the default): `adjacency_matrices_[t, 0]` and `[t, 1]` are the true matrices of time `t`.  Missing: two
or more lags, see `C155_lags_violated`. -/
theorem C155_one_lag_partial (E : Env ℚ) (o : Obj ℚ) (X : Panel ℚ) (hpk : o.pk = none) (hL : o.nLags = 1) (hT : 2 ≤ X.T)
    {B : Nat → Nat → Nat → Nat → ℚ} {e : Nat → Nat → Nat → ℚ}
    (hx : FollowsPanel o.nLags X.T X.n X.p B X.val e) (hu : ErrorsNew o.nLags X.T X.n X.p X.val e)
    (hind : WindowIndependent o.nLags X.T X.n X.p X.val) (hols : OlsRight E o.nLags X)
    (hd : ∀ t, o.nLags ≤ t → t < X.T → DirectRight E X.n X.p (B t 0) (fun i s => e t s i)) :
    ∃ o' A, fit E o X = .ok o' ∧ o'.adjacency = some A ∧
      ∀ t, 1 ≤ t → t < X.T → ∀ k, k ≤ 1 → ∀ i j, i < X.p → j < X.p → documented A t k i j = B t k i j := by
  obtain ⟨o', A, _, h1, h2, _, h3⟩ := C155_recovered_partial E o X hpk (by omega) hT hx hu hind hols hd
  refine ⟨o', A, h1, h2, fun t ht htT k hk i j hi hj => ?_⟩
  rw [← (h3 t (by omega) htT).1 k (by omega) i j hi hj]
  unfold reversed documented
  rcases (by omega : k = 0 ∨ k = 1) with rfl | rfl
  · rfl
  · rw [if_neg (by omega), hL]

/-- **C155 is violated** for every panel with an effect that differs between lag `k` and lag `n_lags + 1 - k`: under the same
hypotheses, the entry documented as lag `k` is not the true one. -/
theorem C155_lags_violated (E : Env ℚ) (o : Obj ℚ) (X : Panel ℚ) (hpk : o.pk = none) (hL : 0 < o.nLags) (hT : 2 ≤ X.T)
    {B : Nat → Nat → Nat → Nat → ℚ} {e : Nat → Nat → Nat → ℚ}
    (hx : FollowsPanel o.nLags X.T X.n X.p B X.val e) (hu : ErrorsNew o.nLags X.T X.n X.p X.val e)
    (hind : WindowIndependent o.nLags X.T X.n X.p X.val) (hols : OlsRight E o.nLags X)
    (hd : ∀ t, o.nLags ≤ t → t < X.T → DirectRight E X.n X.p (B t 0) (fun i s => e t s i))
    {t k i j : Nat} (ht : o.nLags ≤ t) (htT : t < X.T) (hk1 : 1 ≤ k) (hk : k ≤ o.nLags) (hi : i < X.p) (hj : j < X.p)
    (hne : B t k i j ≠ B t (o.nLags + 1 - k) i j) :
    ∃ o' A, fit E o X = .ok o' ∧ o'.adjacency = some A ∧ documented A t k i j ≠ B t k i j := by
  obtain ⟨o', A, _, h1, h2, _, h3⟩ := C155_recovered_partial E o X hpk hL hT hx hu hind hols hd
  refine ⟨o', A, h1, h2, ?_⟩
  have := (h3 t ht htT).1 (o.nLags + 1 - k) (by omega) i j hi hj
  unfold reversed at this
  rw [if_neg (by omega), show o.nLags + 1 - (o.nLags + 1 - k) = k by omega] at this
  show (A t k i j).getD 0 ≠ _
  rw [this]
  exact fun h => hne h.symm

/-- **C155**, the inner `DirectLiNGAM`: it is right as soon as its pairwise statistic is right for the instantaneous model of
the time point and its regressions are least squares that keep all true parents. -/
theorem C155_direct {E : Env ℚ} {n p : Nat} {num : Direct.Numerics n} {gpu : Direct.Score}
    {select : (Nat → Fin n → ℚ) → List Nat → Nat → Nat → Bool} {ols : (Nat → Fin n → ℚ) → Direct.Ols}
    (hm : E.measure = .pwling)
    (hs : ∀ D, E.score n p D = Direct.dataScore num gpu .pwling id p (fun i (s : Fin n) => D s i))
    (hl : ∀ D, E.lasso n p D = Direct.adaptiveLasso (select fun i s => D s i) (ols fun i s => D s i))
    {B0 : Nat → Nat → ℚ} {e : Nat → Fin n → ℚ} (he : GoodErrors p e) (hc : Acyclic (Edge p B0 0))
    (hr : Direct.PwlingRight num p B0 e)
    (hreg : ∀ Y, FollowsModel (range p) B0 Y e → Direct.RegressionRight p B0 Y (select Y) (ols Y)) :
    DirectRight E n p B0 e := by
  intro D hD
  have hc' : Direct.Compatible ⟨none, false, .pwling⟩ p B0 := by
    intro i hi
    refine hc i (Relation.TransGen.mono ?_ i i hi)
    rintro a b (h | ⟨pk, h, _⟩)
    · exact h
    · cases h
  obtain ⟨order, Bh, h1, _, h3⟩ := Direct.C93_order_recovered_pwling (cfg := ⟨none, false, .pwling⟩) rfl rfl gpu
    (select fun i s => D s i) (ols fun i s => D s i) he hD hc' hr
  obtain ⟨order', Bh', h4, h5⟩ := Direct.C94_coefficients_recovered (cfg := ⟨none, false, .pwling⟩) rfl rfl gpu he hD hc' hr
    (hreg _ hD) (by intro pk h; cases h)
  rw [h1] at h4
  injection h4 with h4
  injection h4 with h6 h7
  subst h7
  refine ⟨order, Bh, ?_, h3, h5⟩
  rw [hm, hs, hl]
  exact h1

/-- All time points as one data set: column `p * t + i` is variable `i` at time `t`. -/
def allTimes (p : Nat) (x : Nat → Nat → Nat → ℚ) (s c : Nat) : ℚ := x (c / p) s (c % p)

theorem allTimes_block {p : Nat} (x : Nat → Nat → Nat → ℚ) (s t : Nat) {i : Nat} (hi : i < p) :
    allTimes p x s (p * t + i) = x t s i := by
  unfold allTimes
  rw [Nat.mul_add_div (by omega), Nat.div_eq_of_lt hi, Nat.mul_add_mod, Nat.mod_eq_of_lt hi, Nat.add_zero]

/-- **C155**, with prior knowledge: all time points are analysed as one `DirectLiNGAM` problem with `T * p` variables.  If its
statistic and regressions are right for the model over all time points and no zero of the prior knowledge denies a true
effect, the blocks of the true matrix are reported, again with the lags in reverse. -/
theorem C155_prior_partial (E : Env ℚ) (o o' : Obj ℚ) (X : Panel ℚ) (P : Nat → Nat → Nat → Nat → Int)
    (hpk : o.pk = some P) (h : fit E o X = .ok o') {num : Direct.Numerics X.n} {gpu : Direct.Score}
    {select : List Nat → Nat → Nat → Bool} {ols : Direct.Ols} (hm : E.measure = .pwling)
    (hs : E.score X.n (X.T * X.p) (allTimes X.p X.val) =
      Direct.dataScore num gpu .pwling id (X.T * X.p) (fun c (s : Fin X.n) => allTimes X.p X.val s c))
    (hl : E.lasso X.n (X.T * X.p) (allTimes X.p X.val) = Direct.adaptiveLasso select ols)
    {B : Nat → Nat → ℚ} {e : Nat → Fin X.n → ℚ} (he : GoodErrors (X.T * X.p) e)
    (hx : FollowsModel (range (X.T * X.p)) B (fun c (s : Fin X.n) => allTimes X.p X.val s c) e)
    (hc : Direct.Compatible ⟨some (pkFull X.p o.nLags P), false, .pwling⟩ (X.T * X.p) B)
    (hr : Direct.PwlingRight num (X.T * X.p) B e)
    (hreg : Direct.RegressionRight (X.T * X.p) B (fun c (s : Fin X.n) => allTimes X.p X.val s c) select ols)
    (hz : Direct.ZerosTrue ⟨some (pkFull X.p o.nLags P), false, .pwling⟩ (X.T * X.p) B) :
    ∃ A, o'.adjacency = some A ∧ ∀ t, o.nLags ≤ t → t < X.T → ∀ k, k ≤ o.nLags → ∀ i j, i < X.p → j < X.p →
      reversed o.nLags A t k i j = B (X.p * t + i) (X.p * (t - k) + j) := by
  obtain ⟨A, order, Bh, h1, h2, h3⟩ := C41_prior_reversed E o o' X P hpk h
  obtain ⟨order', Bh', h4, h5⟩ := Direct.C94_coefficients_recovered
    (cfg := ⟨some (pkFull X.p o.nLags P), false, .pwling⟩) rfl rfl gpu he hx hc hr hreg hz
  have h6 : jointFit E o.nLags P X = .ok (order', Bh') := by
    have ha : allData X = allTimes X.p X.val := rfl
    unfold jointFit
    rw [ha, hm, hs, hl]
    exact h4
  rw [h2] at h6
  injection h6 with h6
  injection h6 with _ h7
  refine ⟨A, h1, fun t ht htT k hk i j hi hj => ?_⟩
  rw [h3 t ht htT k hk i j, h7]
  have hb : ∀ u v, u < X.T → v < X.p → X.p * u + v < X.T * X.p := by
    intro u v hu hv
    have : X.p * (u + 1) ≤ X.p * X.T := Nat.mul_le_mul_left _ hu
    rw [Nat.mul_succ] at this
    rw [Nat.mul_comm X.T]
    omega
  exact h5 _ _ (hb t i htT hi) (hb (t - k) j (by omega) hj)

/-! ### Concrete cases -/

/-- Two time points, five subjects, two variables: `x0(1) = -x1(0) + e0`, `x1(1) = x0(1) + e1`. -/
def lrPanel : Panel ℚ := ⟨2, 5, 2, fun t s i =>
  if i = 0 then ([-1, 2, -1, 0, 0, -2] : List ℚ).getD (t + s) 0 else ([-1, 1, -1, 1, 1, -3] : List ℚ).getD (t + s) 0⟩

def lrB : Nat → Nat → Nat → Nat → ℚ := fun _ k i j =>
  if k = 0 ∧ i = 1 ∧ j = 0 then 1 else if k = 1 ∧ i = 0 ∧ j = 1 then -1 else 0

def lrErr : Nat → Nat → Nat → ℚ := fun _ s i =>
  if i = 0 then ([1, 0, -1, 1, -1] : List ℚ).getD s 0 else ([-1, 0, 1, 1, -1] : List ℚ).getD s 0

/-- Least squares with two regressors; a score that prefers variable 0; regressions that return the true coefficient. -/
def lrEnv : Env ℚ := ⟨ols2, .pwling, fun _ _ _ _ _ _ _ i => some (-(i : ℚ)), fun _ _ _ _ _ _ => 1⟩

theorem lrFollows : FollowsPanel 1 2 5 2 lrB lrPanel.val lrErr := by
  intro t h1 h2 s hs
  obtain rfl : t = 1 := by omega
  have : ∀ s, s < 5 → ∀ i, i < 2 → lrPanel.val 1 s i =
      (∑ k ∈ range (1 + 1), ∑ j ∈ range 2, lrB 1 k i j * lrPanel.val (1 - k) s j) + lrErr 1 s i := by decide +kernel
  exact this s hs

theorem lrNew : ErrorsNew 1 2 5 2 lrPanel.val lrErr := by
  intro t h1 h2
  obtain rfl : t = 1 := by omega
  unfold Uncorrelated; decide +kernel

theorem lrIndependent : WindowIndependent 1 2 5 2 lrPanel.val := by
  intro t h1 h2 d q h
  obtain rfl : t = 1 := by omega
  have h0 := h 0 (by omega)
  have h1 := h 1 (by omega)
  have h3 := h 3 (by omega)
  simp [lrPanel, sum_range_succ] at h0 h1 h3
  have hd0 : d 0 0 = 0 := by linarith
  have hd1 : d 0 1 = 0 := by linarith
  intro k hk j hj
  obtain rfl : k = 0 := by omega
  rcases (by omega : j = 0 ∨ j = 1) with rfl | rfl
  · exact hd0
  · exact hd1

theorem lrOls : OlsRight lrEnv 1 lrPanel := by
  intro t h1 h2
  obtain rfl : t = 1 := by have : t < 2 := h2; omega
  unfold Uncorrelated
  show ∀ i, i < 2 → ∀ c, c < 2 * 1 → _
  decide +kernel

theorem lrDirect : DirectRight lrEnv 5 2 (lrB 1 0) (fun i s => lrErr 1 s i) := by
  intro D _
  have h : ∀ i, i < 2 → ∀ j, j < 2 → Direct.estimateAdj (K := ℚ) none (fun _ _ _ => 1) [0, 1] i j = lrB 1 0 i j := by
    decide +kernel
  refine ⟨[0, 1], _, Direct.fit_of_order (K := ℚ) (cfg := ⟨none, false, .pwling⟩) _ (by
    show Direct.fitOrder ⟨none, false, .pwling⟩ (fun _ _ _ _ i => some (-(i : ℚ))) 2 = .ok [0, 1]
    decide +kernel), ?_, fun i j hi hj => h i hi j hj⟩
  intro i j hi hj hB
  rcases (by omega : i = 0 ∨ i = 1) with rfl | rfl <;> rcases (by omega : j = 0 ∨ j = 1) with rfl | rfl <;>
    simp [lrB] at hB
  exact ⟨[], [], [], rfl⟩

/-- All hypotheses hold with one lag. -/
example : ∃ o' A, fit lrEnv (fresh 1) lrPanel = .ok o' ∧ o'.adjacency = some A ∧
    ∀ t, 1 ≤ t → t < 2 → ∀ k, k ≤ 1 → ∀ i j, i < 2 → j < 2 → documented A t k i j = lrB t k i j :=
  C155_one_lag_partial lrEnv (fresh 1) lrPanel rfl rfl le_rfl lrFollows lrNew lrIndependent lrOls (fun t h1 h2 => by
    obtain rfl : t = 1 := by
      have h1 : 1 ≤ t := h1
      have h2 : t < 2 := h2
      omega
    exact lrDirect)

/-- All hypotheses hold with two lags for the panel of C41 (`x_2 = 3 x_1 + 5 x_0`), where lag 1 and lag 2 differ. -/
example : ∃ o' A, fit env2 (fresh 2) panel2 = .ok o' ∧ o'.adjacency = some A ∧ documented A 2 1 0 0 ≠ 3 := by
  refine C155_lags_violated (t := 2) (k := 1) (i := 0) (j := 0) env2 (fresh 2) panel2 rfl (by decide) (by decide)
    (B := fun _ k _ _ => if k = 1 then 3 else if k = 2 then 5 else 0) (e := fun _ _ _ => 0) ?_ ?_ ?_ ?_ ?_ le_rfl (by decide)
    le_rfl (by decide) (by decide) (by decide) (by decide +kernel)
  · intro t h1 h2 s hs
    obtain rfl : t = 2 := by
      have h1 : 2 ≤ t := h1
      have h2 : t < 3 := h2
      omega
    have : ∀ s, s < 3 → ∀ i, i < 1 → panel2.val 2 s i = (∑ k ∈ range (2 + 1), ∑ j ∈ range 1,
        (fun (_ k _ _ : Nat) => if k = 1 then (3 : ℚ) else if k = 2 then 5 else 0) 2 k i j * panel2.val (2 - k) s j) + 0 := by
      decide +kernel
    exact this s hs
  · intro t _ _ i _ u _ j _
    simp [Uncorrelated]
  · intro t h1 h2 d q h
    obtain rfl : t = 2 := by
      have h1 : 2 ≤ t := h1
      have h2 : t < 3 := h2
      omega
    have h0 := h 0 (by decide)
    have h1 := h 1 (by decide)
    have h3 := h 2 (by decide)
    simp [panel2, fresh, sum_range_succ] at h0 h1 h3
    intro k hk j hj
    have hk : k < 2 := hk
    obtain rfl : j = 0 := by have : j < 1 := hj; omega
    rcases (by omega : k = 0 ∨ k = 1) with rfl | rfl <;> linarith
  · intro t h1 h2
    obtain rfl : t = 2 := by
      have h1 : 2 ≤ t := h1
      have h2 : t < 3 := h2
      omega
    unfold Uncorrelated
    show ∀ i, i < 1 → ∀ c, c < 1 * 2 → _
    decide +kernel
  · intro t h1 h2 D hD
    refine ⟨[0], _, Direct.fit_of_order (K := ℚ) (cfg := ⟨none, false, .pwling⟩) _ (by
      show Direct.fitOrder ⟨none, false, .pwling⟩ (fun _ _ _ _ i => some (i : ℚ)) 1 = .ok [0]
      decide +kernel), ?_, ?_⟩
    · intro i j _ _ hB; simp at hB
    · intro i j hi hj
      obtain rfl : i = 0 := by have : i < 1 := hi; omega
      obtain rfl : j = 0 := by have : j < 1 := hj; omega
      show Direct.estimateAdj (K := ℚ) none (fun _ _ _ => 1) [0] 0 0 = 0
      decide +kernel

end Verif.Longitudinal
