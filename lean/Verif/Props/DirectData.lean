import Verif.Proofs.DirectData
import Verif.Proofs.TotalEffect
import Verif.Props.DirectLingam
import Mathlib.Data.Fin.VecNotation
import Mathlib.LinearAlgebra.Matrix.NonsingularInverse

/-!
# DirectLiNGAM on data: recovery of the model, total effects, prior knowledge and data types (C92–C98)

The data follow a linear model in the sample: every column is the linear combination of its parents plus an error, the
errors are uncorrelated in the sample.  What the independence measure has to deliver is a hypothesis on the pairwise
statistic alone.
-/
set_option linter.unusedSectionVars false
set_option autoImplicit false
namespace Verif.Direct
open Finset
variable {N : Nat}

/-- C92: as long as only variables without remaining parents have been removed, the working data follow the *same*
linear model (same coefficients, same errors) on the remaining variables. -/
theorem C92_removal_keeps_model {n : Nat} {B : Nat → Nat → ℚ} {X e : Nat → Fin N → ℚ} (he : GoodErrors n e)
    (hX : FollowsModel (range n) B X e) (A : List Nat) (hA : A.Nodup) (hn : ∀ a ∈ A, a < n)
    (htop : ∀ pre m post, A = pre ++ m :: post → ∀ j, j < n → B m j ≠ 0 → j ∈ pre) :
    FollowsModel ((range n).filter (fun i => i ∉ A)) B (working id n X A).1 e :=
  working_follows he hX A hA hn htop

/-- The entropies of `y` and of the rescaled `rx`, minus those of `x` and of the rescaled `ry` (specification). -/
def entropyGap (num : Numerics N) (x y rx ry : Fin N → ℚ) : ℚ :=
  num.entropy y + num.entropy (fun r => rx r / sd num rx) - num.entropy x - num.entropy (fun r => ry r / sd num ry)

theorem entropyGap_eq (num : Numerics N) (x y rx ry : Fin N → ℚ) :
    diffMutualInfo num x y rx ry = entropyGap num x y rx ry := by
  unfold diffMutualInfo entropyGap; ring

/-- The pairwise statistic: entropies of `y` and of the residual of `x` on `y`, minus those of `x` and of the residual
of `y` on `x` (all standardised). -/
def advantage (num : Numerics N) (x y : Fin N → ℚ) : ℚ :=
  entropyGap num (standardize num x) (standardize num y) (residual (standardize num x) (standardize num y))
    (residual (standardize num y) (standardize num x))

/-- The statistic of `pwling` is right for this model: on every subset of variables following it, a variable without
parents has the advantage over all others, and a variable with a parent is at a disadvantage to some other one. -/
def PwlingRight (num : Numerics N) (n : Nat) (B : Nat → Nat → ℚ) (e : Nat → Fin N → ℚ) : Prop :=
  ∀ (U : Finset Nat) (Y : Nat → Fin N → ℚ), U ⊆ range n → FollowsModel U B Y e → ∀ i ∈ U,
    ((∀ j ∈ U, B i j = 0) → ∀ j ∈ U, j ≠ i → 0 ≤ advantage num (Y i) (Y j)) ∧
    ((∃ j ∈ U, B i j ≠ 0) → ∃ j ∈ U, j ≠ i ∧ advantage num (Y i) (Y j) < 0)

/-- The kernel statistic is right for this model: zero exactly when the residual is independent. -/
def KernelRight (num : Numerics N) (n : Nat) (B : Nat → Nat → ℚ) (e : Nat → Fin N → ℚ) : Prop :=
  ∀ (U : Finset Nat) (Y : Nat → Fin N → ℚ), U ⊆ range n → FollowsModel U B Y e → ∀ i ∈ U,
    ((∀ j ∈ U, B i j = 0) → ∀ j ∈ U, j ≠ i → num.mi (Y i) (residual (Y j) (Y i)) = 0) ∧
    (∀ j ∈ U, j ≠ i → 0 ≤ num.mi (Y i) (residual (Y j) (Y i))) ∧
    ((∃ j ∈ U, B i j ≠ 0) → ∃ j ∈ U, j ≠ i ∧ 0 < num.mi (Y i) (residual (Y j) (Y i)))

/-- Truth and hard prior knowledge can be satisfied together. -/
def Compatible (cfg : Config) (n : Nat) (B : Nat → Nat → ℚ) : Prop :=
  Acyclic (fun a b => Edge n B 0 a b ∨ ∃ pk, cfg.pk = some pk ∧ MustPrecede n pk a b)

theorem compatible_total {cfg : Config} (hs : cfg.soft = false) {n : Nat} {B : Nat → Nat → ℚ} (hc : Compatible cfg n B)
    (score : Score) : ∃ order, fitOrder cfg score n = .ok order := by
  cases hpk : cfg.pk with
  | none => exact fitOrder_none_total hpk
  | some pk =>
    refine fitOrder_hard_total hpk hs ?_
    intro i hi
    exact hc i (Relation.TransGen.mono (fun a b h => Or.inr ⟨pk, hpk, h⟩) i i hi)

theorem before_of_parents {n : Nat} {B : Nat → Nat → ℚ} {order : List Nat} (ho : IsOrder n order)
    (h : ∀ pre m post, order = pre ++ m :: post → ∀ j, j < n → B m j ≠ 0 → j ∈ pre) (i j : Nat) (hi : i < n) (hj : j < n)
    (hB : B i j ≠ 0) : Before order j i := by
  obtain ⟨pre, post, hsplit⟩ := List.append_of_mem ((ho.2 i).2 hi)
  rw [hsplit]
  exact Before.of_mem_append (h pre i post hsplit j hj hB) (by simp)

theorem pwling_order {cfg : Config} (hs : cfg.soft = false) (hm : cfg.measure = .pwling) {num : Numerics N}
    (gpu : Score) {n : Nat} {B : Nat → Nat → ℚ} {X e : Nat → Fin N → ℚ} (he : GoodErrors n e)
    (hX : FollowsModel (range n) B X e) (hc : Compatible cfg n B) (hr : PwlingRight num n B e) {order : List Nat}
    (h : fitOrder cfg (dataScore num gpu cfg.measure id n X) n = .ok order) :
    ∀ pre m post, order = pre ++ m :: post → ∀ j, j < n → B m j ≠ 0 → j ∈ pre := by
  refine order_recovers (s := fun A U Uc Vj i => -1 * pwlingM num (working id n X A).1 U Uc Vj i) hs (by simp [hm])
    (by intro K U Uc Vj i; simp [dataScore, hm]) hc ?_ h
  intro A U Uc hA hAn htop hU hmem x hx hxe y hy hyp
  have hfin : U.toFinset = (range n).filter (fun i => i ∉ A) := by ext z; simp [hmem]
  have hf := working_follows he hX A hA hAn htop
  rw [← hfin] at hf
  have hsub : U.toFinset ⊆ range n := by rw [hfin]; exact filter_subset _ _
  have e1 : ∀ i j, pairDiff num (working id n X A).1 Uc [] i j =
      advantage num ((working id n X A).1 i) ((working id n X A).1 j) := by
    intro i j; simp [pairDiff, advantage, entropyGap_eq]
  have h1 := (hr U.toFinset _ hsub hf x (by simpa using hx)).1 (fun j hj => hxe j (by simpa using hj))
  obtain ⟨j0, hj0, hB0⟩ := hyp
  obtain ⟨k, hk, hky, hlt⟩ := (hr U.toFinset _ hsub hf y (by simpa using hy)).2 ⟨j0, by simpa using hj0, hB0⟩
  have z1 : pwlingM num (working id n X A).1 U Uc [] x = 0 := by
    refine pwlingM_zero ?_
    intro j hj hjx
    rw [e1]; exact h1 j (by simpa using hj) hjx
  have z2 : 0 < pwlingM num (working id n X A).1 U Uc [] y :=
    pwlingM_pos ⟨k, by simpa using hk, hky, by rw [e1]; exact hlt⟩
  rw [hm]
  show -1 * _ < -1 * _
  rw [z1]; linarith

/-- C93: with a right statistic, `fit` (measure `pwling`, no or hard prior knowledge compatible with the truth) returns
an order in which every true cause precedes its effects. -/
theorem C93_order_recovered_pwling {cfg : Config} (hs : cfg.soft = false) (hm : cfg.measure = .pwling)
    {num : Numerics N} (gpu : Score) (select : List Nat → Nat → Nat → Bool) (ols : Ols) {n : Nat} {B : Nat → Nat → ℚ}
    {X e : Nat → Fin N → ℚ} (he : GoodErrors n e) (hX : FollowsModel (range n) B X e) (hc : Compatible cfg n B)
    (hr : PwlingRight num n B e) :
    ∃ order Bh, fitData cfg num gpu id select ols n X = .ok (order, Bh) ∧ IsOrder n order ∧
      ∀ i j, i < n → j < n → B i j ≠ 0 → Before order j i := by
  obtain ⟨order, h⟩ := compatible_total hs hc (dataScore num gpu cfg.measure id n X)
  exact ⟨order, _, fit_of_order _ h, fitOrder_isOrder h,
    before_of_parents (fitOrder_isOrder h) (pwling_order hs hm gpu he hX hc hr h)⟩

/-- C93, measure `kernel`: the same for the standardised data. -/
theorem C93_order_recovered_kernel {cfg : Config} (hs : cfg.soft = false) (hm : cfg.measure = .kernel)
    {num : Numerics N} (gpu : Score) (store : ℚ → ℚ) (select : List Nat → Nat → Nat → Bool) (ols : Ols) {n : Nat}
    {B : Nat → Nat → ℚ} {X e : Nat → Fin N → ℚ} (he : GoodErrors n e)
    (hX : FollowsModel (range n) B (fun k => standardize num (X k)) e) (hc : Compatible cfg n B)
    (hr : KernelRight num n B e) :
    ∃ order Bh, fitData cfg num gpu store select ols n X = .ok (order, Bh) ∧ IsOrder n order ∧
      ∀ i j, i < n → j < n → B i j ≠ 0 → Before order j i := by
  obtain ⟨order, h⟩ := compatible_total hs hc (dataScore num gpu cfg.measure store n X)
  refine ⟨order, _, fit_of_order _ h, fitOrder_isOrder h, before_of_parents (fitOrder_isOrder h) ?_⟩
  refine order_recovers
    (s := fun A U Uc Vj i => kernelT num (working id n (fun k => standardize num (X k)) A).1 U Uc Vj i) hs
    (by simp [hm]) (by intro K U Uc Vj i; simp [dataScore, hm]) hc ?_ h
  intro A U Uc hA hAn htop hU hmem x hx hxe y hy hyp
  have hfin : U.toFinset = (range n).filter (fun i => i ∉ A) := by ext z; simp [hmem]
  have hf := working_follows he hX A hA hAn htop
  rw [← hfin] at hf
  have hsub : U.toFinset ⊆ range n := by rw [hfin]; exact filter_subset _ _
  obtain ⟨h1, _, _⟩ := hr U.toFinset _ hsub hf x (by simpa using hx)
  obtain ⟨_, h2, h3⟩ := hr U.toFinset _ hsub hf y (by simpa using hy)
  obtain ⟨j0, hj0, hB0⟩ := hyp
  obtain ⟨k, hk, hky, hlt⟩ := h3 ⟨j0, by simpa using hj0, hB0⟩
  have z1 := kernelT_zero (num := num) (Uc := Uc) (fun i hi hix =>
    h1 (fun j hj => hxe j (by simpa using hj)) i (by simpa using hi) hix)
  have z2 := kernelT_pos (num := num) (Uc := Uc) (fun i hi hix => h2 i (by simpa using hi) hix)
    ⟨k, by simpa using hk, hky, hlt⟩
  rw [hm]
  show _ < _
  rw [z1]; exact z2

/-- C93: standardising keeps the model, with coefficients rescaled by the standard deviations (so the same edges), if
the standard deviations are not zero. -/
theorem C93_standardised_model {num : Numerics N} {n : Nat} {B : Nat → Nat → ℚ} {X e : Nat → Fin N → ℚ}
    (hX : FollowsModel (range n) B X e) (hsd : ∀ i, i < n → sd num (X i) ≠ 0) :
    FollowsModel (range n) (fun i j => B i j * sd num (X j) / sd num (X i)) (fun k => standardize num (X k))
      (fun i r => (e i r - mean (e i)) / sd num (X i)) := by
  intro i hi r
  have hmean : mean (X i) = ∑ j ∈ range n, B i j * mean (X j) + mean (e i) := by
    unfold mean
    have : ∑ r, X i r = ∑ j ∈ range n, B i j * ∑ r, X j r + ∑ r, e i r := by
      rw [sum_congr rfl (fun r _ => hX i hi r), sum_add_distrib, sum_comm]
      congr 1
      exact sum_congr rfl fun j _ => by rw [mul_sum]
    rw [this, add_div, sum_div]
    congr 1
    exact sum_congr rfl fun j _ => by rw [mul_div_assoc]
  have hi' := hsd i (by simpa using hi)
  unfold standardize
  have h1 : ∑ j ∈ range n, B i j * sd num (X j) / sd num (X i) * ((X j r - mean (X j)) / sd num (X j)) =
      (∑ j ∈ range n, B i j * X j r - ∑ j ∈ range n, B i j * mean (X j)) / sd num (X i) := by
    rw [← sum_sub_distrib, sum_div]
    refine sum_congr rfl fun j hj => ?_
    have hj' := hsd j (by simpa using hj)
    field_simp
  show (X i r - mean (X i)) / sd num (X i) = _ + (e i r - mean (e i)) / sd num (X i)
  rw [h1, hX i hi r, hmean, ← add_div]
  congr 1
  ring

/-- What the regressions have to deliver: least squares coefficients, and no true parent is dropped by the selection. -/
def RegressionRight (n : Nat) (B : Nat → Nat → ℚ) (X : Nat → Fin N → ℚ) (select : List Nat → Nat → Nat → Bool)
    (ols : Ols) : Prop :=
  (∀ S t, S.Nodup → (∀ p ∈ S, p < n) → t < n → IsLeastSquares S X (X t) (ols S t)) ∧
  ∀ ps t p, p ∈ ps → t < n → B t p ≠ 0 → select ps t p = true

/-- No zero of the prior knowledge denies a true edge. -/
def ZerosTrue (cfg : Config) (n : Nat) (B : Nat → Nat → ℚ) : Prop :=
  ∀ pk, cfg.pk = some pk → ∀ i j, i < n → j < n → pk i j = 0 → B i j = 0

theorem adjacency_recovered {cfg : Config} {n : Nat} {B : Nat → Nat → ℚ} {X e : Nat → Fin N → ℚ} (he : GoodErrors n e)
    (hX : FollowsModel (range n) B X e) {select : List Nat → Nat → Nat → Bool} {ols : Ols}
    (hr : RegressionRight n B X select ols) (hz : ZerosTrue cfg n B) {score : Score} {order : List Nat}
    (h : fitOrder cfg score n = .ok order)
    (htop : ∀ pre m post, order = pre ++ m :: post → ∀ j, j < n → B m j ≠ 0 → j ∈ pre) (i j : Nat) (hi : i < n)
    (hj : j < n) : estimateAdj cfg.pk (adaptiveLasso select ols) order i j = B i j := by
  have ho := fitOrder_isOrder h
  obtain ⟨pre, post, hsplit⟩ := List.append_of_mem ((ho.2 i).2 hi)
  obtain ⟨preds, hsub, hmem, hval⟩ := C55_rows_are_regressions (fit_of_order (adaptiveLasso select ols) h) hsplit
  rw [hval]
  have hpre : pre.Nodup := by
    have := ho.1; rw [hsplit] at this; exact (List.nodup_append.1 this).1
  have hparS : ∀ k, k < n → B i k ≠ 0 → k ∈ preds.filter (select preds i) := by
    intro k hk hB
    have hkp : k ∈ preds := (hmem k).2 ⟨htop pre i post hsplit k hk hB, fun pk hpk h0 => hB (hz pk hpk i k hi hk h0)⟩
    exact List.mem_filter.2 ⟨hkp, hr.2 preds i k hkp hi hB⟩
  have hSn : (preds.filter (select preds i)).Nodup := (hsub.nodup hpre).filter _
  have hbef : ∀ p ∈ preds.filter (select preds i), Before order p i := by
    intro p hp
    rw [hsplit]
    exact Before.of_mem_append (hsub.subset (List.mem_of_mem_filter hp)) (by simp)
  have hlt : ∀ p ∈ preds.filter (select preds i), p < n := fun p hp => (ho.2 p).1 (hbef p hp).mem_left
  by_cases hjS : j ∈ preds.filter (select preds i)
  · rw [if_pos (List.mem_of_mem_filter hjS)]
    unfold adaptiveLasso
    simp only
    rw [if_pos hjS]
    exact regression_recovers he hX ho htop hi hSn hbef hparS (hr.1 _ i hSn hlt hi) j hjS
  · have hB : B i j = 0 := by
      by_contra hB; exact hjS (hparS j hj hB)
    rw [hB]
    split
    · unfold adaptiveLasso; simp only; rw [if_neg hjS]
    · rfl

/-- C94: if moreover the regressions are least squares on a selection that keeps the true parents, the estimated
matrix *is* the true coefficient matrix. -/
theorem C94_coefficients_recovered {cfg : Config} (hs : cfg.soft = false) (hm : cfg.measure = .pwling)
    {num : Numerics N} (gpu : Score) {select : List Nat → Nat → Nat → Bool} {ols : Ols} {n : Nat} {B : Nat → Nat → ℚ}
    {X e : Nat → Fin N → ℚ} (he : GoodErrors n e) (hX : FollowsModel (range n) B X e) (hc : Compatible cfg n B)
    (hr : PwlingRight num n B e) (hreg : RegressionRight n B X select ols) (hz : ZerosTrue cfg n B) :
    ∃ order Bh, fitData cfg num gpu id select ols n X = .ok (order, Bh) ∧ ∀ i j, i < n → j < n → Bh i j = B i j := by
  obtain ⟨order, h⟩ := compatible_total hs hc (dataScore num gpu cfg.measure id n X)
  exact ⟨order, _, fit_of_order _ h, adjacency_recovered he hX hreg hz h (pwling_order hs hm gpu he hX hc hr h)⟩

/-- C94: the errors computed from the recovered matrix are the true errors. -/
theorem C94_errors_recovered {n : Nat} {B Bh : Nat → Nat → ℚ} {X e : Nat → Fin N → ℚ}
    (hX : FollowsModel (range n) B X e) (hB : ∀ i j, i < n → j < n → Bh i j = B i j) (i : Nat) (hi : i < n) (r : Fin N) :
    X i r - ∑ j ∈ range n, Bh i j * X j r = e i r := by
  have h : ∑ j ∈ range n, Bh i j * X j r = ∑ j ∈ range n, B i j * X j r :=
    sum_congr rfl (fun j hj => by rw [hB i j hi (by simpa using hj)])
  rw [h, hX i (by simpa using hi) r]
  ring

/-- A regression of the target on the source and any set of variables before the source which contains its true parents gives the
total effect. -/
theorem total_effect_of_leastSquares {n : Nat} {B : Nat → Nat → ℚ} {X e : Nat → Fin N → ℚ} (he : GoodErrors n e)
    (hX : FollowsModel (range n) B X e) {order : List Nat} (ho : IsOrder n order)
    (htop : ∀ i j, i < n → j < n → B i j ≠ 0 → Before order j i) {src dst : Nat} (hsrc : src < n) (hdst : dst < n)
    (hne : src ≠ dst) {P : List Nat} (hPn : P.Nodup) (hbef : ∀ p ∈ P, Before order p src)
    (hpar : ∀ j, j < n → B src j ≠ 0 → j ∈ P) {c : Nat → ℚ} (hls : IsLeastSquares (src :: P) X (X dst) c) :
    Paths.calcTotalEffect n (fun i j => some (B i j)) src dst = some (.ok (some (c src))) := by
  have htop' : ∀ pre m post, order = pre ++ m :: post → ∀ j, j < n → B m j ≠ 0 → j ∈ pre := by
    intro pre m post hsplit j hj hB
    have hm : m < n := (ho.2 m).1 (by rw [hsplit]; simp)
    obtain ⟨x, y, z, hb⟩ := htop m j hm hj hB
    have hnd := ho.1
    have e1 : pre ++ m :: post = (x ++ j :: y) ++ m :: z := by rw [← hsplit, hb]; simp
    have hpre : pre = x ++ j :: y := by
      have i1 : List.idxOf m (pre ++ m :: post) = pre.length := by
        rw [List.idxOf_append_of_notMem]
        · simp
        · rw [hsplit, List.nodup_append] at hnd
          exact fun h => hnd.2.2 m h m (by simp) rfl
      have i2 : List.idxOf m ((x ++ j :: y) ++ m :: z) = (x ++ j :: y).length := by
        rw [List.idxOf_append_of_notMem]
        · simp
        · rw [hsplit, e1, List.nodup_append] at hnd
          exact fun h => hnd.2.2 m h m (by simp) rfl
      rw [e1, i2] at i1
      exact (List.append_inj e1 i1.symm).1
    rw [hpre]; simp
  have hE : Acyclic (Edge n (Paths.clean (fun i j => some (B i j))) 0) := by
    refine acyclic_of_before ho.1 ?_
    rintro a b ⟨ha, hb, hw⟩
    exact htop b a hb ha (abs_pos.1 hw)
  have key : sampleCov (X dst) (e src) = c src * sampleCov (e src) (e src) :=
    effect_regression he hX ho htop' hsrc hPn hbef hpar hls
  have hv := nonConstant_iff.1 (he.2 src hsrc)
  set T : Fin n → ℚ := fun i => sampleCov (X i) (e src) / sampleCov (e src) (e src) with hT
  set M : Matrix (Fin n) (Fin n) ℚ := Matrix.of fun i j : Fin n => Paths.clean (fun i j => some (B i j)) i j with hM
  have hrec : (1 - M).mulVec T = Pi.single ⟨src, hsrc⟩ 1 := by
    funext i
    rw [Matrix.sub_mulVec, Matrix.one_mulVec, Pi.sub_apply]
    have h1 : M.mulVec T i = (∑ j ∈ range n, B i j * sampleCov (X j) (e src)) / sampleCov (e src) (e src) := by
      unfold Matrix.mulVec dotProduct
      rw [sum_div, Finset.sum_range]
      refine sum_congr rfl fun j _ => ?_
      rw [hT, mul_div_assoc]; rfl
    have h2 : sampleCov (X i) (e src) = (∑ j ∈ range n, B i j * sampleCov (X j) (e src)) + sampleCov (e i) (e src) := by
      have : X i = fun r => (∑ j ∈ range n, B i j * X j r) + e i r := by
        funext r; exact hX i (by simp) r
      conv_lhs => rw [this]
      rw [sampleCov_add_left, sampleCov_sum_left]
      congr 1
      exact sum_congr rfl fun j _ => sampleCov_mul_left _ _ _
    rw [h1, hT]
    simp only
    rw [h2, add_div, add_sub_cancel_left]
    by_cases his : i = ⟨src, hsrc⟩
    · subst his; rw [Pi.single_eq_same, div_self hv]
    · rw [Pi.single_eq_of_ne his, uncorrelated_iff.1 (he.1 i src i.2 hsrc (fun h => his (Fin.ext h))), zero_div]
  have hT2 : T ⟨dst, hdst⟩ = (1 - M)⁻¹ ⟨dst, hdst⟩ ⟨src, hsrc⟩ := by
    have hu : IsUnit (1 - M).det := Matrix.isUnit_det_of_left_inverse (Paths.pathSum_mul hE)
    have : T = ((1 - M)⁻¹).mulVec (Pi.single ⟨src, hsrc⟩ 1) := by
      rw [← hrec, Matrix.mulVec_mulVec, Matrix.nonsing_inv_mul _ hu, Matrix.one_mulVec]
    rw [this, Matrix.mulVec_single_one]; rfl
  rw [Paths.calcTotalEffect_acyclic hE hsrc hdst hne]
  have hfin := Paths.inv_apply hE ⟨dst, hdst⟩ ⟨src, hsrc⟩
  have hest : c src = T ⟨dst, hdst⟩ := by
    rw [hT]
    simp only
    rw [key, mul_div_assoc, div_self hv, mul_one]
  rw [hest, hT2, hfin]
  rfl

/-- C95: `estimate_total_effect` is the total effect of the true model, for every pair of variables and whatever their
order, if the estimated parents of the source include its true parents and all come before it in an order consistent
with the truth. -/
theorem C95_total_effect_recovered {n : Nat} {B Bh : Nat → Nat → ℚ} {X e : Nat → Fin N → ℚ} (he : GoodErrors n e)
    (hX : FollowsModel (range n) B X e) {order : List Nat} (ho : IsOrder n order)
    (htop : ∀ i j, i < n → j < n → B i j ≠ 0 → Before order j i) {src dst : Nat} (hsrc : src < n) (hdst : dst < n)
    (hne : src ≠ dst) (hpar : ∀ j, j < n → B src j ≠ 0 → Bh src j ≠ 0)
    (hbef : ∀ j, j < n → Bh src j ≠ 0 → Before order j src) {ols : Ols}
    (hols : ∀ S t, S.Nodup → (∀ p ∈ S, p < n) → t < n → IsLeastSquares S X (X t) (ols S t)) :
    Paths.calcTotalEffect n (fun i j => some (B i j)) src dst =
      some (.ok (some (estimateTotalEffect ols n Bh src dst))) := by
  have h0 : Bh src src = 0 := by
    by_contra h; exact Before.irrefl ho.1 src (hbef src hsrc h)
  have hPn : ((List.range n).filter (fun j => decide (0 < |Bh src j|))).Nodup := List.nodup_range.filter _
  have hmemP : ∀ p, p ∈ (List.range n).filter (fun j => decide (0 < |Bh src j|)) ↔ p < n ∧ Bh src p ≠ 0 := by
    intro p; simp [List.mem_filter, abs_pos]
  have hsP : src ∉ (List.range n).filter (fun j => decide (0 < |Bh src j|)) := fun h => ((hmemP src).1 h).2 h0
  refine total_effect_of_leastSquares he hX ho htop hsrc hdst hne hPn
    (fun p hp => hbef p ((hmemP p).1 hp).1 ((hmemP p).1 hp).2) (fun j hj hB => (hmemP j).2 ⟨hj, hpar j hj hB⟩)
    (hols (src :: (List.range n).filter (fun j => decide (0 < |Bh src j|))) dst (List.nodup_cons.2 ⟨hsP, hPn⟩) ?_ hdst)
  intro p hp
  rcases List.mem_cons.1 hp with rfl | hp
  · exact hsrc
  · exact ((hmemP p).1 hp).1

/-- C95, from data to effects: after a fit as in C94, `estimate_total_effect` gives the true total effect of every pair. -/
theorem C95_total_effect_after_fit {cfg : Config} (hs : cfg.soft = false) (hm : cfg.measure = .pwling)
    {num : Numerics N} (gpu : Score) {select : List Nat → Nat → Nat → Bool} {ols : Ols} {n : Nat} {B : Nat → Nat → ℚ}
    {X e : Nat → Fin N → ℚ} (he : GoodErrors n e) (hX : FollowsModel (range n) B X e) (hc : Compatible cfg n B)
    (hr : PwlingRight num n B e) (hreg : RegressionRight n B X select ols) (hz : ZerosTrue cfg n B) :
    ∃ order Bh, fitData cfg num gpu id select ols n X = .ok (order, Bh) ∧ ∀ src dst, src < n → dst < n → src ≠ dst →
      Paths.calcTotalEffect n (fun i j => some (B i j)) src dst =
        some (.ok (some (estimateTotalEffect ols n Bh src dst))) := by
  obtain ⟨order, h⟩ := compatible_total hs hc (dataScore num gpu cfg.measure id n X)
  have htop := pwling_order hs hm gpu he hX hc hr h
  have hadj := adjacency_recovered he hX hreg hz h htop
  have hb := before_of_parents (fitOrder_isOrder h) htop
  refine ⟨order, _, fit_of_order _ h, ?_⟩
  intro src dst hsrc hdst hne
  refine C95_total_effect_recovered he hX (fitOrder_isOrder h) hb hsrc hdst hne ?_ ?_ hreg.1
  · intro j hj hB; rw [hadj src j hsrc hj]; exact hB
  · intro j hj hB; rw [hadj src j hsrc hj] at hB; exact hb src j hsrc hj hB

/-! ### Prior knowledge -/

/-- "No path from 2 to 1" and "no path from 0 to 2". -/
def twoTrueNoPaths : PK := fun i j => if (i = 1 ∧ j = 2) ∨ (i = 2 ∧ j = 0) then 0 else -1

/-- The truth: one edge, from 0 to 1; variable 2 is isolated. -/
def oneEdge : Nat → Nat → ℚ := fun i j => if i = 1 ∧ j = 0 then 1 else 0

/-- C96, negation: prior knowledge in which every statement is true of the graph (`no_paths` that indeed do not exist) can
make the true edge impossible to find: whatever the data and the measure, 1 is placed before 0 and the edge is absent. -/
theorem C96_true_knowledge_blocks_truth :
    (∀ i j, i < 3 → j < 3 → twoTrueNoPaths i j = 0 → ¬ Relation.TransGen (Edge 3 oneEdge 0) j i) ∧
    (∀ i j, twoTrueNoPaths i j ≠ 1) ∧ Edge 3 oneEdge 0 0 1 ∧
    ∀ (N : Nat) (measure : Measure) (_ : measure ≠ .fast) (num : Numerics N) (gpu : Score) (store : ℚ → ℚ)
      (select : List Nat → Nat → Nat → Bool) (ols : Ols) (X : Nat → Fin N → ℚ),
      ∃ order Bh, fitData ⟨some twoTrueNoPaths, false, measure⟩ num gpu store select ols 3 X = .ok (order, Bh) ∧
        Before order 1 0 ∧ Bh 1 0 = 0 := by
  have hedge : ∀ a b, Edge 3 oneEdge 0 a b → a = 0 ∧ b = 1 := by
    rintro a b ⟨_, _, h⟩
    unfold oneEdge at h
    split at h
    · rename_i hh; exact ⟨hh.2, hh.1⟩
    · simp at h
  have htrans : ∀ a b, Relation.TransGen (Edge 3 oneEdge 0) a b → a = 0 ∧ b = 1 := by
    intro a b h
    induction h with
    | single h => exact hedge _ _ h
    | tail _ h ih => have := hedge _ _ h; exact ⟨ih.1, this.2⟩
  refine ⟨?_, ?_, ⟨by omega, by omega, by unfold oneEdge; simp⟩, ?_⟩
  · intro i j _ _ h ht
    obtain ⟨rfl, rfl⟩ := htrans _ _ ht
    exact absurd h (by decide)
  · intro i j
    unfold twoTrueNoPaths
    split <;> decide
  · intro N measure hm num gpu store select ols X
    have hac : Acyclic (MustPrecede 3 twoTrueNoPaths) := by
      refine acyclic_of_before (l := [1, 2, 0]) (by decide) ?_
      rintro a b ⟨_, _, h | ⟨h, _⟩⟩
      · unfold twoTrueNoPaths at h; split at h <;> omega
      · unfold twoTrueNoPaths at h
        split at h
        · rename_i hh
          rcases hh with ⟨rfl, rfl⟩ | ⟨rfl, rfl⟩
          · exact ⟨[], [], [0], rfl⟩
          · exact ⟨[1], [], [], rfl⟩
        · omega
    obtain ⟨order, ho⟩ := fitOrder_hard_total (cfg := ⟨some twoTrueNoPaths, false, measure⟩)
      (score := dataScore num gpu measure store 3 X) rfl rfl hac
    have hf := fit_of_order (adaptiveLasso select ols) ho
    have h1 := (C04_hard_prior_respected rfl rfl hm hf 1 2 (by omega) (by omega)).2 (by decide) (by decide)
    have h2 := (C04_hard_prior_respected rfl rfl hm hf 2 0 (by omega) (by omega)).2 (by decide) (by decide)
    have hb := Before.trans (fitOrder_isOrder ho).1 h1 h2
    refine ⟨order, _, hf, hb, ?_⟩
    by_contra hc
    exact Before.irrefl (fitOrder_isOrder ho).1 0
      (Before.trans (fitOrder_isOrder ho).1 (C02_edges_follow_order hf 1 0 hc) hb)

/-- C96, positive part: true statements about *paths* (`paths` requests, entries 1, nothing said about absent paths)
never conflict with the truth, so C93–C95 apply. -/
theorem C96_true_paths_compatible_partial {n : Nat} {B : Nat → Nat → ℚ} {pk : PK} {measure : Measure}
    (hB : Acyclic (Edge n B 0)) (hno : ∀ i j, i < n → j < n → pk i j ≠ 0)
    (htrue : ∀ i j, i < n → j < n → pk i j = 1 → Relation.TransGen (Edge n B 0) j i) :
    Compatible ⟨some pk, false, measure⟩ n B := by
  intro i hi
  have : ∀ a b, Relation.TransGen (fun a b => Edge n B 0 a b ∨
      ∃ pk', (⟨some pk, false, measure⟩ : Config).pk = some pk' ∧ MustPrecede n pk' a b) a b →
      Relation.TransGen (Edge n B 0) a b := by
    intro a b h
    have step : ∀ a b, (Edge n B 0 a b ∨
        ∃ pk', (⟨some pk, false, measure⟩ : Config).pk = some pk' ∧ MustPrecede n pk' a b) →
        Relation.TransGen (Edge n B 0) a b := by
      rintro a b (h | ⟨pk', hpk', h1, h2, h3 | ⟨h3, _⟩⟩)
      · exact .single h
      · injection hpk' with hpk'; subst hpk'; exact htrue b a h2 h1 h3
      · injection hpk' with hpk'; subst hpk'; exact absurd h3 (hno a b h1 h2)
    induction h with
    | single h => exact step _ _ h
    | tail _ h ih => exact ih.trans (step _ _ h)
  exact hB i (this i i hi)

theorem untouched_not_candidate {n : Nat} {pk : PK} {pre : List Nat} {i : Nat} (hi : SoftCandidate n pk pre i) :
    ¬ SoftUntouched n pk pre i := fun h => h.2.2.1 hi

/-- C97: with soft prior knowledge and `pwling`, a remaining variable known to receive nothing from the candidates is
compared with a candidate as it is; every other variable is compared through its residual. -/
theorem C97_pwling_uses_soft_knowledge_partial (num : Numerics N) (X : Nat → Fin N → ℚ) {cfg : Config} {pk : PK}
    (hpk : cfg.pk = some pk) (hs : cfg.soft = true) {n : Nat} {pre U : List Nat} (hU : ∀ x, x ∈ U ↔ x < n ∧ x ∉ pre)
    (i j : Nat) (hi : SoftCandidate n pk pre i) :
    (SoftUntouched n pk pre j → pairDiff num X (searchCandidate cfg [] U).1 (searchCandidate cfg [] U).2 i j =
      entropyGap num (standardize num (X i)) (standardize num (X j))
        (residual (standardize num (X i)) (standardize num (X j))) (standardize num (X j))) ∧
    (¬ SoftUntouched n pk pre j → pairDiff num X (searchCandidate cfg [] U).1 (searchCandidate cfg [] U).2 i j =
      advantage num (X i) (X j)) := by
  have hiC : i ∈ (searchCandidate cfg [] U).1 := (soft_candidate_iff hpk hs [] hU i).2 hi
  have hiV : i ∉ (searchCandidate cfg [] U).2 := fun h =>
    untouched_not_candidate hi ((soft_untouched_iff hpk hs [] hU i).1 h)
  constructor
  · intro hj
    have hjV := (soft_untouched_iff hpk hs [] hU j).2 hj
    simp [pairDiff, hiV, hjV, hiC, entropyGap_eq]
  · intro hj
    have hjV : j ∉ (searchCandidate cfg [] U).2 := fun h => hj ((soft_untouched_iff hpk hs [] hU j).1 h)
    simp [pairDiff, hiV, hjV, advantage, entropyGap_eq]

/-- C97, negation for `kernel`: the same knowledge is never used; the value of every candidate is computed as if no
variable were known to be untouched. -/
theorem C97_kernel_ignores_soft_knowledge (num : Numerics N) (X : Nat → Fin N → ℚ) {cfg : Config} {pk : PK}
    (hpk : cfg.pk = some pk) (hs : cfg.soft = true) {n : Nat} {pre U : List Nat} (hU : ∀ x, x ∈ U ↔ x < n ∧ x ∉ pre)
    (j : Nat) (hj : SoftCandidate n pk pre j) :
    kernelT num X U (searchCandidate cfg [] U).1 (searchCandidate cfg [] U).2 j =
      ((U.filter (fun i => decide (i ≠ j))).map (fun i => num.mi (X j) (residual (X i) (X j)))).sum := by
  have hjV : j ∉ (searchCandidate cfg [] U).2 := fun h =>
    untouched_not_candidate hj ((soft_untouched_iff hpk hs [] hU j).1 h)
  simp [kernelT, hjV]

/-! ### Data types -/

/-- An approximate square root (three Newton steps) and a fourth-moment criterion. -/
def exNum : Numerics 4 where
  sqrt := fun x => (fun y => (y + x / y) / 2) ((fun y => (y + x / y) / 2) ((1 + x) / 2))
  entropy := fun v => v 0 ^ 4 + v 1 ^ 4 + v 2 ^ 4 + v 3 ^ 4
  mi := fun _ _ => 0

/-- Three columns of integers. -/
def exInt : Nat → Fin 4 → ℚ
  | 0 => ![-3, -4, 0, -4]
  | 1 => ![1, 0, -3, -1]
  | _ => ![3, -1, -3, 1]

/-- C98, negation: the result depends on the *type* of the array.  For columns of integers stored with an integer type
the residuals are truncated when they are written back, and the order differs from the one for the same numbers stored
as floats. -/
theorem C98_integer_type_changes_order :
    (∀ k r, truncate (exInt k r) = exInt k r) ∧
    fitOrder ⟨none, false, .pwling⟩ (dataScore exNum (fun _ _ _ _ _ => none) .pwling id 3 exInt) 3 = .ok [2, 0, 1] ∧
    fitOrder ⟨none, false, .pwling⟩ (dataScore exNum (fun _ _ _ _ _ => none) .pwling truncate 3 exInt) 3 =
      .ok [2, 1, 0] := by
  refine ⟨?_, by decide +kernel, by decide +kernel⟩
  intro k
  match k with
  | 0 => decide +kernel
  | 1 => decide +kernel
  | (k + 2) => exact (by decide +kernel : ∀ r, truncate ((![3, -1, -3, 1] : Fin 4 → ℚ) r) = (![3, -1, -3, 1] : Fin 4 → ℚ) r)

/-- C98, positive part: the type does not matter with `kernel`, and with `pwling` if no residual is changed by the
conversion (float data). -/
theorem C98_type_irrelevant_partial {cfg : Config} {num : Numerics N} {gpu : Score} {store : ℚ → ℚ}
    {select : List Nat → Nat → Nat → Bool} {ols : Ols} {n : Nat} {X : Nat → Fin N → ℚ}
    (h : cfg.measure ≠ .pwling ∨ ∀ A, working store n X A = working id n X A) :
    fitData cfg num gpu store select ols n X = fitData cfg num gpu id select ols n X := by
  have : dataScore num gpu cfg.measure store n X = dataScore num gpu cfg.measure id n X := by
    funext A U Uc Vj i
    unfold dataScore
    cases hm : cfg.measure with
    | pwling =>
      rcases h with h | h
      · exact absurd hm h
      · simp only [h]
    | kernel => rfl
    | fast => rfl
  unfold fitData
  rw [this]

/-! ### Concrete cases meeting the hypotheses -/

/-- Errors of a two-variable model. -/
def exE : Nat → Fin 4 → ℚ
  | 0 => ![4, 4, -4, -4]
  | 1 => ![3, -3, 3, -3]
  | _ => ![0, 0, 0, 0]

/-- `x1 = x0 + e1`. -/
def exX : Nat → Fin 4 → ℚ
  | 0 => ![4, 4, -4, -4]
  | 1 => ![7, 1, -1, -7]
  | _ => ![0, 0, 0, 0]

/-- Exact roots of the variances that occur; fourth moments as entropy; dependence = fourth moments differ. -/
def exRight : Numerics 4 where
  sqrt := fun x => if x = 16 then 4 else if x = 25 then 5 else if x = 9 / 25 then 3 / 5 else 1
  entropy := fun v => v 0 ^ 4 + v 1 ^ 4 + v 2 ^ 4 + v 3 ^ 4
  mi := fun _ _ => 0

theorem exE_good : GoodErrors 2 exE := by
  constructor
  · intro i j hi hj hij
    rcases (by omega : (i = 0 ∧ j = 1) ∨ (i = 1 ∧ j = 0)) with ⟨rfl, rfl⟩ | ⟨rfl, rfl⟩ <;>
      (unfold Uncorrelated; decide +kernel)
  · intro i hi
    rcases (by omega : i = 0 ∨ i = 1) with rfl | rfl
    · exact ⟨0, 2, by decide +kernel⟩
    · exact ⟨0, 1, by decide +kernel⟩

theorem exX_follows : FollowsModel (range 2) oneEdge exX exE := by
  unfold FollowsModel; decide +kernel

theorem exCompatible : Compatible ⟨none, false, .pwling⟩ 2 oneEdge := by
  refine acyclic_of_before (l := [0, 1]) (by decide) ?_
  rintro a b (⟨_, _, h⟩ | ⟨pk, h, _⟩)
  · unfold oneEdge at h
    split at h
    · rename_i hh; obtain ⟨rfl, rfl⟩ := hh; exact ⟨[], [], [], rfl⟩
    · simp at h
  · cases h

theorem exPwlingRight : PwlingRight exRight 2 oneEdge exE := by
  intro U Y hU hY i hi
  have hY0 : 0 ∈ U → Y 0 = exX 0 := by
    intro h
    funext r
    rw [hY 0 h r, sum_eq_zero (fun j _ => by simp [oneEdge]), zero_add]
    revert r; decide +kernel
  have hY1 : 0 ∈ U → 1 ∈ U → Y 1 = exX 1 := by
    intro h0 h1
    funext r
    rw [hY 1 h1 r, sum_eq_single 0 (fun j _ hj => by simp [oneEdge, hj]) (fun h => absurd h0 h), hY0 h0]
    revert r; decide +kernel
  have hlt : ∀ j ∈ U, j = 0 ∨ j = 1 := by
    intro j hj; have := mem_range.1 (hU hj); omega
  rcases hlt i hi with rfl | rfl
  · refine ⟨fun _ j hj hji => ?_, fun ⟨j, _, hB⟩ => absurd (by simp [oneEdge]) hB⟩
    rcases hlt j hj with rfl | rfl
    · exact absurd rfl hji
    · rw [hY0 hi, hY1 hi hj]; decide +kernel
  · refine ⟨fun h j hj hji => ?_, fun ⟨j, hj, hB⟩ => ?_⟩
    · rcases hlt j hj with rfl | rfl
      · exact absurd (h 0 hj) (by decide +kernel)
      · exact absurd rfl hji
    · rcases hlt j hj with rfl | rfl
      · refine ⟨0, hj, by omega, ?_⟩
        rw [hY0 hj, hY1 hj hi]; decide +kernel
      · exact absurd (by simp [oneEdge]) hB

/-- Least squares for at most one predictor, and for a target among the predictors. -/
def exOls : Ols := fun S t p =>
  if t ∈ S then (if p = t then 1 else 0) else sampleCov (exX t) (exX p) / sampleCov (exX p) (exX p)

theorem exRegressionRight : RegressionRight 2 oneEdge exX (fun _ _ _ => true) exOls := by
  refine ⟨?_, fun _ _ _ _ _ _ => rfl⟩
  intro S t hS hn ht q hq
  by_cases htS : t ∈ S
  · have h0 : ∀ r, exX t r - (S.map (fun p => exOls S t p * exX p r)).sum = 0 := by
      intro r
      rw [← List.sum_toFinset _ hS, sum_eq_single t]
      · simp [exOls, htS]
      · intro b _ hb; simp [exOls, htS, hb]
      · intro h; exact absurd (by simpa using htS) h
    rw [uncorrelated_iff]
    simp only [h0]
    exact sampleCov_zero_left _
  · have hSq : S = [q] := by
      have hall : ∀ p ∈ S, p = q := by
        intro p hp
        have h1 := hn p hp
        have h2 := hn q hq
        have h3 : p ≠ t := fun h => htS (h ▸ hp)
        have h4 : q ≠ t := fun h => htS (h ▸ hq)
        omega
      match S, hS, hq, hall with
      | [a], _, _, hall => rw [hall a (by simp)]
      | a :: b :: l, hS, _, hall =>
        have := hall a (by simp); have h2 := hall b (by simp)
        subst this; subst h2; simp at hS
    subst hSq
    have hqt : q ≠ t := fun h => htS (by simp [h])
    have h2 := hn q (by simp)
    rw [uncorrelated_iff, sampleCov_sub_left, sampleCov_list_left]
    simp only [List.map_cons, List.map_nil, List.sum_cons, List.sum_nil, add_zero, exOls, if_neg htS]
    rw [div_mul_cancel₀, sub_self]
    rcases (by omega : q = 0 ∨ q = 1) with rfl | rfl <;> decide +kernel

/-- All hypotheses of C92–C95 hold for this data set, so the fit returns the true matrix. -/
example : ∃ order Bh, fitData ⟨none, false, .pwling⟩ exRight (fun _ _ _ _ _ => none) id (fun _ _ _ => true) exOls 2 exX =
    .ok (order, Bh) ∧ ∀ i j, i < 2 → j < 2 → Bh i j = oneEdge i j :=
  C94_coefficients_recovered rfl rfl _ exE_good exX_follows exCompatible exPwlingRight exRegressionRight
    (fun pk h => by cases h)

example : fitOrder ⟨none, false, .pwling⟩ (dataScore exRight (fun _ _ _ _ _ => none) .pwling id 2 exX) 2 = .ok [0, 1] := by
  decide +kernel

/-- The total effect of the example, and the regression coefficient that estimates it. -/
example : estimateTotalEffect exOls 2 oneEdge 0 1 = 1 ∧ estimateTotalEffect exOls 2 oneEdge 1 0 = 0 := by
  decide +kernel

/-- The same with a dependence measure that compares squares: zero if the squares are uncorrelated. -/
def exKer : Numerics 4 where
  sqrt := exRight.sqrt
  entropy := fun _ => 0
  mi := fun x y => (sampleCov (fun r => x r ^ 2) (fun r => y r ^ 2)) ^ 2

/-- The coefficient after standardisation. -/
def exKerB : Nat → Nat → ℚ := fun i j => if i = 1 ∧ j = 0 then 4 / 5 else 0

/-- The errors after standardisation. -/
def exKerE : Nat → Fin 4 → ℚ
  | 0 => ![1, 1, -1, -1]
  | 1 => ![3 / 5, -3 / 5, 3 / 5, -3 / 5]
  | _ => ![0, 0, 0, 0]

theorem exKerE_good : GoodErrors 2 exKerE := by
  constructor
  · intro i j hi hj hij
    rcases (by omega : (i = 0 ∧ j = 1) ∨ (i = 1 ∧ j = 0)) with ⟨rfl, rfl⟩ | ⟨rfl, rfl⟩ <;>
      (unfold Uncorrelated; decide +kernel)
  · intro i hi
    rcases (by omega : i = 0 ∨ i = 1) with rfl | rfl
    · exact ⟨0, 2, by decide +kernel⟩
    · exact ⟨0, 1, by decide +kernel⟩

theorem exKer_follows : FollowsModel (range 2) exKerB (fun k => standardize exKer (exX k)) exKerE := by
  unfold FollowsModel; decide +kernel

theorem exKernelRight : KernelRight exKer 2 exKerB exKerE := by
  intro U Y hU hY i hi
  have hY0 : 0 ∈ U → Y 0 = exKerE 0 := by
    intro h
    funext r
    rw [hY 0 h r, sum_eq_zero (fun j _ => by simp [exKerB]), zero_add]
  have hY1 : 0 ∈ U → 1 ∈ U → Y 1 = ![7 / 5, 1 / 5, -1 / 5, -7 / 5] := by
    intro h0 h1
    funext r
    rw [hY 1 h1 r, sum_eq_single 0 (fun j _ hj => by simp [exKerB, hj]) (fun h => absurd h0 h), hY0 h0]
    revert r; decide +kernel
  have hlt : ∀ j ∈ U, j = 0 ∨ j = 1 := by
    intro j hj; have := mem_range.1 (hU hj); omega
  refine ⟨?_, fun j _ _ => sq_nonneg _, ?_⟩
  · intro h j hj hji
    rcases hlt i hi with rfl | rfl <;> rcases hlt j hj with rfl | rfl
    · exact absurd rfl hji
    · rw [hY0 hi, hY1 hi hj]; decide +kernel
    · exact absurd (h 0 hj) (by decide +kernel)
    · exact absurd rfl hji
  · rintro ⟨j, hj, hB⟩
    rcases hlt i hi with rfl | rfl <;> rcases hlt j hj with rfl | rfl
    · exact absurd (by decide +kernel) hB
    · exact absurd (by decide +kernel) hB
    · refine ⟨0, hj, by omega, ?_⟩
      rw [hY0 hj, hY1 hj hi]; decide +kernel
    · exact absurd (by decide +kernel) hB

example : ∃ order Bh, fitData ⟨none, false, .kernel⟩ exKer (fun _ _ _ _ _ => none) truncate (fun _ _ _ => true) exOls 2
    exX = .ok (order, Bh) ∧ IsOrder 2 order ∧ ∀ i j, i < 2 → j < 2 → exKerB i j ≠ 0 → Before order j i := by
  refine C93_order_recovered_kernel rfl rfl _ _ _ _ exKerE_good exKer_follows ?_ exKernelRight
  refine acyclic_of_before (l := [0, 1]) (by decide) ?_
  rintro a b (⟨_, _, h⟩ | ⟨pk, h, _⟩)
  · unfold exKerB at h
    split at h
    · rename_i hh; obtain ⟨rfl, rfl⟩ := hh; exact ⟨[], [], [], rfl⟩
    · simp at h
  · cases h

/-- A soft step in which variable 3 is known to be untouched (hypotheses of C97). -/
example : SoftUntouched 4 exSoft [] 3 ∧ SoftCandidate 4 exSoft [] 0 := by
  have h : ∀ x, x ∈ (searchCandidate ⟨some exSoft, true, .pwling⟩ [] [0, 1, 2, 3]).1 ↔ SoftCandidate 4 exSoft [] x :=
    soft_candidate_iff rfl rfl [] (by intro x; simp; omega)
  have h' : ∀ x, x ∈ (searchCandidate ⟨some exSoft, true, .pwling⟩ [] [0, 1, 2, 3]).2 ↔ SoftUntouched 4 exSoft [] x :=
    soft_untouched_iff rfl rfl [] (by intro x; simp; omega)
  exact ⟨(h' 3).1 (by decide +kernel), (h 0).1 (by decide +kernel)⟩

end Verif.Direct
