import Verif.Props.DirectData

/-!
# The two computations of a total effect (C245)

`estimate_total_effect` regresses the target on the source and its estimated parents.  The other computation multiplies
the coefficients of the estimated matrix along the paths.  They agree in the sample if what the estimated model leaves
over is uncorrelated, in particular if no edge was pruned.  With a missing edge they may differ.
-/
set_option linter.unusedSectionVars false
set_option autoImplicit false
namespace Verif.Direct
open Finset
variable {N : Nat}

/-- What the estimated coefficients leave over of column `i` (specification). -/
def leftOver (n : Nat) (B : Nat → Nat → ℚ) (X : Nat → Fin N → ℚ) (i : Nat) : Fin N → ℚ :=
  fun r => X i r - ∑ j ∈ range n, B i j * X j r

theorem leftOver_follows (n : Nat) (B : Nat → Nat → ℚ) (X : Nat → Fin N → ℚ) :
    FollowsModel (range n) B X (leftOver n B X) := by
  intro i _ r
  unfold leftOver
  ring

/-- Any causal order and adaptive lasso: agreement from uncorrelated leftovers. -/
theorem agree_of_uncorrelated {cfg : Config} {score : Score} {select : List Nat → Nat → Nat → Bool} {ols : Ols} {n : Nat}
    {X : Nat → Fin N → ℚ} {order : List Nat} {B : Nat → Nat → ℚ}
    (h : fit cfg score (adaptiveLasso select ols) n = .ok (order, B))
    (hols : ∀ S t, S.Nodup → (∀ p ∈ S, p < n) → t < n → IsLeastSquares S X (X t) (ols S t))
    (he : GoodErrors n (leftOver n B X)) {src dst : Nat} (hsrc : src < n) (hdst : dst < n) (hne : src ≠ dst) :
    Paths.calcTotalEffect n (fun i j => some (B i j)) src dst =
      some (.ok (some (estimateTotalEffect ols n B src dst))) :=
  C95_total_effect_recovered he (leftOver_follows n B X) (fitOrder_isOrder (fit_ok h).1)
    (fun i j _ _ hB => C02_edges_follow_order h i j hB) hsrc hdst hne (fun _ _ hB => hB)
    (fun j _ hB => C02_edges_follow_order h src j hB) hols

/-- If no edge of the order is missing, what is left over of a column is uncorrelated with all columns before it. -/
theorem leftOver_uncorrelated {cfg : Config} {score : Score} {select : List Nat → Nat → Nat → Bool} {ols : Ols} {n : Nat}
    {X : Nat → Fin N → ℚ} {order : List Nat} {B : Nat → Nat → ℚ}
    (h : fit cfg score (adaptiveLasso select ols) n = .ok (order, B))
    (hols : ∀ S t, S.Nodup → (∀ p ∈ S, p < n) → t < n → IsLeastSquares S X (X t) (ols S t))
    (hfull : ∀ i j, Before order j i → B i j ≠ 0) {i q : Nat} (hb : Before order q i) :
    sampleCov (leftOver n B X i) (X q) = 0 := by
  have ho := fitOrder_isOrder (fit_ok h).1
  have hi : i < n := (ho.2 i).1 hb.mem_right
  obtain ⟨pre, post, hsplit⟩ := List.append_of_mem hb.mem_right
  obtain ⟨preds, hsub, hmem, hval⟩ := C55_rows_are_regressions h hsplit
  have hpre : pre.Nodup := by
    have := ho.1; rw [hsplit] at this; exact (List.nodup_append.1 this).1
  set S := preds.filter (select preds i) with hS
  have hSn : S.Nodup := (hsub.nodup hpre).filter _
  have hBS : ∀ j, B i j = if j ∈ S then ols S i j else 0 := by
    intro j
    rw [hval]
    by_cases hj : j ∈ S
    · rw [if_pos (List.mem_of_mem_filter hj), if_pos hj]
      unfold adaptiveLasso
      simp only
      rw [if_pos hj]
    · rw [if_neg hj]
      split
      · unfold adaptiveLasso; simp only; rw [if_neg hj]
      · rfl
  have hlt : ∀ p ∈ S, p < n := by
    intro p hp
    refine (ho.2 p).1 ?_
    rw [hsplit]
    exact List.mem_append_left _ (hsub.subset (List.mem_of_mem_filter hp))
  have hq : q ∈ S := by
    by_contra hq
    exact hfull i q hb (by rw [hBS, if_neg hq])
  have hls := uncorrelated_iff.1 (hols S i hSn hlt hi q hq)
  have heq : leftOver n B X i = fun r => X i r - (S.map (fun p => ols S i p * X p r)).sum := by
    funext r
    unfold leftOver
    congr 1
    rw [← List.sum_toFinset _ hSn]
    rw [← Finset.sum_subset (s₁ := S.toFinset) (fun p hp => mem_range.2 (hlt p (List.mem_toFinset.1 hp)))
      (fun p _ hp => by rw [hBS, if_neg (fun h => hp (List.mem_toFinset.2 h)), zero_mul])]
    exact Finset.sum_congr rfl fun p hp => by rw [hBS, if_pos (List.mem_toFinset.1 hp)]
  rw [heq]
  exact hls

/-- Any causal order and adaptive lasso: agreement if no edge of the order is missing. -/
theorem agree_of_complete {cfg : Config} {score : Score} {select : List Nat → Nat → Nat → Bool} {ols : Ols} {n : Nat}
    {X : Nat → Fin N → ℚ} {order : List Nat} {B : Nat → Nat → ℚ}
    (h : fit cfg score (adaptiveLasso select ols) n = .ok (order, B))
    (hols : ∀ S t, S.Nodup → (∀ p ∈ S, p < n) → t < n → IsLeastSquares S X (X t) (ols S t))
    (hfull : ∀ i j, Before order j i → B i j ≠ 0) (hv : ∀ i, i < n → NonConstant (leftOver n B X i))
    {src dst : Nat} (hsrc : src < n) (hdst : dst < n) (hne : src ≠ dst) :
    Paths.calcTotalEffect n (fun i j => some (B i j)) src dst =
      some (.ok (some (estimateTotalEffect ols n B src dst))) := by
  have ho := fitOrder_isOrder (fit_ok h).1
  have key : ∀ i j, Before order j i → sampleCov (leftOver n B X i) (leftOver n B X j) = 0 := by
    intro i j hb
    rw [sampleCov_comm]
    unfold leftOver
    rw [sampleCov_sub_left (X j) (fun r => ∑ k ∈ range n, B j k * X k r), sampleCov_comm,
      show (fun r => X i r - ∑ k ∈ range n, B i k * X k r) = leftOver n B X i from rfl,
      leftOver_uncorrelated h hols hfull hb, zero_sub, neg_eq_zero,
      sampleCov_sum_left (range n) (fun k r => B j k * X k r)]
    refine Finset.sum_eq_zero fun k _ => ?_
    rw [sampleCov_mul_left]
    by_cases hk : B j k = 0
    · rw [hk, zero_mul]
    · rw [sampleCov_comm, leftOver_uncorrelated h hols hfull
        (Before.trans ho.1 (C02_edges_follow_order h j k hk) hb), mul_zero]
  refine agree_of_uncorrelated h hols ⟨fun i j hi hj hij => uncorrelated_iff.2 ?_, hv⟩ hsrc hdst hne
  rcases Before.total ((ho.2 i).2 hi) ((ho.2 j).2 hj) hij with hb | hb
  · rw [sampleCov_comm]; exact key j i hb
  · exact key i j hb

/-- C245: after every fit, if what the estimated model leaves over of the columns is uncorrelated and not constant, the
regression of `estimate_total_effect` and the paths of the estimated matrix give the same number, for every pair. -/
theorem C245_uncorrelated {cfg : Config} {num : Numerics N} {gpu : Score} {store : ℚ → ℚ}
    {select : List Nat → Nat → Nat → Bool} {ols : Ols} {n : Nat} {X : Nat → Fin N → ℚ} {order : List Nat}
    {B : Nat → Nat → ℚ} (h : fitData cfg num gpu store select ols n X = .ok (order, B))
    (hols : ∀ S t, S.Nodup → (∀ p ∈ S, p < n) → t < n → IsLeastSquares S X (X t) (ols S t))
    (he : GoodErrors n (leftOver n B X)) {src dst : Nat} (hsrc : src < n) (hdst : dst < n) (hne : src ≠ dst) :
    Paths.calcTotalEffect n (fun i j => some (B i j)) src dst =
      some (.ok (some (estimateTotalEffect ols n B src dst))) :=
  agree_of_uncorrelated h hols he hsrc hdst hne

/-- C245: if the fit kept all edges which its order allows and no column is an exact linear function of the columns before
it, both computations agree in the sample, for every pair - also against the order. -/
theorem C245_complete {cfg : Config} {num : Numerics N} {gpu : Score} {store : ℚ → ℚ}
    {select : List Nat → Nat → Nat → Bool} {ols : Ols} {n : Nat} {X : Nat → Fin N → ℚ} {order : List Nat}
    {B : Nat → Nat → ℚ} (h : fitData cfg num gpu store select ols n X = .ok (order, B))
    (hols : ∀ S t, S.Nodup → (∀ p ∈ S, p < n) → t < n → IsLeastSquares S X (X t) (ols S t))
    (hfull : ∀ i j, Before order j i → B i j ≠ 0) (hv : ∀ i, i < n → NonConstant (leftOver n B X i))
    {src dst : Nat} (hsrc : src < n) (hdst : dst < n) (hne : src ≠ dst) :
    Paths.calcTotalEffect n (fun i j => some (B i j)) src dst =
      some (.ok (some (estimateTotalEffect ols n B src dst))) :=
  agree_of_complete h hols hfull hv hsrc hdst hne

/-! ### Least squares coefficients exist for all data -/

/-- For every data set there is a regression as the theorems ask for. -/
theorem exists_leastSquares (X : Nat → Fin N → ℚ) (S : List Nat) (hS : S.Nodup) :
    ∀ y : Fin N → ℚ, ∃ c, IsLeastSquares S X y c := by
  induction S with
  | nil => exact fun _ => ⟨fun _ => 0, fun q hq => absurd hq (by simp)⟩
  | cons a S ih =>
    intro y
    have haS : a ∉ S := (List.nodup_cons.1 hS).1
    obtain ⟨c1, h1⟩ := ih (List.nodup_cons.1 hS).2 y
    obtain ⟨c2, h2⟩ := ih (List.nodup_cons.1 hS).2 (X a)
    set r1 : Fin N → ℚ := fun r => y r - (S.map (fun p => c1 p * X p r)).sum with hr1
    set r2 : Fin N → ℚ := fun r => X a r - (S.map (fun p => c2 p * X p r)).sum with hr2
    have g1 : ∀ q ∈ S, sampleCov r1 (X q) = 0 := fun q hq => uncorrelated_iff.1 (h1 q hq)
    have g2 : ∀ q ∈ S, sampleCov r2 (X q) = 0 := fun q hq => uncorrelated_iff.1 (h2 q hq)
    set b := sampleCov r1 r2 / sampleCov r2 r2 with hb
    set c : Nat → ℚ := fun p => if p = a then b else c1 p - b * c2 p with hc
    have hres : (fun r => y r - ((a :: S).map (fun p => c p * X p r)).sum) = fun r => r1 r - b * r2 r := by
      funext r
      have e1 : S.map (fun p => c p * X p r) = S.map (fun p => c1 p * X p r - b * (c2 p * X p r)) := by
        refine List.map_congr_left fun p hp => ?_
        have hpa : p ≠ a := fun h => haS (h ▸ hp)
        rw [hc]
        simp only [if_neg hpa]
        ring
      have e2 : ∀ l : List Nat, (l.map (fun p => c1 p * X p r - b * (c2 p * X p r))).sum =
          (l.map (fun p => c1 p * X p r)).sum - b * (l.map (fun p => c2 p * X p r)).sum := by
        intro l
        induction l with
        | nil => simp
        | cons x l ih => simp only [List.map_cons, List.sum_cons, ih]; ring
      rw [List.map_cons, List.sum_cons, e1, e2, hr1, hr2, hc]
      simp only [if_true]
      ring
    have hq : ∀ q ∈ S, sampleCov (fun r => r1 r - b * r2 r) (X q) = 0 := by
      intro q hq
      rw [sampleCov_sub_left r1 (fun r => b * r2 r), sampleCov_mul_left, g1 q hq, g2 q hq]
      ring
    refine ⟨c, fun q hqm => ?_⟩
    rw [hres, uncorrelated_iff]
    rcases List.mem_cons.1 hqm with rfl | hqS
    · have hX : X q = fun r => r2 r + (S.map (fun p => c2 p * X p r)).sum := by
        funext r; rw [hr2]; ring
      have hz : sampleCov (fun r => (S.map (fun p => c2 p * X p r)).sum) (fun r => r1 r - b * r2 r) = 0 := by
        rw [sampleCov_list_left]
        refine List.sum_eq_zero fun x hx => ?_
        obtain ⟨p, hp, rfl⟩ := List.mem_map.1 hx
        rw [sampleCov_comm, hq p hp, mul_zero]
      rw [sampleCov_comm, hX, sampleCov_add_left, hz, add_zero, sampleCov_comm,
        sampleCov_sub_left r1 (fun r => b * r2 r), sampleCov_mul_left, hb]
      by_cases h0 : sampleCov r2 r2 = 0
      · rw [sampleCov_comm r1, sampleCov_const_left h0]; simp
      · rw [div_mul_cancel₀ _ h0, sub_self]
    · exact hq q hqS

theorem exists_ols (n : Nat) (X : Nat → Fin N → ℚ) :
    ∃ ols : Ols, ∀ S t, S.Nodup → (∀ p ∈ S, p < n) → t < n → IsLeastSquares S X (X t) (ols S t) := by
  classical
  refine ⟨fun S t => if h : S.Nodup then (exists_leastSquares X S h (X t)).choose else fun _ => 0, ?_⟩
  intro S t hS _ _
  beta_reduce
  rw [dif_pos hS]
  exact (exists_leastSquares X S hS (X t)).choose_spec

/-! ### A missing edge -/

/-- The first column causes both others, the second causes nothing. -/
def forkX : Nat → Fin 4 → ℚ
  | 0 => ![1, 1, -1, -1]
  | 1 => ![2, 0, 0, -2]
  | 2 => ![2, 0, -2, 0]
  | _ => ![0, 0, 0, 0]

/-- Prior knowledge: no path between the first and the third column, in either direction. -/
def noEnds : PK := fun i j => if (i = 2 ∧ j = 0) ∨ (i = 0 ∧ j = 2) then 0 else -1

/-- The matrix of a fit with that knowledge. -/
def chainB : Nat → Nat → ℚ := fun i j => if i = 1 ∧ j = 0 then 1 else if i = 2 ∧ j = 1 then 1 / 2 else 0

theorem single_coefficient {X : Nat → Fin N → ℚ} {p : Nat} {y : Fin N → ℚ} {c : Nat → ℚ}
    (h : IsLeastSquares [p] X y c) : sampleCov y (X p) = c p * sampleCov (X p) (X p) := by
  have := uncorrelated_iff.1 (h p (by simp))
  simp only [List.map_cons, List.map_nil, List.sum_cons, List.sum_nil, add_zero] at this
  rw [sampleCov_sub_left y (fun r => c p * X p r), sampleCov_mul_left] at this
  linarith

/-- C245: with an edge missing the two computations may differ.  Whatever the measure, when the order is that of the columns
and the knowledge removes the edge between the ends, the paths of the estimated matrix give one half and the regression
gives one. -/
theorem C245_missing {soft : Bool} {measure : Measure} {num : Numerics 4} {gpu : Score} {store : ℚ → ℚ} {ols : Ols}
    {B : Nat → Nat → ℚ}
    (h : fitData ⟨some noEnds, soft, measure⟩ num gpu store (fun _ _ _ => true) ols 3 forkX = .ok ([0, 1, 2], B))
    (hols : ∀ S t, S.Nodup → (∀ p ∈ S, p < 3) → t < 3 → IsLeastSquares S forkX (forkX t) (ols S t)) :
    Paths.calcTotalEffect 3 (fun i j => some (B i j)) 0 2 = some (.ok (some (1 / 2))) ∧
      estimateTotalEffect ols 3 B 0 2 = 1 := by
  have c10 : ols [0] 1 0 = 1 := by
    have := single_coefficient (hols [0] 1 (by simp) (by simp) (by omega))
    rw [show sampleCov (forkX 1) (forkX 0) = 16 by decide +kernel,
      show sampleCov (forkX 0) (forkX 0) = 16 by decide +kernel] at this
    linarith
  have c20 : ols [0] 2 0 = 1 := by
    have := single_coefficient (hols [0] 2 (by simp) (by simp) (by omega))
    rw [show sampleCov (forkX 2) (forkX 0) = 16 by decide +kernel,
      show sampleCov (forkX 0) (forkX 0) = 16 by decide +kernel] at this
    linarith
  have c21 : ols [1] 2 1 = 1 / 2 := by
    have := single_coefficient (hols [1] 2 (by simp) (by simp) (by omega))
    rw [show sampleCov (forkX 2) (forkX 1) = 16 by decide +kernel,
      show sampleCov (forkX 1) (forkX 1) = 32 by decide +kernel] at this
    linarith
  have hB : B = chainB := by
    funext i j
    by_cases hi : i < 3
    · rw [(fit_ok h).2]
      rcases (by omega : i = 0 ∨ i = 1 ∨ i = 2) with rfl | rfl | rfl
      · rw [estimateAdj_row (order := [0, 1, 2]) (t := 0) (pre := []) (post := [1, 2]) (by simp) rfl]
        simp [predictors, chainB]
      · rw [estimateAdj_row (order := [0, 1, 2]) (t := 1) (pre := [0]) (post := [2]) (by simp) rfl,
          show predictors (some noEnds) [0] 1 = [0] by decide +kernel]
        by_cases hj : j = 0
        · subst hj; simp [adaptiveLasso, c10, chainB]
        · simp [hj, chainB]
      · rw [estimateAdj_row (order := [0, 1, 2]) (t := 2) (pre := [0, 1]) (post := []) (by simp) rfl,
          show predictors (some noEnds) [0, 1] 2 = [1] by decide +kernel]
        by_cases hj : j = 1
        · subst hj; simp [adaptiveLasso, c21, chainB]
        · simp [hj, chainB]
    · rw [show chainB i j = 0 by
        unfold chainB
        rw [if_neg (by omega), if_neg (by omega)]]
      by_contra hne
      have := (C02_edges_follow_order h i j hne).mem_right
      simp at this
      omega
  subst hB
  refine ⟨by decide +kernel, ?_⟩
  unfold estimateTotalEffect
  rw [show effectPredictors 3 chainB 0 = [0] by decide +kernel]
  exact c20

/-! ### Examples -/

/-- The hypotheses of `C245_missing` can be met. -/
example : ∃ (ols : Ols) (B : Nat → Nat → ℚ),
    fitData ⟨some noEnds, false, .fast⟩ exRight (fun _ _ _ _ i => some (-(i : ℚ))) id (fun _ _ _ => true) ols 3 forkX =
      .ok ([0, 1, 2], B) ∧
    ∀ S t, S.Nodup → (∀ p ∈ S, p < 3) → t < 3 → IsLeastSquares S forkX (forkX t) (ols S t) := by
  obtain ⟨ols, h⟩ := exists_ols 3 forkX
  exact ⟨ols, _, fit_of_order _ (by decide +kernel), h⟩

/-- A complete fit with two columns: both computations agree. -/
example : ∃ order B, fitData ⟨none, false, .pwling⟩ exRight (fun _ _ _ _ _ => none) id (fun _ _ _ => true) exOls 2 exX =
      .ok (order, B) ∧ (∀ i j, Before order j i → B i j ≠ 0) ∧ (∀ i, i < 2 → NonConstant (leftOver 2 B exX i)) := by
  refine ⟨[0, 1], _, fit_of_order _ (by decide +kernel), ?_, ?_⟩
  · intro i j hb
    obtain ⟨x, y, z, hb⟩ := hb
    obtain ⟨rfl, rfl⟩ : j = 0 ∧ i = 1 := by
      rcases x with _ | ⟨a, x⟩
      · rcases y with _ | ⟨b, y⟩
        · simp at hb; omega
        · rcases y with _ | ⟨b, y⟩ <;> simp at hb
      · rcases x with _ | ⟨b, x⟩
        · rcases y with _ | ⟨b, y⟩ <;> simp at hb
        · rcases x with _ | ⟨b, x⟩ <;> simp at hb
    decide +kernel
  · intro i hi
    rcases (by omega : i = 0 ∨ i = 1) with rfl | rfl
    · exact ⟨0, 2, by decide +kernel⟩
    · exact ⟨0, 1, by decide +kernel⟩

end Verif.Direct
