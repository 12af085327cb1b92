import Verif.Proofs.Pairwise
import Mathlib.Analysis.Complex.ExponentialBounds
import Mathlib.Analysis.SpecialFunctions.Trigonometric.DerivHyp
import Mathlib.Analysis.SpecialFunctions.Trigonometric.Series
import Mathlib.Tactic.Positivity
import Mathlib.Tactic.FieldSimp
import Mathlib.Tactic.NormNum
import Mathlib.Tactic.FinCases
import Mathlib.Data.Fin.VecNotation

/-! Properties of `DirectLiNGAM` with the default measure, over the reals and without oracles for the order. -/
set_option autoImplicit false
set_option linter.unusedSectionVars false
namespace Verif.Pairwise

variable {N : Nat}

/-! ### C140: units, origins and signs -/

/-- Units, origins and signs of the columns do not influence the causal order, whatever the prior knowledge. -/
theorem C140_order (cfg : Direct.Config) (n : Nat) (X : Nat → Fin N → ℝ) {c a : Nat → ℝ} (hc : ∀ j, j < n → c j ≠ 0) :
    fitOrder cfg n (fun j r => c j * X j r + a j) = fitOrder cfg n X := by
  by_cases hN : N = 0
  · subst hN
    congr 1
    funext j r
    exact r.elim0
  · have hsame : ∀ i ∈ List.range n, Same (some (X i)) (some (fun r => c i * X i r + a i)) := fun i hi =>
      ⟨c i, a i, hc i (List.mem_range.1 hi), rfl⟩
    have key : ∀ po, orderLoop cfg n (fun j => some (fun r => c j * X j r + a j)) [] (List.range n) po =
        orderLoop cfg n (fun j => some (X j)) [] (List.range n) po := fun po =>
      orderLoop_congr Same (fun X X' i j Uc Vj hi hj => pairDiff_same hN hi hj) (fun _ _ _ _ h h' => residual_same hN h h') n _ _ _ _ _ hsame
    unfold fitOrder
    simp only [key]

/-- If the selection of predictors is not influenced either, the coefficients are converted to the new units. -/
theorem C140_coefficients {cfg : Direct.Config} {select : List Nat → Nat → Nat → Bool} {ols ols' : List Nat → Nat → Nat → ℝ} {n : Nat}
    {X : Nat → Fin N → ℝ} {c a : Nat → ℝ} (hc : ∀ j, j < n → c j ≠ 0) (hid : Identified n X)
    (hols : ∀ S t, S.Nodup → (∀ j ∈ S, j < n) → t < n → t ∉ S → ∃ b0,
      IsRegressionResidual S X (X t) (fun r => X t r - (b0 + (S.map (fun j => ols S t j * X j r)).sum)))
    (hols' : ∀ S t, S.Nodup → (∀ j ∈ S, j < n) → t < n → t ∉ S → ∃ b0,
      IsRegressionResidual S (fun j r => c j * X j r + a j) (fun r => c t * X t r + a t)
        (fun r => (c t * X t r + a t) - (b0 + (S.map (fun j => ols' S t j * (c j * X j r + a j))).sum)))
    {o : List Nat} {B : Nat → Nat → ℝ} (h : fit cfg select ols n X = .ok (o, B)) :
    ∃ B', fit cfg select ols' n (fun j r => c j * X j r + a j) = .ok (o, B') ∧ ∀ i j, B' i j = B i j * (c i / c j) := by
  unfold fit at h ⊢
  rw [C140_order cfg n X hc]
  cases ho : fitOrder cfg n X with
  | error e => rw [ho] at h; simp at h
  | ok o' =>
    rw [ho] at h
    simp only [Except.ok.injEq, Prod.mk.injEq] at h
    obtain ⟨rfl, rfl⟩ := h
    have hperm := fitOrder_perm ho
    refine ⟨_, rfl, fun i j => estimateAdj_scale (k := fun i j => c i / c j) (hperm.nodup_iff.2 List.nodup_range) ?_ i j⟩
    intro ps t p hnd hsub ht htp hp
    simp only
    have hlt : ∀ q, q ∈ o' → q < n := fun q hq => List.mem_range.1 (hperm.mem_iff.1 hq)
    by_cases hpS : p ∈ ps.filter (select ps t)
    · rw [if_pos hpS, if_pos hpS]
      set S := ps.filter (select ps t) with hS
      have hSnd : S.Nodup := hnd.filter _
      have hSlt : ∀ j ∈ S, j < n := fun j hj => hlt j (hsub j (List.mem_filter.1 hj).1)
      have htS : t ∉ S := fun hm => htp (List.mem_filter.1 hm).1
      obtain ⟨b0, h1⟩ := hols S t hSnd hSlt (hlt t ht) htS
      obtain ⟨b0', h1'⟩ := hols' S t hSnd hSlt (hlt t ht) htS
      have h2 := Score.residual_units (a := a) (i := t) (fun j hj => hc j (hSlt j hj)) h1
      have h3 := DataUtils.residual_unique h1' h2
      have hsum : ∀ (g : Nat → ℝ), (S.map g).sum = ∑ j ∈ Finset.range n, if j ∈ S then g j else 0 := by
        intro g
        rw [← List.sum_toFinset g hSnd, ← Finset.sum_filter]
        refine Finset.sum_congr ?_ fun _ _ => rfl
        ext j
        simp only [List.mem_toFinset, Finset.mem_filter, Finset.mem_range]
        exact ⟨fun hj => ⟨hSlt j hj, hj⟩, fun hj => hj.2⟩
      have hz := hid (fun j => if j ∈ S then ols' S t j * c j - c t * ols S t j else 0)
        (b0' + (S.map (fun j => ols' S t j * a j)).sum - a t - c t * b0) (fun r => by
          have h4 := congrFun h3 r
          simp only [hsum] at h4 ⊢
          have e1 : ∑ j ∈ Finset.range n, (if j ∈ S then ols' S t j * (c j * X j r + a j) else 0) =
              ∑ j ∈ Finset.range n, (if j ∈ S then ols' S t j * c j else 0) * X j r + ∑ j ∈ Finset.range n, (if j ∈ S then ols' S t j * a j else 0) := by
            rw [← Finset.sum_add_distrib]
            refine Finset.sum_congr rfl fun j _ => ?_
            split_ifs <;> ring
          have e2 : ∑ j ∈ Finset.range n, (if j ∈ S then ols' S t j * c j - c t * ols S t j else 0) * X j r =
              ∑ j ∈ Finset.range n, (if j ∈ S then ols' S t j * c j else 0) * X j r -
                c t * ∑ j ∈ Finset.range n, (if j ∈ S then ols S t j * X j r else 0) := by
            rw [Finset.mul_sum, ← Finset.sum_sub_distrib]
            refine Finset.sum_congr rfl fun j _ => ?_
            split_ifs <;> ring
          rw [e1] at h4
          rw [e2]
          linarith) p (hSlt p hpS)
      simp only [hpS, if_true] at hz
      have hcp := hc p (hSlt p hpS)
      field_simp
      linarith
    · rw [if_neg hpS, if_neg hpS, zero_mul]

/-- Coefficients of the regressions between the columns (1,1,-1,-1) and (2,0,0,-2). -/
noncomputable def coinsOls (_S : List Nat) (t _j : Nat) : ℝ := if t = 0 then 1 / 2 else 1

/-- Columns (1,1,-1,-1) and (2,0,0,-2). -/
noncomputable def coins : Nat → Fin 4 → ℝ := fun j => if j = 0 then ![1, 1, -1, -1] else ![2, 0, 0, -2]

theorem coins_ols : ∀ S t, S.Nodup → (∀ j ∈ S, j < 2) → t < 2 → t ∉ S → ∃ b0,
    IsRegressionResidual S coins (coins t) (fun r => coins t r - (b0 + (S.map (fun j => coinsOls S t j * coins j r)).sum)) := by
  intro S t hnd hlt ht htS
  refine ⟨0, ?_, ?_, ?_⟩
  all_goals
    have hS : S = [] ∨ S = [1 - t] := by
      have hmem : ∀ j ∈ S, j = 1 - t := fun j hj => by
        have h1 := hlt j hj
        have h2 : j ≠ t := fun e => htS (e ▸ hj)
        omega
      match S, hnd, hmem with
      | [], _, _ => exact Or.inl rfl
      | [x], _, h => exact Or.inr (by rw [h x (by simp)])
      | x :: y :: l, hn, h =>
        have e1 := h x (by simp)
        have e2 := h y (by simp)
        simp only [List.nodup_cons, List.mem_cons, not_or] at hn
        exact absurd (e1.trans e2.symm) hn.1.1
    have h2 : t = 0 ∨ t = 1 := by omega
  · have e : (coins t - fun r => coins t r - (0 + (S.map (fun j => coinsOls S t j * coins j r)).sum)) =
        fun r => (S.map (fun j => coinsOls S t j * coins j r)).sum := by
      funext r; simp
    rw [e]
    rcases hS with rfl | rfl
    · simp only [List.map_nil, List.sum_nil]
      exact Submodule.zero_mem _
    · simp only [List.map_cons, List.map_nil, List.sum_cons, List.sum_nil, add_zero]
      exact Submodule.smul_mem _ (coinsOls [1 - t] t (1 - t)) (Submodule.subset_span (by simp))
  · rcases hS with rfl | rfl <;> rcases h2 with rfl | rfl <;> simp [coins, coinsOls, Fin.sum_univ_four]
  · rcases hS with rfl | rfl <;> rcases h2 with rfl | rfl <;> simp [coins, coinsOls, Fin.sum_univ_four]; norm_num

theorem coins_identified : Identified 2 coins := by
  intro b b0 h j hj
  have h0 := h 0
  have h1 := h 1
  have h2 := h 2
  simp [coins, Finset.sum_range_succ] at h0 h1 h2
  have : j = 0 ∨ j = 1 := by omega
  rcases this with rfl | rfl <;> linarith

/-- Two columns in two systems of units: least squares in the new units exists, and its coefficients are the converted ones. -/
example : ∃ ols' : List Nat → Nat → Nat → ℝ, (∀ S t, S.Nodup → (∀ j ∈ S, j < 2) → t < 2 → t ∉ S → ∃ b0,
    IsRegressionResidual S (fun j r => (if j = 0 then 3 else -2) * coins j r + 7) (fun r => (if t = 0 then 3 else -2) * coins t r + 7)
      (fun r => ((if t = 0 then 3 else -2) * coins t r + 7) -
        (b0 + (S.map (fun j => ols' S t j * ((if j = 0 then 3 else -2) * coins j r + 7))).sum))) ∧ ols' [0] 1 0 = -2 / 3 := by
  refine ⟨fun S t j => coinsOls S t j * ((if t = 0 then 3 else -2) / (if j = 0 then 3 else -2)), ?_, by simp [coinsOls]⟩
  intro S t hnd hlt ht htS
  obtain ⟨b0, h⟩ := coins_ols S t hnd hlt ht htS
  have h' := Score.residual_units (c := fun j => if j = 0 then 3 else -2) (a := fun _ => 7) (i := t) (fun j _ => by split_ifs <;> norm_num) h
  refine ⟨(if t = 0 then 3 else -2) * b0 + 7 - (S.map (fun j => coinsOls S t j * ((if t = 0 then 3 else -2) / (if j = 0 then 3 else -2)) * 7)).sum, ?_⟩
  convert h' using 2 with r
  have e : ∀ l : List Nat, (l.map (fun j => coinsOls S t j * ((if t = 0 then (3 : ℝ) else -2) / (if j = 0 then 3 else -2)) *
      ((if j = 0 then 3 else -2) * coins j r + 7))).sum =
      (if t = 0 then (3 : ℝ) else -2) * (l.map (fun j => coinsOls S t j * coins j r)).sum +
        (l.map (fun j => coinsOls S t j * ((if t = 0 then (3 : ℝ) else -2) / (if j = 0 then 3 else -2)) * 7)).sum := by
    intro l
    induction l with
    | nil => simp
    | cons x l ih =>
      simp only [List.map_cons, List.sum_cons]
      rw [ih]
      have hx : (if x = 0 then (3 : ℝ) else -2) ≠ 0 := by split_ifs <;> norm_num
      field_simp
      ring
  rw [e S]
  ring

/-! ### C141: rows -/

/-- The order of the rows does not influence the causal order, and neither does repeating every row the same number of
times. -/
theorem C141_rows (cfg : Direct.Config) (n : Nat) (X : Nat → Fin N → ℝ) {A k : Nat} (hk : k ≠ 0) {f : Fin A → Fin N}
    (hf : ∀ r, (Finset.univ.filter (fun q => f q = r)).card = k) :
    fitOrder cfg n (fun j q => X j (f q)) = fitOrder cfg n X := by
  have key : ∀ po, orderLoop cfg n (fun j => some (fun q => X j (f q))) [] (List.range n) po =
      orderLoop cfg n (fun j => some (X j)) [] (List.range n) po := fun po =>
    orderLoop_congr (Rows f) (fun X X' i j Uc Vj hi hj => pairDiff_rows hk hf hi hj Iff.rfl Iff.rfl)
      (fun _ _ _ _ h h' => residual_rows hk hf h h') n _ _ _ _ _ (fun i _ => rfl)
  unfold fitOrder
  simp only [key]

example (cfg : Direct.Config) (n : Nat) (X : Nat → Fin N → ℝ) (σ : Equiv.Perm (Fin N)) :
    fitOrder cfg n (fun j q => X j (σ q)) = fitOrder cfg n X :=
  C141_rows cfg n X one_ne_zero fun r => by
    rw [Finset.card_eq_one]
    refine ⟨σ.symm r, ?_⟩
    ext q
    simp [Equiv.eq_symm_apply]

/-! ### C142: columns -/

/-- If at every step one variable has a smaller penalty than all others, the result does not depend on the order of the
columns: the variables are listed in the same order. -/
theorem C142_columns_partial {cfg : Direct.Config} (hpk : cfg.pk = none) {n : Nat} {X : Nat → Fin N → ℝ} {π : Nat → Nat} {l : List Nat}
    (hπ : ((List.range n).map π).Perm (List.range n)) (hid : Identified n X) (hl : PairwiseOrder (· < ·) X (List.range n) l) :
    ∃ o, fitOrder cfg n (fun j => X (π j)) = .ok o ∧ o.map π = l ∧ fitOrder cfg n X = .ok l := by
  have hlen : l.length = n := by rw [(pairwise_perm hl List.nodup_range).length_eq, List.length_range]
  have hdec := decisive_of_strict hl (fun j => some (X j)) List.nodup_range (indep_range hid) fun i _ => rfl
  have h0 := orderLoop_strict hpk hl (fun j => some (X j)) [] [] List.nodup_range (indep_range hid) fun i _ => rfl
  rw [hlen] at hdec h0
  unfold fitOrder
  rw [hpk]
  have hnd : ((List.range n).map π).Nodup := hπ.nodup_iff.2 List.nodup_range
  obtain ⟨o, h1, h2⟩ := orderLoop_columns hpk n (fun j => some (X j)) (fun j => some (X (π j))) [] (List.range n) (List.range n) [] [] hπ List.nodup_range
    (fun i hi j hj e => List.inj_on_of_nodup_map hnd hi hj e) (fun i _ => rfl) hdec
  refine ⟨o, h1, ?_, by simpa using h0⟩
  have h3 := h2.symm.trans h0
  simpa using h3

/-- With ties it does: if exchanging the two columns only reorders the rows, the first column is always declared the cause. -/
theorem C142_ties_violated {cfg : Direct.Config} (hpk : cfg.pk = none) {X : Nat → Fin N → ℝ} {σ : Equiv.Perm (Fin N)}
    (h01 : ∀ r, X 1 r = X 0 (σ r)) (h10 : ∀ r, X 0 r = X 1 (σ r)) : fitOrder cfg 2 X = .ok [0, 1] := by
  have hf : ∀ r, (Finset.univ.filter (fun q => σ q = r)).card = 1 := fun r => by
    rw [Finset.card_eq_one]
    refine ⟨σ.symm r, ?_⟩
    ext q
    simp [Equiv.eq_symm_apply]
  have hd : pairDiff (fun j => some (X j)) [0, 1] [] 1 0 = pairDiff (fun j => some (X j)) [0, 1] [] 0 1 :=
    pairDiff_rows (f := σ) one_ne_zero hf (X := fun j => some (X j)) (X' := fun j => some (X j))
      (by simp only [Rows, Option.map_some, Option.some.injEq]; funext r; exact h01 r)
      (by simp only [Rows, Option.map_some, Option.some.injEq]; funext r; exact h10 r) (by simp) (by simp)
  have hs : ∀ i, i < 2 → statistic (fun j => some (X j)) [0, 1] [0, 1] [] i =
      sumNan [(pairDiff (fun j => some (X j)) [0, 1] [] 0 1).map (fun d => (min 0 d) ^ 2)] := by
    intro i hi
    have : i = 0 ∨ i = 1 := by omega
    rcases this with rfl | rfl
    · rfl
    · unfold statistic; simp [hd]
  have hfirst : searchOrder cfg [] (fun j => some (X j)) [0, 1] = some 0 := by
    unfold searchOrder Direct.searchCandidate
    rw [hpk]
    simp only [pick, Option.some.injEq]
    unfold pickGo
    rw [hs 0 (by omega), hs 1 (by omega)]
    cases (sumNan [(pairDiff (fun j => some (X j)) [0, 1] [] 0 1).map (fun d => (min 0 d) ^ 2)]) with
    | none => rfl
    | some v => simp [pickGo]
  unfold fitOrder
  rw [hpk]
  simp only [show List.range 2 = [0, 1] from rfl]
  unfold orderLoop
  rw [hfirst]
  simp only [List.nil_append]
  unfold orderLoop
  have hu : ([0, 1].filter (fun i => decide (i ≠ 0))) = [1] := by decide
  rw [hu]
  simp [searchOrder, Direct.searchCandidate, hpk, orderLoop]

/-- Rows (1,0), (-1,0), (0,1), (0,-1). -/
noncomputable def square : Nat → Fin 4 → ℝ := fun j => if j = 0 then ![1, -1, 0, 0] else ![0, 0, 1, -1]

/-- Exchange of the first two rows with the last two. -/
def flip : Equiv.Perm (Fin 4) where
  toFun := ![2, 3, 0, 1]
  invFun := ![2, 3, 0, 1]
  left_inv := by decide
  right_inv := by decide

/-- So the two orders of the columns give opposite answers. -/
theorem C142_columns_violated {cfg : Direct.Config} (hpk : cfg.pk = none) :
    fitOrder cfg 2 square = .ok [0, 1] ∧ fitOrder cfg 2 (fun j => square (1 - j)) = .ok [0, 1] ∧
      ¬ ∃ o, fitOrder cfg 2 (fun j => square (1 - j)) = .ok o ∧ fitOrder cfg 2 square = .ok (o.map (1 - ·)) := by
  have h1 : fitOrder cfg 2 square = .ok [0, 1] := C142_ties_violated hpk (σ := flip)
    (fun r => by fin_cases r <;> simp [square, flip]) (fun r => by fin_cases r <;> simp [square, flip])
  have h2 : fitOrder cfg 2 (fun j => square (1 - j)) = .ok [0, 1] := C142_ties_violated hpk (σ := flip)
    (fun r => by fin_cases r <;> simp [square, flip]) (fun r => by fin_cases r <;> simp [square, flip])
  refine ⟨h1, h2, ?_⟩
  rintro ⟨o, e1, e2⟩
  rw [h2] at e1
  rw [h1] at e2
  cases e1
  simp at e2

/-! ### C143: two variables -/

/-- For two variables the direction is the sign of the difference of the mutual informations of the two directions. -/
theorem C143_pair {cfg : Direct.Config} (hpk : cfg.pk = none) (hN : N ≠ 0) {X : Nat → Fin N → ℝ} {z w : Fin N → ℝ} {s t m k ρ : ℝ}
    (hz : IsStandard z) (hw : IsStandard w) (hs : s ≠ 0) (ht : t ≠ 0) (h0 : ∀ r, X 0 r = s * z r + m) (h1 : ∀ r, X 1 r = t * w r + k)
    (hρ : N * ρ = ∑ r, z r * w r) (hlt : ρ ^ 2 < 1) :
    fitOrder cfg 2 X = .ok (if 0 ≤ directionScore ρ z w then [0, 1] else [1, 0]) := by
  have e0 : fitOrder cfg 2 X = fitOrder cfg 2 (fun j => if j = 0 then z else w) := by
    rw [← C140_order cfg 2 (fun j => if j = 0 then z else w) (c := fun j => if j = 0 then s else t) (a := fun j => if j = 0 then m else k)
      (fun j _ => by split_ifs <;> assumption)]
    have key : ∀ po, orderLoop cfg 2 (fun j => some (X j)) [] (List.range 2) po = orderLoop cfg 2 (fun j => some (fun r =>
        (if j = 0 then s else t) * (if j = 0 then z else w) r + (if j = 0 then m else k))) [] (List.range 2) po := fun po =>
      orderLoop_congr Same (fun X X' i j Uc Vj hi hj => pairDiff_same hN hi hj) (fun _ _ _ _ h h' => residual_same hN h h') 2 _ _ _ _ _
        (fun i hi => ⟨1, 0, one_ne_zero, by
          have : i = 0 ∨ i = 1 := by have := List.mem_range.1 hi; omega
          rcases this with rfl | rfl
          · simp only [if_true, Option.map_some, Option.some.injEq]; funext r; rw [h0 r]; unfold aff; ring
          · simp only [one_ne_zero, if_false, Option.map_some, Option.some.injEq]; funext r; rw [h1 r]; unfold aff; ring⟩)
    unfold fitOrder
    simp only [key]
  rw [e0]
  have d01 := pairDiff_standard hN (X := fun j => some (if j = 0 then z else w)) (i := 0) (j := 1) (by simp) (by simp) hz hw hρ hlt [0, 1]
  have d10 : pairDiff (fun j => some (if j = 0 then z else w)) [0, 1] [] 1 0 = some (-directionScore ρ z w) := by
    rw [pairDiff_swap, d01]; rfl
  have s0 : statistic (fun j => some (if j = 0 then z else w)) [0, 1] [0, 1] [] 0 = some ((min 0 (directionScore ρ z w)) ^ 2) := by
    unfold statistic; simp [d01, sumNan]
  have s1 : statistic (fun j => some (if j = 0 then z else w)) [0, 1] [0, 1] [] 1 = some ((min 0 (-directionScore ρ z w)) ^ 2) := by
    unfold statistic; simp [d10, sumNan]
  have hpick : searchOrder cfg [] (fun j => some (if j = 0 then z else w)) [0, 1] = some (if 0 ≤ directionScore ρ z w then 0 else 1) := by
    unfold searchOrder Direct.searchCandidate
    rw [hpk]
    simp only [pick, Option.some.injEq]
    unfold pickGo
    rw [s0, s1]
    simp only [Option.map_some, pickGo]
    by_cases hd : 0 ≤ directionScore ρ z w
    · rw [if_pos hd, if_neg]
      rw [min_eq_left hd]
      nlinarith [sq_nonneg (min 0 (-directionScore ρ z w))]
    · rw [if_neg hd, if_pos]
      have hd := not_le.1 hd
      rw [min_eq_right hd.le, min_eq_left (by linarith)]
      nlinarith [sq_pos_of_neg hd]
  unfold fitOrder
  rw [hpk]
  simp only [show List.range 2 = [0, 1] from rfl]
  unfold orderLoop
  rw [hpick]
  simp only [List.nil_append]
  unfold orderLoop
  by_cases hd : 0 ≤ directionScore ρ z w
  · rw [if_pos hd, if_pos hd]
    have hu : ([0, 1].filter (fun i => decide (i ≠ 0))) = [1] := by decide
    rw [hu]
    simp [searchOrder, Direct.searchCandidate, hpk, orderLoop]
  · rw [if_neg hd, if_neg hd]
    have hu : ([0, 1].filter (fun i => decide (i ≠ 1))) = [0] := by decide
    rw [hu]
    simp [searchOrder, Direct.searchCandidate, hpk, orderLoop]

/-- The two directions are compared without bias: exchanging the variables changes the sign of the difference. -/
theorem C143_antisymmetric (ρ : ℝ) (z w : Fin N → ℝ) : directionScore ρ w z = -directionScore ρ z w := by
  unfold directionScore; ring

/-- Two-valued cause, and an effect that adds an independent two-valued disturbance, both standardised. -/
noncomputable def causeZ : Fin 4 → ℝ := ![1, 1, -1, -1]
noncomputable def effectW : Fin 4 → ℝ := ![√2, 0, 0, -√2]

theorem witness_standard : IsStandard causeZ ∧ IsStandard effectW ∧ (4 : ℕ) * (√2 / 2) = ∑ r, causeZ r * effectW r ∧ (√2 / 2) ^ 2 < 1 := by
  have h2 : √2 ^ 2 = (2 : ℝ) := Real.sq_sqrt (by norm_num)
  refine ⟨⟨?_, ?_⟩, ⟨?_, ?_⟩, ?_, ?_⟩
  · simp [causeZ, Fin.sum_univ_four]
  · simp [causeZ, Fin.sum_univ_four]; norm_num
  · simp [effectW, Fin.sum_univ_four]
  · simp [effectW, Fin.sum_univ_four]; norm_num
  · simp [causeZ, effectW, Fin.sum_univ_four]; ring
  · nlinarith

theorem witness_score : 0 < directionScore (√2 / 2) causeZ effectW := by
  have h2 : √2 * √2 = (2 : ℝ) := Real.mul_self_sqrt (by norm_num)
  have hpos : 0 < √(2 : ℝ) := by positivity
  have hq : √(1 - (√2 / 2) ^ 2) = √2 / 2 := by
    rw [show (1 : ℝ) - (√2 / 2) ^ 2 = (√2 / 2) ^ 2 by nlinarith]
    exact Real.sqrt_sq (by positivity)
  have hr1 : (fun r => (causeZ r - √2 / 2 * effectW r) / √(1 - (√2 / 2) ^ 2)) = ![0, √2, -√2, 0] := by
    rw [hq]
    funext r
    fin_cases r <;> simp [causeZ, effectW] <;> field_simp <;> linarith
  have hr2 : (fun r => (effectW r - √2 / 2 * causeZ r) / √(1 - (√2 / 2) ^ 2)) = ![1, -1, 1, -1] := by
    rw [hq]
    funext r
    fin_cases r <;> simp [causeZ, effectW] <;> field_simp <;> linarith
  have e1 : approxEntropy causeZ = (1 + Real.log (2 * Real.pi)) / 2 - 79.047 * (Real.log (Real.cosh 1) - 0.37457) ^ 2 := by
    simp only [approxEntropy, causeZ, Fin.sum_univ_four]
    simp
    left
    ring
  have e2 : approxEntropy ![1, -1, 1, (-1 : ℝ)] = (1 + Real.log (2 * Real.pi)) / 2 - 79.047 * (Real.log (Real.cosh 1) - 0.37457) ^ 2 := by
    simp only [approxEntropy, Fin.sum_univ_four]
    simp
    left
    ring
  have e3 : approxEntropy effectW = (1 + Real.log (2 * Real.pi)) / 2 - 79.047 * (Real.log (Real.cosh √2) / 2 - 0.37457) ^ 2 := by
    simp only [approxEntropy, effectW, Fin.sum_univ_four]
    simp
    left
    ring
  have e4 : approxEntropy ![0, √2, -√2, 0] = (1 + Real.log (2 * Real.pi)) / 2 - 79.047 * (Real.log (Real.cosh √2) / 2 - 0.37457) ^ 2 := by
    simp only [approxEntropy, Fin.sum_univ_four]
    simp
    left
    ring
  have hc : Real.cosh √2 = 1 + 2 * Real.sinh (√2 / 2) ^ 2 := by
    have h := Real.cosh_two_mul (√2 / 2)
    rw [show 2 * (√2 / 2) = √2 by ring, Real.cosh_sq] at h
    linarith
  have he : Real.exp (1 / 2) < 1.65 := by
    have h : Real.exp (1 / 2) * Real.exp (1 / 2) = Real.exp 1 := by rw [← Real.exp_add]; norm_num
    nlinarith [Real.exp_one_lt_d9, Real.exp_pos (1 / 2)]
  have hlo : 2 ≤ Real.cosh √2 := by
    have hs : √2 / 2 ≤ Real.sinh (√2 / 2) := Real.self_le_sinh_iff.2 (by positivity)
    rw [hc]
    nlinarith
  have hhi : Real.cosh √2 < 2.3 := by
    have h := Real.cosh_le_exp_half_sq (√2 / 2)
    have h' : Real.cosh (√2 / 2) ^ 2 ≤ Real.exp (1 / 2) := by
      have e : Real.exp (1 / 2) = Real.exp ((√2 / 2) ^ 2 / 2) ^ 2 := by
        rw [← Real.exp_nat_mul]
        congr 1
        push_cast
        nlinarith
      rw [e]
      exact pow_le_pow_left₀ (Real.cosh_pos _).le h 2
    rw [Real.cosh_sq] at h'
    rw [hc]
    linarith
  have h1 : 1.543 < Real.cosh 1 := by
    rw [Real.cosh_eq, Real.exp_neg]
    have hlt := Real.exp_one_lt_d9
    have hgt := Real.exp_one_gt_d9
    have : (1 : ℝ) / 2.7182818286 < (Real.exp 1)⁻¹ := by
      rw [one_div]
      exact inv_strictAnti₀ (Real.exp_pos 1) hlt
    norm_num at *
    linarith
  have hA : Real.log (Real.cosh √2) < 2 * Real.log (Real.cosh 1) := by
    rw [← Real.log_rpow (Real.cosh_pos 1), Real.rpow_two]
    exact Real.log_lt_log (Real.cosh_pos _) (by nlinarith)
  have hB : 1.5 < 2 * Real.log (Real.cosh 1) + Real.log (Real.cosh √2) := by
    rw [← Real.log_rpow (Real.cosh_pos 1), Real.rpow_two, ← Real.log_mul (by positivity) (Real.cosh_pos _).ne',
      Real.lt_log_iff_exp_lt (by have := Real.cosh_pos √2; positivity)]
    have e : Real.exp 1.5 = Real.exp 1 * Real.exp (1 / 2) := by rw [← Real.exp_add]; norm_num
    rw [e]
    have hx : Real.exp 1 * Real.exp (1 / 2) < 2.7183 * 1.65 := by
      have := Real.exp_one_lt_d9
      have h3 : Real.exp 1 < 2.7183 := by norm_num at *; linarith
      exact mul_lt_mul'' h3 he (Real.exp_pos _).le (Real.exp_pos _).le
    have hy : (2.38 : ℝ) < Real.cosh 1 ^ 2 := by nlinarith
    nlinarith
  unfold directionScore
  rw [hr1, hr2, e1, e2, e3, e4]
  nlinarith [mul_pos (sub_pos.2 hA) (sub_pos.2 hB)]

/-- The two-valued cause is found, in any units. -/
example {cfg : Direct.Config} (hpk : cfg.pk = none) {s t : ℝ} (hs : s ≠ 0) (ht : t ≠ 0) :
    fitOrder cfg 2 (fun j r => if j = 0 then s * causeZ r + 5 else t * effectW r - 7) = .ok [0, 1] ∧
      fitOrder cfg 2 (fun j r => if j = 1 then s * causeZ r + 5 else t * effectW r - 7) = .ok [1, 0] := by
  obtain ⟨h1, h2, h3, h4⟩ := witness_standard
  have h0 := witness_score
  constructor
  · rw [C143_pair hpk (by norm_num) h1 h2 hs ht (m := 5) (k := -7) (fun r => by simp) (fun r => by simp; ring) h3 h4, if_pos h0.le]
  · rw [C143_pair hpk (by norm_num) h2 h1 ht hs (m := -7) (k := 5) (ρ := √2 / 2) (fun r => by simp; ring) (fun r => by simp)
      (by rw [h3]; exact Finset.sum_congr rfl fun r _ => mul_comm _ _) h4, if_neg]
    rw [C143_antisymmetric]
    linarith

/-! ### C144: any number of variables -/

/-- Each variable in the order has the smallest penalty among the remaining ones, after removing the earlier ones. -/
theorem C144_order {cfg : Direct.Config} (hpk : cfg.pk = none) {n : Nat} {X : Nat → Fin N → ℝ} (hid : Identified n X) {o : List Nat}
    (h : fitOrder cfg n X = .ok o) : PairwiseOrder (· ≤ ·) X (List.range n) o := by
  unfold fitOrder at h
  rw [hpk] at h
  obtain ⟨l, rfl, hl⟩ := orderLoop_pairwise hpk n X (fun j => some (X j)) [] (List.range n) [] o (by simp) List.nodup_range (indep_range hid) (fun i _ => rfl) h
  simpa using hl

/-- An order is always found. -/
theorem C144_found {cfg : Direct.Config} (hpk : cfg.pk = none) (n : Nat) (X : Nat → Fin N → ℝ) : ∃ o, fitOrder cfg n X = .ok o := by
  unfold fitOrder
  rw [hpk]
  suffices h : ∀ (r : Nat) (X : Nat → Col N) (K U : List Nat) (po : List (Nat × Nat)), U.length = r → U.Nodup → ∃ o, orderLoop cfg r X K U po = .ok o from
    h n _ _ _ _ (by simp) List.nodup_range
  intro r
  induction r with
  | zero => intro X K U po _ _; exact ⟨K, rfl⟩
  | succ r ih =>
    intro X K U po hl hnd
    have hs : ∃ m, searchOrder cfg po X U = some m := by
      unfold searchOrder Direct.searchCandidate
      rw [hpk]
      simp only
      match U, hl with
      | [c], _ => exact ⟨c, rfl⟩
      | c :: c' :: cs, _ => exact ⟨_, rfl⟩
    obtain ⟨m, hm⟩ := hs
    have hmem := searchOrder_mem hm
    unfold orderLoop
    rw [hm]
    refine ih _ _ _ _ ?_ (hnd.filter _)
    have e : U.filter (fun i => decide (i ≠ m)) = U.erase m := by
      rw [hnd.erase_eq_filter]
      refine List.filter_congr fun i _ => ?_
      by_cases h : i = m <;> simp [h]
    rw [e, List.length_erase_of_mem hmem, hl]
    rfl

theorem zscore_of_standard {z : Fin N → ℝ} (hN : N ≠ 0) (h : IsStandard z) : zscore z = z := by
  funext r
  rw [zscore_eq, var_standard hN h, mean_zero h.1]
  simp

/-- Cause and effect as columns 1 and 0. -/
noncomputable def witnessX : Nat → Fin 4 → ℝ := fun j => if j = 1 then causeZ else effectW

theorem witness_identified : Identified 2 witnessX := by
  intro b b0 h j hj
  have h0 := h 0
  have h1 := h 1
  have h2 := h 2
  simp [witnessX, causeZ, effectW, Finset.sum_range_succ] at h0 h1 h2
  have e1 : b 1 = 0 := by linarith
  have e2 : b 0 * √2 = 0 := by linarith
  have : j = 0 ∨ j = 1 := by omega
  rcases this with rfl | rfl
  · exact (mul_eq_zero.1 e2).resolve_right (by positivity)
  · exact e1

/-- The hypotheses of `C142_columns_partial` and `C144_order` hold for these columns: the second one comes first, with a
strictly smaller penalty. -/
theorem witness_order : PairwiseOrder (· < ·) witnessX (List.range 2) [1, 0] := by
  obtain ⟨h1, h2, h3, h4⟩ := witness_standard
  have h0 := witness_score
  have z0 : zscore (witnessX 0) = effectW := zscore_of_standard (by norm_num) h2
  have z1 : zscore (witnessX 1) = causeZ := zscore_of_standard (by norm_num) h1
  have r1 : correlation (witnessX 1) (witnessX 0) = √2 / 2 := by
    unfold correlation; rw [z0, z1, ← h3]; push_cast; ring
  have r0 : correlation (witnessX 0) (witnessX 1) = √2 / 2 := by
    unfold correlation; rw [z0, z1]; rw [show ∑ r, effectW r * causeZ r = ∑ r, causeZ r * effectW r from
      Finset.sum_congr rfl fun r _ => mul_comm _ _, ← h3]; push_cast; ring
  have hr : List.range 2 = [0, 1] := rfl
  rw [hr]
  refine .cons (X' := fun _ r => witnessX 0 r - √2 / 2 * witnessX 1 r) (by simp) (fun i hi hne => ?_) (fun i hi hne => ?_) ?_
  · have : i = 0 := by simpa [hne] using hi
    subst this
    have f1 : ([0, 1].filter (fun j => decide (j ≠ 1))) = [0] := by decide
    have f0 : ([0, 1].filter (fun j => decide (j ≠ 0))) = [1] := by decide
    unfold penalty
    rw [f1, f0]
    simp only [List.map_cons, List.map_nil, List.sum_cons, List.sum_nil, add_zero, z0, z1, r0, r1]
    rw [C143_antisymmetric (√2 / 2) causeZ effectW, min_eq_left h0.le, min_eq_right (by linarith)]
    nlinarith
  · have : i = 0 := by simpa [hne] using hi
    subst this
    refine ⟨⟨_, fun r => rfl⟩, ?_⟩
    simp [sampleMean, witnessX, causeZ, effectW, Fin.sum_univ_four]
    ring
  · have f1 : ([0, 1].filter (fun j => decide (j ≠ 1))) = [0] := by decide
    rw [f1]
    refine .cons (X' := fun _ _ => 0) (by simp) (fun i hi hne => ?_) (fun i hi hne => ?_) ?_
    · simp at hi; exact absurd hi hne
    · simp at hi; exact absurd hi hne
    · have : ([0].filter (fun j => decide (j ≠ 0))) = [] := by decide
      rw [this]
      exact .nil _

example {cfg : Direct.Config} (hpk : cfg.pk = none) : fitOrder cfg 2 witnessX = .ok [1, 0] ∧ fitOrder cfg 2 (fun j => witnessX (1 - j)) = .ok [0, 1] := by
  obtain ⟨o, h1, h2, h3⟩ := C142_columns_partial hpk (π := fun j => 1 - j) (by decide) witness_identified witness_order
  refine ⟨h3, ?_⟩
  have hp := fitOrder_perm h1
  have : o = [0, 1] := by
    match o, hp.length_eq with
    | [a, b], _ =>
      have ha : a ∈ List.range 2 := hp.mem_iff.1 (by simp)
      have hb : b ∈ List.range 2 := hp.mem_iff.1 (by simp)
      simp at ha hb h2
      have e1 : a = 0 := by omega
      have e2 : b = 1 := by omega
      simp [e1, e2]
  rw [h1, this]

end Verif.Pairwise
