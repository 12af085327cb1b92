import Verif.Props.IcaUnits

/-!
# ICA-LiNGAM: errors of the unmixing matrix (C194)

FastICA never returns the exact unmixing matrix.  How large may its errors be until the causal order is wrong?
-/
set_option linter.unusedSectionVars false
set_option autoImplicit false
namespace Verif.Ica

/-- `W` is an unmixing matrix of `x = B x + e` up to order and scale of the rows and up to an error of at most `ε`, relative
to the scale of the row. -/
def NearUnmixing (n : Nat) (B W : Mat) (σ : List Nat) (s : Nat → ℚ) (ε : ℚ) : Prop :=
  IsOrder n σ ∧ (∀ i, i < n → s i ≠ 0) ∧
    ∀ i j, i < n → j < n → |W i j - s i * ((if σ.getD i 0 = j then 1 else 0) - B (σ.getD i 0) j)| ≤ ε * |s i|

theorem nearUnmixing_zero {n : Nat} {B W : Mat} {σ : List Nat} {s : Nat → ℚ} :
    NearUnmixing n B W σ s 0 ↔ ExactUnmixing n B W σ s := by
  unfold NearUnmixing ExactUnmixing
  simp only [zero_mul, abs_nonpos_iff, sub_eq_zero]

/-- Positions that all carry edges of an acyclic graph are few. -/
theorem init_le_of_edges {n : Nat} {M B : Mat} {pos : List (Nat × Nat)} (hpos : SortedPositions n M pos) {o : List Nat}
    (ho : Consistent n B o) {t : Nat} (ht : t < n * n) (hnz : ∀ p ∈ pos.drop t, B p.1 p.2 ≠ 0) :
    n * (n + 1) / 2 ≤ t := by
  have hsub : ((pos.drop t).map Prod.swap) ⊆ Boot.laterPairs o := by
    intro q hq
    obtain ⟨⟨a, b⟩, hp, rfl⟩ := List.mem_map.1 hq
    obtain ⟨ha, hb⟩ := (hpos.mem a b).1 (List.mem_of_mem_drop hp)
    exact Boot.mem_laterPairs.2 (ho.2 a b ha hb (hnz _ hp))
  have hnd : ((pos.drop t).map Prod.swap).Nodup :=
    (hpos.nodup.sublist (List.drop_sublist _ _)).map Prod.swap_injective
  have hle := (List.subperm_of_subset hnd hsub).length_le
  rw [List.length_map, List.length_drop, hpos.len] at hle
  have h2 := laterPairs_length o
  rw [(IsOrder.perm.1 ho.1).length_eq, List.length_range] at h2
  have h3 : n * (n + 1) / 2 * 2 = n * (n + 1) := Nat.div_mul_cancel (Nat.even_mul_succ_self n).two_dvd
  have h4 : n * (n - 1) + n * (n + 1) = n * n * 2 := by
    cases n with
    | zero => rfl
    | succ k => rw [Nat.add_sub_cancel]; ring
  have h5 : (n * n - t) * 2 ≤ n * (n - 1) := by rw [← h2]; exact Nat.mul_le_mul_right 2 hle
  have : n * n * 2 - t * 2 ≤ n * (n - 1) := by rw [← Nat.sub_mul]; exact h5
  omega

/-- If the entries of `M` at edges of an acyclic `B` are larger than all others, the order found is an order of `B`. -/
theorem estimateOrder_near (as : Boot.Argsort) {n : Nat} (hn : 2 ≤ n) {M B : Mat} (hd : ∀ i, i < n → M i i = 0)
    (hac : Acyclic (Edge n B 0))
    (hsep : ∀ a b i j, a < n → b < n → i < n → j < n → B a b = 0 → B i j ≠ 0 → |M a b| < |M i j|) :
    ∃ o, estimateOrder as n M = some o ∧ Consistent n B o := by
  obtain ⟨o0, ho0⟩ := searchOrder_acyclic hac
  have ho := searchOrder_some ho0
  obtain ⟨pos, k, o, hpos, h1, _, hk, h2, hmin⟩ := C24_finds_order as hn hd
  refine ⟨o, h1, h2.1, ?_⟩
  have hBd : ∀ i, i < n → B i i = 0 := by
    intro i hi
    by_contra hne
    exact Before.irrefl ho.1.1 _ (ho.2 i i hi hi hne)
  have htake : ∀ i j, i < n → j < n → (i, j) ∈ pos.take k → B i j = 0 := by
    intro i j hi hj hmem
    by_contra hne
    obtain ⟨t, ht⟩ := List.getElem?_of_mem hmem
    have htk : t < k := by
      have := (List.getElem?_eq_some_iff.1 ht).1
      rw [List.length_take] at this
      omega
    rw [List.getElem?_take_of_lt htk] at ht
    obtain ⟨htp, hte⟩ := List.getElem?_eq_some_iff.1 ht
    have hnz : ∀ p ∈ pos.drop t, B p.1 p.2 ≠ 0 := by
      intro p hp
      rw [List.drop_eq_getElem_cons htp, hte] at hp
      rcases List.mem_cons.1 hp with rfl | hp
      · exact hne
      · have hs : ((i, j) :: pos.drop (t + 1)).Pairwise (fun p q => |M p.1 p.2| ≤ |M q.1 q.2|) := by
          rw [← hte, ← List.drop_eq_getElem_cons htp]
          exact hpos.sorted.sublist (List.drop_sublist _ _)
        have hle := (List.pairwise_cons.1 hs).1 p hp
        intro h0
        obtain ⟨hp1, hp2⟩ := (hpos.mem p.1 p.2).1 (List.mem_of_mem_drop hp)
        exact absurd hle (not_le.2 (hsep _ _ _ _ hp1 hp2 hi hj h0 hne))
    have hin := init_le_of_edges hpos ho (by omega) hnz
    refine hmin t hin htk ?_
    intro a ha
    refine hac a (Relation.TransGen.mono ?_ _ _ ha)
    rintro a b ⟨ha, hb, hw⟩
    refine ⟨ha, hb, abs_pos.2 ?_⟩
    have hm : (b, a) ∉ pos.take t := by
      intro h'
      rw [zeroed, if_pos h'] at hw
      simp at hw
    have hin' := (hpos.mem b a).2 ⟨hb, ha⟩
    rw [← List.take_append_drop t pos, List.mem_append] at hin'
    exact hnz _ (hin'.resolve_left hm)
  intro i j hi hj hne
  refine h2.2 i j hi hj ?_
  rw [zeroed, if_neg fun h => hne (htake i j hi hj h)]
  have := hsep i i i j hi hi hi hj (hBd i hi) hne
  exact abs_pos.1 (lt_of_le_of_lt (abs_nonneg _) this)

/-- C194: stability.  If every coefficient of the acyclic model is at least `β` in absolute value and the unmixing matrix has
relative errors of at most `ε`, where `2 ε < β (1 - ε)` and `ε |s i| Σ 1/|s k| < 1 - ε` for the scales `s` of the rows, then the
components are matched rightly, the estimate before pruning is within `ε (1 + |B i j|) / (1 - ε)` of the model, and the order
returned is a causal order of the model. -/
theorem C194_stable (as : Boot.Argsort) (asg : Assign) (lasso : Direct.Lasso ℚ) {n : Nat} (hn : 2 ≤ n)
    {B W : Mat} {σ : List Nat} {s : Nat → ℚ} {ε β : ℚ} (hac : Acyclic (Edge n B 0)) (hW : NearUnmixing n B W σ s ε)
    (hβ : ∀ i j, i < n → j < n → B i j ≠ 0 → β ≤ |B i j|) (hε : 2 * ε < β * (1 - ε)) (hε1 : ε < 1)
    (hs : ∀ i, i < n → ε * |s i| * ((List.range n).map fun k => 1 / |s k|).sum < 1 - ε) :
    ∃ order B' c, asg.run n W = some c ∧ (∀ i, i < n → c.getD i 0 = σ.getD i 0) ∧
      (∀ i j, i < n → j < n → |bEstimate (permuteRows n c W) i j - B i j| ≤ ε * (1 + |B i j|) / (1 - ε)) ∧
      fit as asg lasso n W = .ok (order, B') ∧ IsOrder n order ∧
      ∀ i j, i < n → j < n → B i j ≠ 0 → Before order j i := by
  obtain ⟨hσ, hs0, hWe⟩ := hW
  obtain ⟨o0, ho0⟩ := searchOrder_acyclic hac
  have ho := searchOrder_some ho0
  have h1ε : 0 < 1 - ε := by linarith
  have hdiag : ∀ i, i < n → B i i = 0 := by
    intro i hi
    by_contra hne
    exact Before.irrefl ho.1.1 _ (ho.2 i i hi hi hne)
  have hε0 : 0 ≤ ε := by
    have h0 : (0 : Nat) < n := by omega
    have h1 := (abs_nonneg _).trans (hWe 0 0 h0 h0)
    exact nonneg_of_mul_nonneg_left h1 (abs_pos.2 (hs0 0 h0))
  -- entries relative to the scale
  have hη : ∀ i j, i < n → j < n → ∃ η, |η| ≤ ε ∧
      W i j = s i * ((if σ.getD i 0 = j then 1 else 0) - B (σ.getD i 0) j + η) := by
    intro i j hi hj
    refine ⟨W i j / s i - ((if σ.getD i 0 = j then 1 else 0) - B (σ.getD i 0) j), ?_, ?_⟩
    · have h := hWe i j hi hj
      have e : W i j - s i * ((if σ.getD i 0 = j then 1 else 0) - B (σ.getD i 0) j) =
          (W i j / s i - ((if σ.getD i 0 = j then 1 else 0) - B (σ.getD i 0) j)) * s i := by
        rw [sub_mul, div_mul_cancel₀ _ (hs0 i hi)]; ring
      rw [e, abs_mul] at h
      exact le_of_mul_le_mul_right h (abs_pos.2 (hs0 i hi))
    · rw [add_sub_cancel, mul_div_cancel₀ _ (hs0 i hi)]
  have hmain : ∀ i, i < n → ∃ η, |η| ≤ ε ∧ W i (σ.getD i 0) = s i * (1 + η) := by
    intro i hi
    obtain ⟨η, h1, h2⟩ := hη i _ hi (idxOf_getD hσ hi)
    exact ⟨η, h1, by rw [h2, if_pos rfl, hdiag _ (idxOf_getD hσ hi), sub_zero]⟩
  have hlow : ∀ i, i < n → |s i| * (1 - ε) ≤ |W i (σ.getD i 0)| := by
    intro i hi
    obtain ⟨η, h1, h2⟩ := hmain i hi
    rw [h2, abs_mul]
    refine mul_le_mul_of_nonneg_left ?_ (abs_nonneg _)
    have := abs_le.1 h1
    exact le_trans (by linarith) (le_abs_self _)
  have hfeas : ∀ i, i < n → W i (σ.getD i 0) ≠ 0 := fun i hi =>
    abs_pos.1 (lt_of_lt_of_le (mul_pos (abs_pos.2 (hs0 i hi)) h1ε) (hlow i hi))
  obtain ⟨c, hc⟩ := asg.feasible n W σ hσ hfeas
  have hco := asg.perm _ _ _ hc
  have hceq : ∀ i, i < n → c.getD i 0 = σ.getD i 0 := by
    refine eq_of_rank_le hco hσ (fun a => o0.idxOf a) ?_ ?_
    · intro a b ha _ h
      exact (List.idxOf_inj ((ho.1.2 a).2 ha)).1 h
    · intro i hi
      by_contra hlt
      push Not at hlt
      have hne : σ.getD i 0 ≠ c.getD i 0 := fun h => by rw [h] at hlt; exact lt_irrefl _ hlt
      have hB0 : B (σ.getD i 0) (c.getD i 0) = 0 := by
        by_contra h
        have := idxOf_lt_of_before ho.1.1 (ho.2 _ _ (idxOf_getD hσ hi) (idxOf_getD hco hi) h)
        omega
      obtain ⟨η, h1, h2⟩ := hη i _ hi (idxOf_getD hco hi)
      rw [if_neg hne, hB0, sub_zero, zero_add] at h2
      have hfin := asg.finite _ _ _ hc i hi
      have hup : |W i (c.getD i 0)| ≤ |s i| * ε := by
        rw [h2, abs_mul]; exact mul_le_mul_of_nonneg_left h1 (abs_nonneg _)
      have hmin := asg.minimal _ _ _ hc σ hσ hfeas
      have hone : 1 / |W i (c.getD i 0)| ≤ ((List.range n).map (fun i => 1 / |W i (c.getD i 0)|)).sum :=
        List.single_le_sum (by
          intro x hx
          obtain ⟨k, _, rfl⟩ := List.mem_map.1 hx
          positivity) _ (List.mem_map.2 ⟨i, List.mem_range.2 hi, rfl⟩)
      have hsum : ((List.range n).map (fun i => 1 / |W i (σ.getD i 0)|)).sum ≤
          ((List.range n).map (fun k => 1 / |s k|)).sum / (1 - ε) := by
        rw [div_eq_mul_inv, ← List.sum_map_mul_right]
        refine List.sum_le_sum fun k hk => ?_
        have hk := List.mem_range.1 hk
        rw [← one_div, div_mul_div_comm, one_mul]
        exact one_div_le_one_div_of_le (mul_pos (abs_pos.2 (hs0 k hk)) h1ε) (hlow k hk)
      have hall := (hone.trans hmin).trans hsum
      have hpos : 0 < |W i (c.getD i 0)| := abs_pos.2 hfin
      rw [div_le_div_iff₀ hpos h1ε, one_mul] at hall
      have hSn : 0 ≤ ((List.range n).map fun k => 1 / |s k|).sum := List.sum_nonneg (by
          intro x hx
          obtain ⟨k, _, rfl⟩ := List.mem_map.1 hx
          positivity)
      have := mul_le_mul_of_nonneg_left hup hSn
      have hc := hs i hi
      nlinarith
  have hB : ∀ i j, i < n → j < n → ∃ η η', |η| ≤ ε ∧ |η'| ≤ ε ∧
      (i ≠ j → bEstimate (permuteRows n c W) i j = (B i j - η) / (1 + η')) := by
    intro i j hi hj
    obtain ⟨r, hr, rfl⟩ := exists_row hco hi
    obtain ⟨η, h1, h2⟩ := hη r j hr hj
    obtain ⟨η', h3, h4⟩ := hmain r hr
    refine ⟨η, η', h1, h3, fun hij => ?_⟩
    unfold bEstimate
    rw [permuteRows_apply hco hr, permuteRows_apply hco hr, hceq r hr, h4, h2, if_neg (by rwa [hceq r hr] at hij),
      mul_div_mul_left _ _ (hs0 r hr)]
    ring
  have hest : ∀ i j, i < n → j < n → |bEstimate (permuteRows n c W) i j - B i j| ≤ ε * (1 + |B i j|) / (1 - ε) := by
    intro i j hi hj
    by_cases hij : i = j
    · subst hij
      rw [bEstimate_diag hc hi, hdiag i hi, sub_zero, abs_zero]
      positivity
    · obtain ⟨η, η', h1, h2, h3⟩ := hB i j hi hj
      have h2' := abs_le.1 h2
      have hp : 0 < 1 + η' := by linarith
      rw [h3 hij, show (B i j - η) / (1 + η') - B i j = (- η - η' * B i j) / (1 + η') by field_simp; ring, abs_div,
        abs_of_pos hp]
      refine div_le_div₀ (by positivity) ?_ h1ε (by linarith)
      calc |(- η - η' * B i j)| ≤ |η| + |η' * B i j| := by rw [← abs_neg η]; exact abs_sub _ _
        _ ≤ ε + ε * |B i j| := by
            rw [abs_mul]
            exact add_le_add h1 (mul_le_mul_of_nonneg_right h2 (abs_nonneg _))
        _ = ε * (1 + |B i j|) := by ring
  obtain ⟨o, h1, h2⟩ := estimateOrder_near as hn (M := bEstimate (permuteRows n c W)) (B := B)
    (fun i hi => bEstimate_diag hc hi) hac (by
      intro a b i j ha hb hi hj h0 hne
      have hij : i ≠ j := by rintro rfl; exact hne (hdiag i hi)
      have hsmall : |bEstimate (permuteRows n c W) a b| ≤ ε / (1 - ε) := by
        have := hest a b ha hb
        rwa [h0, sub_zero, abs_zero, add_zero, mul_one] at this
      refine lt_of_le_of_lt hsmall ?_
      obtain ⟨η, η', h1, h2, h3⟩ := hB i j hi hj
      have h2' := abs_le.1 h2
      have hp : 0 < 1 + η' := by linarith
      rw [h3 hij, abs_div, abs_of_pos hp, div_lt_div_iff₀ h1ε hp]
      have hb := hβ i j hi hj hne
      have h5 : β - ε ≤ |B i j - η| := by
        have := abs_sub_abs_le_abs_sub (B i j) η
        linarith
      nlinarith)
  exact ⟨o, Direct.estimateAdj none lasso o, c, hc, hceq, hest, by simp only [fit, hc, h1], h2.1, h2.2⟩

/-- The model `0 → 1` with coefficient `β`. -/
def pairB (β : ℚ) : Mat := fun i j => if i = 1 ∧ j = 0 then β else 0

/-- An unmixing matrix of `pairB β` with errors of size `ε`. -/
def pairW (β ε : ℚ) : Mat := fun i j =>
  if i = 0 then (if j = 0 then 1 - ε else -ε) else (if j = 0 then ε - β else 1 + ε)

theorem pairB_acyclic (β : ℚ) : Acyclic (Edge 2 (pairB β) 0) := by
  refine acyclic_of_before (l := [0, 1]) (by decide) ?_
  rintro a b ⟨_, _, hw⟩
  have hne := abs_pos.1 hw
  unfold pairB at hne
  split at hne
  · rename_i h
    rw [h.1, h.2]
    exact ⟨[], [], [], rfl⟩
  · exact absurd rfl hne

theorem order_two {c : List Nat} (hc : IsOrder 2 c) : c = [0, 1] ∨ c = [1, 0] := by
  have hl : c.length = 2 := by rw [(IsOrder.perm.1 hc).length_eq]; simp
  obtain ⟨a, b, rfl⟩ := List.length_eq_two.1 hl
  have ha := (hc.2 a).1 (by simp)
  have hb := (hc.2 b).1 (by simp)
  have hnd := hc.1
  simp only [List.nodup_cons, List.mem_singleton] at hnd
  interval_cases a <;> interval_cases b <;> simp_all

/-- C194: the bound is sharp.  For two variables and `ε ≤ 1/3`: as soon as `2 ε > β (1 - ε)`, there is an unmixing matrix with
relative errors of at most `ε` for which the effect is put before its cause. -/
theorem C194_sharp {ε β : ℚ} (h0 : 0 < ε) (h3 : ε ≤ 1 / 3) (hβ : 0 < β) (hlt : β * (1 - ε) < 2 * ε) :
    ∃ W, NearUnmixing 2 (pairB β) W [0, 1] (fun _ => 1) ε ∧
      ∀ (as : Boot.Argsort) (asg : Assign) (lasso : Direct.Lasso ℚ),
        ∃ order B', fit as asg lasso 2 W = .ok (order, B') ∧ Before order 1 0 := by
  refine ⟨pairW β ε, ⟨⟨by decide, by intro i; simp; omega⟩, by simp, ?_⟩, ?_⟩
  · intro i j hi hj
    have habs : |ε| = ε := abs_of_pos h0
    interval_cases i <;> interval_cases j <;> simp [pairW, pairB, habs]
  intro as asg lasso
  have h1 : 0 < 1 - ε := by linarith
  have hβ1 : β ≤ 1 := by
    by_contra h
    push Not at h
    nlinarith
  have hW00 : pairW β ε 0 0 = 1 - ε := rfl
  have hW01 : pairW β ε 0 1 = -ε := rfl
  have hW10 : pairW β ε 1 0 = ε - β := rfl
  have hW11 : pairW β ε 1 1 = 1 + ε := rfl
  have hid : IsOrder 2 [0, 1] := ⟨by decide, by intro i; simp; omega⟩
  have hfeas : ∀ i, i < 2 → pairW β ε i (([0, 1] : List Nat).getD i 0) ≠ 0 := by
    intro i hi
    interval_cases i
    · exact h1.ne'
    · exact (by linarith : (0 : ℚ) < 1 + ε).ne'
  obtain ⟨c, hc⟩ := asg.feasible 2 _ _ hid hfeas
  have hcid : c = [0, 1] := by
    rcases order_two (asg.perm _ _ _ hc) with h | rfl
    · exact h
    · exfalso
      have hmin := asg.minimal _ _ _ hc [0, 1] hid hfeas
      have hfin := asg.finite _ _ _ hc 1 (by norm_num)
      have hfin' : ε - β ≠ 0 := hfin
      have e1 : ((List.range 2).map (fun i => 1 / |pairW β ε i (([1, 0] : List Nat).getD i 0)|)).sum =
          1 / ε + 1 / |ε - β| := by
        simp [List.range_succ, hW01, hW10, abs_of_pos h0]
      have e2 : ((List.range 2).map (fun i => 1 / |pairW β ε i (([0, 1] : List Nat).getD i 0)|)).sum =
          1 / (1 - ε) + 1 / (1 + ε) := by
        simp [List.range_succ, hW00, hW11, abs_of_pos h1, abs_of_pos (by linarith : (0 : ℚ) < 1 + ε)]
      rw [e1, e2] at hmin
      have b1 : 3 ≤ 1 / ε := by rw [le_div_iff₀ h0]; linarith
      have b2 : 1 / (1 - ε) ≤ 3 / 2 := by rw [div_le_div_iff₀ h1 (by norm_num)]; linarith
      have b3 : 1 / (1 + ε) ≤ 1 := by rw [div_le_one (by linarith)]; linarith
      have b4 : (0 : ℚ) < 1 / |ε - β| := by positivity
      linarith
  subst hcid
  have hP : ∀ i j, i < 2 → permuteRows 2 [0, 1] (pairW β ε) i j = pairW β ε i j := by
    intro i j hi
    have := permuteRows_apply hid (W := pairW β ε) hi j
    interval_cases i <;> simpa using this
  have hB01 : bEstimate (permuteRows 2 [0, 1] (pairW β ε)) 0 1 = ε / (1 - ε) := by
    simp only [bEstimate, hP 0 _ (by norm_num), hW00, hW01]
    norm_num
    ring
  have hB10 : bEstimate (permuteRows 2 [0, 1] (pairW β ε)) 1 0 = (β - ε) / (1 + ε) := by
    simp only [bEstimate, hP 1 _ (by norm_num), hW10, hW11]
    norm_num
    ring
  have hlt' : |(β - ε) / (1 + ε)| < |ε / (1 - ε)| := by
    rw [abs_div, abs_of_pos (by linarith : (0 : ℚ) < 1 + ε), abs_of_pos (div_pos h0 h1),
      div_lt_div_iff₀ (by linarith) h1]
    rcases abs_cases (β - ε) with ⟨h, _⟩ | ⟨h, _⟩ <;> rw [h] <;> nlinarith
  obtain ⟨o, ho1, ho2⟩ := estimateOrder_near as (le_refl 2) (M := bEstimate (permuteRows 2 [0, 1] (pairW β ε)))
    (B := fun i j => if i = 0 ∧ j = 1 then 1 else 0) (fun i hi => bEstimate_diag hc hi) (by
      refine acyclic_of_before (l := [1, 0]) (by decide) ?_
      rintro a b ⟨_, _, hw⟩
      have hne := abs_pos.1 hw
      beta_reduce at hne
      split at hne
      · rename_i h
        rw [h.1, h.2]
        exact ⟨[], [], [], rfl⟩
      · exact absurd rfl hne) (by
      intro a b i j ha hb hi hj hz hne
      have hij : i = 0 ∧ j = 1 := by
        by_contra h
        simp [h] at hne
      rw [hij.1, hij.2, hB01]
      interval_cases a <;> interval_cases b
      · rw [bEstimate_diag hc (by norm_num), abs_zero]; exact abs_pos.2 (div_pos h0 h1).ne'
      · simp at hz
      · rw [hB10]; exact hlt'
      · rw [bEstimate_diag hc (by norm_num), abs_zero]; exact abs_pos.2 (div_pos h0 h1).ne')
  exact ⟨o, Direct.estimateAdj none lasso o, by simp only [fit, hc, ho1], ho2.2 0 1 (by norm_num) (by norm_num) (by simp)⟩

/-! ### Concrete cases meeting the hypotheses -/

/-- C194_stable: the model `1 → 0 → 2` with coefficients 2 and -1, errors of 1/20 in every entry of the unmixing matrix. -/
example : NearUnmixing 3 exB (fun i j => (if i = j then 1 else 0) - exB i j + (if i ≤ j then 1 / 20 else -1 / 20)) [0, 1, 2]
      (fun _ => 1) (1 / 20) ∧
    (∀ i j, i < 3 → j < 3 → exB i j ≠ 0 → (1 : ℚ) ≤ |exB i j|) ∧ (2 * (1 / 20) < (1 : ℚ) * (1 - 1 / 20)) ∧
    ∀ i, i < 3 → (1 / 20 : ℚ) * |(fun _ : Nat => (1 : ℚ)) i| *
      ((List.range 3).map fun k => 1 / |(fun _ : Nat => (1 : ℚ)) k|).sum < 1 - 1 / 20 := by
  refine ⟨⟨⟨by decide, by intro i; simp; omega⟩, by simp, ?_⟩, ?_, by norm_num, ?_⟩
  · intro i j hi hj; interval_cases i <;> interval_cases j <;> decide +kernel
  · intro i j hi hj; interval_cases i <;> interval_cases j <;> decide +kernel
  · intro i hi; interval_cases i <;> decide +kernel

/-- C194_sharp: a coefficient of 1/2 and errors of 1/4. -/
example : (0 : ℚ) < 1 / 4 ∧ (1 / 4 : ℚ) ≤ 1 / 3 ∧ (0 : ℚ) < 1 / 2 ∧ (1 / 2 : ℚ) * (1 - 1 / 4) < 2 * (1 / 4) := by norm_num

end Verif.Ica
