import Verif.Proofs.Ica
import Verif.Props.Bootstrap
import Mathlib.Algebra.BigOperators.Fin
import Mathlib.Algebra.Order.BigOperators.Group.List
import Mathlib.Tactic.IntervalCases
import Mathlib.Data.List.Permutation
import Mathlib.Data.Finset.Max

/-!
# ICA-LiNGAM (C23, C24, C58)
-/
set_option linter.unusedSectionVars false
set_option autoImplicit false
namespace Verif.Ica

/-- C23: the order search returns an order in which every nonzero entry points forward … -/
theorem C23_order_sound {n : Nat} {M : Mat} {o : List Nat} (h : searchOrder n M = some o) :
    IsOrder n o ∧ ∀ i j, i < n → j < n → M i j ≠ 0 → Before o j i := searchOrder_some h

/-- C23: … and it succeeds exactly on acyclic matrices (a nonzero diagonal entry is a cycle). -/
theorem C23_succeeds_iff_acyclic (n : Nat) (M : Mat) : (∃ o, searchOrder n M = some o) ↔ Acyclic (Edge n M 0) := by
  constructor
  · rintro ⟨o, h⟩; exact (searchOrder_some h).acyclic
  · exact searchOrder_acyclic

/-- C24: for `n ≥ 2` and a zero diagonal the pruning loop finds an order. It is consistent with the matrix in which the
`k` smallest entries (in the order of `argsort`) are zeroed, where `k` is the least number `≥ n(n+1)/2` for which the
zeroed matrix is acyclic. -/
theorem C24_finds_order (as : Boot.Argsort) {n : Nat} (hn : 2 ≤ n) {M : Mat} (hd : ∀ i, i < n → M i i = 0) :
    ∃ pos k o, SortedPositions n M pos ∧ estimateOrder as n M = some o ∧ n * (n + 1) / 2 ≤ k ∧ k < n * n ∧
      Consistent n (zeroed M (pos.take k)) o ∧
      ∀ k', n * (n + 1) / 2 ≤ k' → k' < k → ¬ Acyclic (Edge n (zeroed M (pos.take k')) 0) := by
  have hpos := positions_sorted as n M
  have hinit := tri_lt hn
  unfold estimateOrder
  generalize positions as n M = pos at hpos ⊢
  simp only [foldl_setZero]
  generalize n * (n + 1) / 2 = init at hinit ⊢
  have htake : ∀ k, pos.take init ++ (pos.drop init).take k = pos.take (init + k) := fun k => by
    rw [List.take_add]
  have hdl : (pos.drop init).length = n * n - init := by rw [List.length_drop, hpos.len]
  obtain ⟨k, o, h1, h2, h3, h4⟩ := pruneLoop_spec (n := n) (M := M) (post := pos.drop init) (pre := pos.take init)
    ⟨n * n - 1 - init, by rw [hdl]; omega, by
      rw [htake, show init + (n * n - 1 - init) = n * n - 1 by omega]; exact acyclic_last hpos hd⟩
  refine ⟨pos, init + k, o, hpos, h2, by omega, by rw [hdl] at h1; omega, htake k ▸ h3, ?_⟩
  intro k' hk1 hk2
  have := h4 (k' - init) (by omega)
  rwa [htake, show init + (k' - init) = k' by omega] at this

/-- C24: for one variable no order is found. -/
theorem C24_one_variable (as : Boot.Argsort) (M : Mat) : estimateOrder as 1 M = none := by
  have := (positions_sorted as 1 M).len
  simp only [estimateOrder]
  rw [List.drop_of_length_le (by omega)]
  rfl

theorem permuteRows_apply {n : Nat} {c : List Nat} (hc : IsOrder n c) {W : Mat} {i : Nat} (hi : i < n) (j : Nat) :
    permuteRows n c W (c.getD i 0) j = W i j := by
  have hl : c.length = n := by rw [(IsOrder.perm.1 hc).length_eq]; simp
  unfold permuteRows
  have : (List.range n).reverse.find? (fun i' => decide (c.getD i' 0 = c.getD i 0)) = some i := by
    cases h : (List.range n).reverse.find? (fun i' => decide (c.getD i' 0 = c.getD i 0)) with
    | none =>
      have := List.find?_eq_none.1 h i (by simp [hi])
      simp at this
    | some k =>
      have h1 := List.find?_some h
      have h2 := List.mem_of_find?_eq_some h
      rw [List.mem_reverse, List.mem_range] at h2
      rw [decide_eq_true_eq, List.getD_eq_getElem?_getD, List.getD_eq_getElem?_getD,
        List.getElem?_eq_getElem (by omega), List.getElem?_eq_getElem (by omega)] at h1
      rw [(List.Nodup.getElem_inj_iff hc.1).1 h1]
  rw [this]

/-- Every row index is the image of one row. -/
theorem exists_row {n : Nat} {c : List Nat} (hc : IsOrder n c) {r : Nat} (hr : r < n) :
    ∃ i, i < n ∧ c.getD i 0 = r := by
  obtain ⟨i, hi⟩ := List.getElem?_of_mem ((hc.2 r).2 hr)
  have hl : c.length = n := by rw [(IsOrder.perm.1 hc).length_eq]; simp
  refine ⟨i, by have := (List.getElem?_eq_some_iff.1 hi).1; omega, ?_⟩
  rw [List.getD_eq_getElem?_getD, hi]; rfl

theorem bEstimate_diag {asg : Assign} {n : Nat} {W : Mat} {c : List Nat} (h : asg.run n W = some c) {i : Nat}
    (hi : i < n) : bEstimate (permuteRows n c W) i i = 0 := by
  have hc := asg.perm _ _ _ h
  obtain ⟨r, hr, rfl⟩ := exists_row hc hi
  unfold bEstimate
  rw [permuteRows_apply hc hr, div_self (asg.finite _ _ _ h r hr)]
  simp

/-- C24: the whole `fit`. Whatever FastICA returns, for two or more variables it either reports that no assignment exists
or returns a permutation and a matrix whose edges follow it. -/
theorem C24_fit (as : Boot.Argsort) (asg : Assign) (lasso : Direct.Lasso ℚ) {n : Nat} (hn : 2 ≤ n) (W : Mat) :
    fit as asg lasso n W = .error .infeasible ∨
    ∃ order B, fit as asg lasso n W = .ok (order, B) ∧ IsOrder n order ∧ (∀ i j, B i j ≠ 0 → Before order j i) ∧
      Acyclic (Edge n B 0) := by
  cases h : asg.run n W with
  | none => left; simp only [fit, h]
  | some c =>
    right
    obtain ⟨_, _, o, _, h2, _, _, h3, _⟩ := C24_finds_order as hn (M := bEstimate (permuteRows n c W))
      (fun i hi => bEstimate_diag h hi)
    have hb : ∀ i j, Direct.estimateAdj none lasso o i j ≠ 0 → Before o j i := fun i j => Direct.estimateAdj_before
    refine ⟨o, Direct.estimateAdj none lasso o, by simp only [fit, h, h2], h3.1, hb, ?_⟩
    refine acyclic_of_before h3.1.1 ?_
    rintro a b ⟨_, _, hw⟩
    exact hb b a (abs_pos.1 hw)

/-- C24: `fit` reports that no assignment exists exactly if every permutation meets a zero of the unmixing matrix. -/
theorem C24_infeasible_iff (as : Boot.Argsort) (asg : Assign) (lasso : Direct.Lasso ℚ) (n : Nat) (W : Mat) :
    fit as asg lasso n W = .error .infeasible ↔ ∀ c, IsOrder n c → ∃ i, i < n ∧ W i (c.getD i 0) = 0 := by
  cases h : asg.run n W with
  | none =>
    refine ⟨fun _ c hc => ?_, fun _ => by simp only [fit, h]⟩
    by_contra hcon
    push Not at hcon
    obtain ⟨c', h'⟩ := asg.feasible n W c hc hcon
    rw [h] at h'; cases h'
  | some c =>
    constructor
    · intro hf
      simp only [fit, h] at hf
      split at hf <;> cases hf
    · intro hall
      obtain ⟨i, hi, h0⟩ := hall c (asg.perm _ _ _ h)
      exact absurd h0 (asg.finite _ _ _ h i hi)

/-! ### Exact recovery -/

theorem laterPairs_length : ∀ l : List Nat, (Boot.laterPairs l).length * 2 = l.length * (l.length - 1)
  | [] => rfl
  | a :: l => by
    rw [Boot.laterPairs, List.length_append, List.length_map, Nat.add_mul, laterPairs_length l, List.length_cons,
      Nat.add_sub_cancel]
    cases l.length with
    | zero => rfl
    | succ k => rw [Nat.add_sub_cancel]; ring

/-- An acyclic matrix has so many zeros that zeroing the `n(n+1)/2` smallest entries does not change it. -/
theorem zeroed_init {n : Nat} {M : Mat} {pos : List (Nat × Nat)} (hpos : SortedPositions n M pos) {o : List Nat}
    (ho : Consistent n M o) : zeroed M (pos.take (n * (n + 1) / 2)) = M := by
  funext i j
  unfold zeroed
  split
  · rename_i hmem
    by_contra hne
    obtain ⟨t, ht⟩ := List.getElem?_of_mem hmem
    have htl : t < n * (n + 1) / 2 := by
      have := (List.getElem?_eq_some_iff.1 ht).1
      rw [List.length_take] at this
      omega
    rw [List.getElem?_take_of_lt htl] at ht
    obtain ⟨htp, hte⟩ := List.getElem?_eq_some_iff.1 ht
    -- every later entry is nonzero
    have hnz : ∀ p ∈ pos.drop t, M p.1 p.2 ≠ 0 := by
      intro p hp
      rw [List.drop_eq_getElem_cons htp, hte] at hp
      rcases List.mem_cons.1 hp with rfl | hp
      · exact fun h => hne h.symm
      · have hs : ((i, j) :: pos.drop (t + 1)).Pairwise (fun p q => |M p.1 p.2| ≤ |M q.1 q.2|) := by
          rw [← hte, ← List.drop_eq_getElem_cons htp]
          exact hpos.sorted.sublist (List.drop_sublist _ _)
        have := (List.pairwise_cons.1 hs).1 p hp
        exact abs_pos.1 (lt_of_lt_of_le (abs_pos.2 (fun h => hne h.symm)) this)
    have hsub : ((pos.drop t).map Prod.swap) ⊆ Boot.laterPairs o := by
      intro q hq
      obtain ⟨⟨a, b⟩, hp, rfl⟩ := List.mem_map.1 hq
      obtain ⟨ha, hb⟩ := (hpos.mem a b).1 (List.mem_of_mem_drop hp)
      exact Boot.mem_laterPairs.2 (ho.2 a b ha hb (hnz _ hp))
    have hnd : ((pos.drop t).map Prod.swap).Nodup :=
      (hpos.nodup.sublist (List.drop_sublist _ _)).map Prod.swap_injective
    have hle := (List.subperm_of_subset hnd hsub).length_le
    rw [List.length_map, List.length_drop, hpos.len] at hle
    have h2 := laterPairs_length o
    rw [(IsOrder.perm.1 ho.1).length_eq, List.length_range] at h2
    have h3 : n * (n + 1) / 2 * 2 = n * (n + 1) := Nat.div_mul_cancel (Nat.even_mul_succ_self n).two_dvd
    have h4 : n * (n - 1) + n * (n + 1) = n * n * 2 := by
      cases n with
      | zero => rfl
      | succ k => rw [Nat.add_sub_cancel]; ring
    have h5 : (n * n - t) * 2 ≤ n * (n - 1) := by rw [← h2]; exact Nat.mul_le_mul_right 2 hle
    have h6 : t * 2 + 2 ≤ n * (n + 1) := by omega
    have : n * n * 2 - t * 2 ≤ n * (n - 1) := by rw [← Nat.sub_mul]; exact h5
    have h7 : t < n * n := by rw [← hpos.len]; exact htp
    omega
  · rfl

theorem estimateOrder_acyclic (as : Boot.Argsort) {n : Nat} (hn : 2 ≤ n) {M : Mat} (hac : Acyclic (Edge n M 0)) :
    ∃ o, estimateOrder as n M = some o ∧ Consistent n M o := by
  obtain ⟨o, ho⟩ := searchOrder_acyclic hac
  have hpos := positions_sorted as n M
  refine ⟨o, ?_, searchOrder_some ho⟩
  unfold estimateOrder
  generalize positions as n M = pos at hpos ⊢
  simp only [foldl_setZero, zeroed_init hpos (searchOrder_some ho)]
  have hdl : (pos.drop (n * (n + 1) / 2)).length = n * n - n * (n + 1) / 2 := by rw [List.length_drop, hpos.len]
  have := tri_lt hn
  cases hdrop : pos.drop (n * (n + 1) / 2) with
  | nil => rw [hdrop] at hdl; simp at hdl; omega
  | cons p ps => simp only [pruneLoop, ho]

/-- `W` is an exact unmixing matrix of the model `x = B x + e`, up to the order and the scale of its rows: row `i` of `W`
is a nonzero multiple of row `σ[i]` of `I - B`. -/
def ExactUnmixing (n : Nat) (B W : Mat) (σ : List Nat) (s : Nat → ℚ) : Prop :=
  IsOrder n σ ∧ (∀ i, i < n → s i ≠ 0) ∧
    ∀ i j, i < n → j < n → W i j = s i * ((if σ.getD i 0 = j then 1 else 0) - B (σ.getD i 0) j)

theorem idxOf_getD {n : Nat} {c : List Nat} (hc : IsOrder n c) {i : Nat} (hi : i < n) : c.getD i 0 < n := by
  have hl : c.length = n := by rw [(IsOrder.perm.1 hc).length_eq]; simp
  rw [List.getD_eq_getElem?_getD, List.getElem?_eq_getElem (by omega)]
  exact (hc.2 _).1 (List.getElem_mem _)

/-- Two rearrangements of `0 … n-1` that are pointwise ordered by position in `o` are equal. -/
theorem eq_of_rank_le {n : Nat} {c σ : List Nat} (hc : IsOrder n c) (hσ : IsOrder n σ) (f : Nat → Nat)
    (hinj : ∀ a b, a < n → b < n → f a = f b → a = b)
    (hle : ∀ i, i < n → f (c.getD i 0) ≤ f (σ.getD i 0)) : ∀ i, i < n → c.getD i 0 = σ.getD i 0 := by
  have hmap : ∀ {l : List Nat}, IsOrder n l → (List.range n).map (fun i => l.getD i 0) = l := by
    intro l hl
    have hll : l.length = n := by rw [(IsOrder.perm.1 hl).length_eq]; simp
    apply List.ext_getElem
    · simp [hll]
    · intro i h1 h2
      simp [List.getD_eq_getElem?_getD, List.getElem?_eq_getElem h2]
  have hsum : ((List.range n).map (fun i => f (c.getD i 0))).sum = ((List.range n).map (fun i => f (σ.getD i 0))).sum := by
    have h1 : (List.range n).map (fun i => f (c.getD i 0)) = c.map f := by
      conv_rhs => rw [← hmap hc]
      rw [List.map_map]; rfl
    have h2 : (List.range n).map (fun i => f (σ.getD i 0)) = σ.map f := by
      conv_rhs => rw [← hmap hσ]
      rw [List.map_map]; rfl
    rw [h1, h2]
    exact (((IsOrder.perm.1 hc).trans (IsOrder.perm.1 hσ).symm).map f).sum_eq
  intro i hi
  refine hinj _ _ (idxOf_getD hc hi) (idxOf_getD hσ hi) ?_
  by_contra hne
  have hlt : f (c.getD i 0) < f (σ.getD i 0) := lt_of_le_of_ne (hle i hi) hne
  have := List.sum_lt_sum (l := List.range n) (fun i => f (c.getD i 0)) (fun i => f (σ.getD i 0))
    (fun j hj => hle j (List.mem_range.1 hj)) ⟨i, List.mem_range.2 hi, hlt⟩
  omega

theorem idxOf_lt_of_before {o : List Nat} (ho : o.Nodup) {a b : Nat} (h : Before o a b) : o.idxOf a < o.idxOf b := by
  obtain ⟨x, y, z, rfl⟩ := h
  have hax : a ∉ x := fun h' => by simp [List.nodup_append] at ho; exact (ho.2.2 a h').1 rfl
  have hbx : b ∉ x := fun h' => by
    simp [List.nodup_append] at ho
    exact (ho.2.2 b h').2 b (Or.inr (Or.inl rfl)) rfl
  have hab : a ≠ b := by rintro rfl; simp [List.nodup_append] at ho
  rw [List.idxOf_append_of_notMem hax, List.idxOf_append_of_notMem hbx, List.idxOf_cons_self, List.idxOf_cons_ne _ hab]
  omega

/-- C58: exact recovery. If ICA returned an exact unmixing matrix of an acyclic model `x = B x + e` with `n ≥ 2`
variables, in any row order and scale, then ICA-LiNGAM recovers `B` exactly before pruning and returns an order in which
every edge of `B` points forward. -/
theorem C58_exact_recovery (as : Boot.Argsort) (asg : Assign) (lasso : Direct.Lasso ℚ) {n : Nat} (hn : 2 ≤ n)
    {B W : Mat} {σ : List Nat} {s : Nat → ℚ} (hac : Acyclic (Edge n B 0)) (hW : ExactUnmixing n B W σ s) :
    ∃ order B' c, asg.run n W = some c ∧ (∀ i j, i < n → j < n → bEstimate (permuteRows n c W) i j = B i j) ∧
      fit as asg lasso n W = .ok (order, B') ∧ IsOrder n order ∧
      ∀ i j, i < n → j < n → B i j ≠ 0 → Before order j i := by
  obtain ⟨hσ, hs, hWe⟩ := hW
  obtain ⟨o0, ho0⟩ := searchOrder_acyclic hac
  have ho := searchOrder_some ho0
  have hdiag : ∀ i, i < n → B i i = 0 := by
    intro i hi
    by_contra hne
    exact Before.irrefl ho.1.1 _ (ho.2 i i hi hi hne)
  -- σ is feasible
  have hfeas : ∀ i, i < n → W i (σ.getD i 0) ≠ 0 := by
    intro i hi
    rw [hWe i _ hi (idxOf_getD hσ hi), hdiag _ (idxOf_getD hσ hi)]
    simp [hs i hi]
  obtain ⟨c, hc⟩ := asg.feasible n W σ hσ hfeas
  have hco := asg.perm _ _ _ hc
  -- and the only feasible assignment
  have hceq : ∀ i, i < n → c.getD i 0 = σ.getD i 0 := by
    refine eq_of_rank_le hco hσ (fun a => o0.idxOf a) ?_ ?_
    · intro a b ha _ h
      exact (List.idxOf_inj ((ho.1.2 a).2 ha)).1 h
    · intro i hi
      have hfin := asg.finite _ _ _ hc i hi
      rw [hWe i _ hi (idxOf_getD hco hi)] at hfin
      by_cases he : σ.getD i 0 = c.getD i 0
      · rw [he]
      · rw [if_neg he, zero_sub] at hfin
        have : B (σ.getD i 0) (c.getD i 0) ≠ 0 := by
          intro h; rw [h] at hfin; simp at hfin
        exact (idxOf_lt_of_before ho.1.1 (ho.2 _ _ (idxOf_getD hσ hi) (idxOf_getD hco hi) this)).le
  have hB : ∀ i j, i < n → j < n → bEstimate (permuteRows n c W) i j = B i j := by
    intro i j hi hj
    obtain ⟨r, hr, rfl⟩ := exists_row hco hi
    unfold bEstimate
    rw [permuteRows_apply hco hr, permuteRows_apply hco hr, hWe r j hr hj, hWe r _ hr hi, hceq r hr,
      hdiag _ (idxOf_getD hσ hr)]
    have := hs r hr
    simp only [if_true, sub_zero, mul_one]
    rw [mul_div_cancel_left₀ _ this]
    ring
  have hac' : Acyclic (Edge n (bEstimate (permuteRows n c W)) 0) := by
    intro i hi
    refine hac i (Relation.TransGen.mono ?_ _ _ hi)
    rintro a b ⟨ha, hb, hw⟩
    exact ⟨ha, hb, by rwa [hB b a hb ha] at hw⟩
  obtain ⟨o, h1, h2⟩ := estimateOrder_acyclic as hn hac'
  refine ⟨o, Direct.estimateAdj none lasso o, c, hc, hB, by simp only [fit, hc, h1], h2.1, ?_⟩
  intro i j hi hj hne
  exact h2.2 i j hi hj (by rwa [hB i j hi hj])

/-! ### Concrete cases meeting the hypotheses -/

theorem exists_best (n : Nat) (W : Mat) : ∃ r : Option (List Nat),
    (∀ c, r = some c → IsOrder n c ∧ (∀ i, i < n → W i (c.getD i 0) ≠ 0) ∧
      ∀ c', IsOrder n c' → (∀ i, i < n → W i (c'.getD i 0) ≠ 0) →
        ((List.range n).map (fun i => 1 / |W i (c.getD i 0)|)).sum ≤
          ((List.range n).map (fun i => 1 / |W i (c'.getD i 0)|)).sum) ∧
    (∀ c, IsOrder n c → (∀ i, i < n → W i (c.getD i 0) ≠ 0) → ∃ c', r = some c') := by
  classical
  let S := (List.range n).permutations.toFinset.filter (fun c => ∀ i, i < n → W i (c.getD i 0) ≠ 0)
  have hS : ∀ c, c ∈ S ↔ IsOrder n c ∧ ∀ i, i < n → W i (c.getD i 0) ≠ 0 := by
    intro c
    simp only [S, Finset.mem_filter, List.mem_toFinset, List.mem_permutations, IsOrder.perm]
  by_cases hne : S.Nonempty
  · obtain ⟨c, hc, hmin⟩ := S.exists_min_image
      (fun c => ((List.range n).map (fun i => 1 / |W i (c.getD i 0)|)).sum) hne
    refine ⟨some c, ?_, fun _ _ _ => ⟨c, rfl⟩⟩
    intro _ he
    cases he
    exact ⟨((hS c).1 hc).1, ((hS c).1 hc).2, fun c' h1 h2 => hmin c' ((hS c').2 ⟨h1, h2⟩)⟩
  · refine ⟨none, by simp, ?_⟩
    intro c h1 h2
    exact absurd ⟨c, (hS c).2 ⟨h1, h2⟩⟩ hne

/-- An optimal assignment exists, so `Assign` is inhabited. -/
noncomputable def exAssign : Assign where
  run n W := (exists_best n W).choose
  perm n W c h := ((exists_best n W).choose_spec.1 c h).1
  finite n W c h := ((exists_best n W).choose_spec.1 c h).2.1
  minimal n W c h := ((exists_best n W).choose_spec.1 c h).2.2
  feasible n W := (exists_best n W).choose_spec.2

/-- `1 → 0 → 2`. -/
def exB : Mat := fun i j => if i = 0 ∧ j = 1 then 2 else if i = 2 ∧ j = 0 then -1 else 0

/-- C23: the search finds the order `1, 0, 2`, and nothing if the edge `2 → 1` closes a cycle. -/
example : searchOrder 3 exB = some [1, 0, 2] ∧
    searchOrder 3 (fun i j => if i = 1 ∧ j = 2 then 1 else exB i j) = none := by
  unfold searchOrder; decide +kernel

theorem exB_acyclic : Acyclic (Edge 3 exB 0) := by
  rw [← C23_succeeds_iff_acyclic]
  exact ⟨[1, 0, 2], by unfold searchOrder; decide +kernel⟩

/-- C24: a cyclic matrix with zero diagonal (the smallest entry has to be dropped). -/
example : (∀ i, i < 3 → (fun i j : Nat => if i = j then (0 : ℚ) else i + 2 * j + 1) i i = 0) := by
  intro i hi; simp

/-- C58: the rows of `I - exB`, cyclically shifted and scaled by 3. -/
example : ExactUnmixing 3 exB (fun i j => 3 * ((if (i + 1) % 3 = j then 1 else 0) - exB ((i + 1) % 3) j)) [1, 2, 0]
    (fun _ => 3) := by
  refine ⟨⟨by decide, by intro i; simp; omega⟩, by norm_num, ?_⟩
  intro i j hi hj
  interval_cases i <;> simp

end Verif.Ica
