import Verif.Proofs.RcdHidden
import Verif.Props.RcdPopulation

/-!
# RCD with hidden causes and perfect tests (C177–C179)
-/
set_option linter.unusedSectionVars false
set_option autoImplicit false
namespace Verif.Rcd
open Finset

section
variable {n m : Nat} {B L X : Nat → Nat → ℚ} {σ : Nat → ℚ} {t : Tests} {coef : Coef} {fuel : Nat} {M : Anc}
  {B' : Nat → Nat → Option ℚ}

theorem fit_parts {maxNum : Nat} (h : fit t coef n maxNum fuel = some (M, B')) :
    extractAncestors t n maxNum fuel = some M ∧
      B' = adjacency coef n (extractParents t n M) (extractConfounded t n (extractParents t n M)) := by
  unfold fit at h
  cases hM : extractAncestors t n maxNum fuel with
  | none => simp [hM] at h
  | some M0 =>
    simp only [hM, Option.some.injEq, Prod.mk.injEq] at h
    obtain ⟨rfl, rfl⟩ := h
    exact ⟨rfl, rfl⟩

/-- What the search over pairs knows: nothing false, and every ancestor without hidden causes above it. -/
theorem search_facts (hX : SourceModel n m B L X) (hac : Acyclic (Edge n B 0)) (hσ : ∀ k, k < m → 0 < σ k)
    (hf : ∀ i j, NoHiddenAbove n m B L j → TrueAncestor n B j i → X i j ≠ 0) (ht : PerfectTests n m σ X t)
    (h : extractAncestors t n 1 fuel = some M) : SoundM n B M ∧ CompleteM n m B L M :=
  ⟨loop_sound_one hX hac hσ ht (fun i j h => absurd h (by simp)) h,
    (loop_clean hX hac hσ hf ht le_rfl (by omega) (good_empty t n 1) (fun i j h => absurd h (by simp))
      (fun _ _ _ _ _ _ h => absurd h (by simp)) (Or.inl rfl) h).2⟩

theorem parents_sub (hs : SoundM n B M) {i j : Nat} (h : j ∈ extractParents t n M i) : TrueAncestor n B j i := by
  unfold extractParents at h
  split at h
  · exact hs i j (mem_filter.1 h).1
  · simp at h

theorem entry_none {i j : Nat} (hi : i < n) :
    adjacency coef n (extractParents t n M) (extractConfounded t n (extractParents t n M)) i j = none ↔
      j ∈ extractConfounded t n (extractParents t n M) i := by
  unfold adjacency
  rw [if_pos hi]
  split
  · simpa
  · split <;> simpa

theorem entry_value (hX : SourceModel n m B L X) (hac : Acyclic (Edge n B 0)) (hσ : ∀ k, k < m → 0 < σ k)
    (ht : PerfectTests n m σ X t) (hcoef : PerfectCoef n m σ X coef) (hMn : ∀ a, ∀ h ∈ M a, h < n) (hirr : ∀ a, a ∉ M a)
    {i j : Nat} (hi : i < n) {c r : Nat → ℚ} (hreg : IsRegression m σ X (M i) (X i) c r) {v : ℚ}
    (hv : adjacency coef n (extractParents t n M) (extractConfounded t n (extractParents t n M)) i j = some v) :
    v = if j ∈ M i then c j else 0 := by
  have hmem : ∀ j, j ∈ extractParents t n M i ↔ j ∈ M i ∧ c j ≠ 0 := by
    intro j
    unfold extractParents
    rw [if_pos hi, mem_filter]
    constructor
    · rintro ⟨h1, h2⟩
      exact ⟨h1, (isParent_coef hX hac hσ ht hMn hirr hi h1 hreg).1 h2⟩
    · rintro ⟨h1, h2⟩
      exact ⟨h1, (isParent_coef hX hac hσ ht hMn hirr hi h1 hreg).2 h2⟩
  have hPn : extractParents t n M i ⊆ range n := fun b hb => mem_range.2 (hMn i b ((hmem b).1 hb).1)
  have hP := parents_residual hX hac hσ ht hMn hirr hi hreg
  unfold adjacency at hv
  rw [if_pos hi] at hv
  split at hv
  · cases hv
  · split at hv
    · rename_i hjP
      obtain ⟨r', hr'⟩ := hcoef ((List.range n).filter (fun k => decide (k ∈ extractParents t n M i))) i
        List.filter_sublist hi
      have htf : ((List.range n).filter (fun k => decide (k ∈ extractParents t n M i))).toFinset =
          extractParents t n M i := listOf_toFinset hPn
      generalize coef ((List.range n).filter (fun k => decide (k ∈ extractParents t n M i))) i = cf at hr' hv
      rw [htf] at hr'
      have := coef_unique hX hac hσ (fun h hh => mem_range.1 (hPn hh)) hr' hP j hjP
      rw [if_pos ((hmem j).1 hjP).1, ← this]
      exact (Option.some.inj hv).symm
    · rename_i hjP
      rw [hmem, not_and, not_not] at hjP
      have := (Option.some.inj hv).symm
      rw [this]
      split_ifs with h
      · exact (hjP h).symm
      · rfl

/-- C179: for every `max_explanatory_num`, hidden causes or not: the step from ancestors to parents changes no
coefficient. Every entry that is not NaN is the coefficient of the regression of the variable on *all* its recorded
ancestors (0 for a variable that is not recorded). -/
theorem C179_pruning_keeps_regression (hX : SourceModel n m B L X) (hac : Acyclic (Edge n B 0))
    (hσ : ∀ k, k < m → 0 < σ k) (ht : PerfectTests n m σ X t) (hcoef : PerfectCoef n m σ X coef) {maxNum : Nat}
    (hm : 1 ≤ maxNum) (h : fit t coef n maxNum fuel = some (M, B')) {i j : Nat} (hi : i < n) {c r : Nat → ℚ}
    (hreg : IsRegression m σ X (M i) (X i) c r) {v : ℚ} (hv : B' i j = some v) : v = if j ∈ M i then c j else 0 := by
  obtain ⟨hM, rfl⟩ := fit_parts h
  have hg := extract_good hm hM
  exact entry_value hX hac hσ ht hcoef (fun a b hb => (hg.range a b hb).2) hg.irrefl hi hreg hv

/-- C177: `max_explanatory_num` 1 or 2 (the default), hidden causes allowed anywhere. For a variable without hidden causes
above it exactly the ancestors and exactly the descendants are recorded, and every entry of its row is the true coefficient
or NaN. -/
theorem C177_clean_variable_default (hX : SourceModel n m B L X) (hac : Acyclic (Edge n B 0))
    (hσ : ∀ k, k < m → 0 < σ k) (hf : ∀ i j, NoHiddenAbove n m B L j → TrueAncestor n B j i → X i j ≠ 0)
    (ht : PerfectTests n m σ X t) (hcoef : PerfectCoef n m σ X coef) {maxNum : Nat} (hm : maxNum = 1 ∨ maxNum = 2)
    (h : fit t coef n maxNum fuel = some (M, B')) {i : Nat} (hi : i < n) (hc : NoHiddenAbove n m B L i) :
    (∀ j, j ∈ M i ↔ TrueAncestor n B j i) ∧ (∀ j, i ∈ M j ↔ TrueAncestor n B i j) ∧
      ∀ j, j < n → B' i j = none ∨ B' i j = some (B i j) := by
  obtain ⟨hM, rfl⟩ := fit_parts h
  have hg := extract_good (by omega) hM
  obtain ⟨hs, hcm⟩ := loop_clean hX hac hσ hf ht (maxNum := maxNum) (by omega) (by omega) (good_empty t n maxNum)
    (fun i j h => absurd h (by simp)) (fun _ _ _ _ _ _ h => absurd h (by simp)) (Or.inl rfl) hM
  have hex : ∀ j, j ∈ M i ↔ TrueAncestor n B j i := fun j =>
    ⟨fun hj => hs i j hj (Or.inl hc), fun ha => hcm i j (NoHiddenAbove.anc hc ha) ha⟩
  refine ⟨hex, fun j => ⟨fun hj => hs j i hj (Or.inr hc), fun ha => hcm j i hc ha⟩, fun j hj => ?_⟩
  cases hv : adjacency coef n (extractParents t n M) (extractConfounded t n (extractParents t n M)) i j with
  | none => exact Or.inl rfl
  | some v =>
    right
    rw [entry_value hX hac hσ ht hcoef (fun a b hb => (hg.range a b hb).2) hg.irrefl hi
      (clean_regression hX hac (fun j hj => (hex j).1 hj) hcm hi (fun a ha => NoHiddenAbove.anc hc ha)) hv]
    split_ifs with hm
    · rfl
    · by_contra hne
      exact hm ((hex j).2 (trueAncestor_of_edge hj hi fun h0 => hne (by rw [h0])))

/-- C178 (partial): `max_explanatory_num = 1`, hidden causes allowed anywhere. If no hidden cause acts on a proper ancestor
of `i`, then exactly the ancestors of `i` are recorded and every entry of its row is the true coefficient or NaN. -/
theorem C178_rows_partial (hX : SourceModel n m B L X) (hac : Acyclic (Edge n B 0)) (hσ : ∀ k, k < m → 0 < σ k)
    (hf : ∀ i j, NoHiddenAbove n m B L j → TrueAncestor n B j i → X i j ≠ 0) (ht : PerfectTests n m σ X t)
    (hcoef : PerfectCoef n m σ X coef) (h : fit t coef n 1 fuel = some (M, B')) {i : Nat} (hi : i < n)
    (hc : ∀ a, TrueAncestor n B a i → NoHiddenAbove n m B L a) :
    (∀ j, j ∈ M i ↔ TrueAncestor n B j i) ∧ ∀ j, j < n → B' i j = none ∨ B' i j = some (B i j) := by
  obtain ⟨hM, rfl⟩ := fit_parts h
  obtain ⟨hs, hcm⟩ := search_facts hX hac hσ hf ht hM
  have hex : ∀ j, j ∈ M i ↔ TrueAncestor n B j i := fun j => ⟨hs i j, fun ha => hcm i j (hc j ha) ha⟩
  refine ⟨hex, fun j hj => ?_⟩
  cases hv : adjacency coef n (extractParents t n M) (extractConfounded t n (extractParents t n M)) i j with
  | none => exact Or.inl rfl
  | some v =>
    right
    rw [entry_value hX hac hσ ht hcoef (fun a b hb => (hs a b hb).lt_left) (fun a ha => hac a (hs a a ha)) hi
      (clean_regression hX hac (hs i) hcm hi hc) hv]
    split_ifs with hm
    · rfl
    · by_contra hne
      exact hm ((hex j).2 (trueAncestor_of_edge hj hi fun h0 => hne (by rw [h0])))

/-- C178: with `max_explanatory_num = 1` a NaN is only put on a pair of variables with a common hidden cause above both. -/
theorem C178_nan_means_hidden_partial (hX : SourceModel n m B L X) (hac : Acyclic (Edge n B 0))
    (hσ : ∀ k, k < m → 0 < σ k) (hf : ∀ i j, NoHiddenAbove n m B L j → TrueAncestor n B j i → X i j ≠ 0)
    (ht : PerfectTests n m σ X t) (h : fit t coef n 1 fuel = some (M, B')) {i j : Nat} (hi : i < n) (hj : j < n)
    (hnan : B' i j = none) : ∃ k, HiddenAbove n m B L i k ∧ HiddenAbove n m B L j k := by
  obtain ⟨hM, rfl⟩ := fit_parts h
  obtain ⟨hs, hcm⟩ := search_facts hX hac hσ hf ht hM
  rw [entry_none hi, mem_extractConfounded] at hnan
  rcases hnan with ⟨h1, _, h⟩ | ⟨h1, _, h⟩
  · exact conf_hidden hX hac hσ ht hs hcm hi hj h1.ne h
  · obtain ⟨k, h2, h3⟩ := conf_hidden hX hac hσ ht hs hcm hj hi h1.ne h
    exact ⟨k, h3, h2⟩

/-- C178 (partial): a variable without hidden causes above it gets its true coefficients, and no NaN in its row or its
column. -/
theorem C178_clean_no_nan_partial (hX : SourceModel n m B L X) (hac : Acyclic (Edge n B 0))
    (hσ : ∀ k, k < m → 0 < σ k) (hf : ∀ i j, NoHiddenAbove n m B L j → TrueAncestor n B j i → X i j ≠ 0)
    (ht : PerfectTests n m σ X t) (hcoef : PerfectCoef n m σ X coef) (h : fit t coef n 1 fuel = some (M, B')) {i j : Nat}
    (hi : i < n) (hj : j < n) (hc : NoHiddenAbove n m B L i) : B' i j = some (B i j) ∧ B' j i ≠ none := by
  have hrow := (C178_rows_partial hX hac hσ hf ht hcoef h hi (fun a ha => NoHiddenAbove.anc hc ha)).2 j hj
  constructor
  · rcases hrow with hn | hv
    · obtain ⟨k, hk, _⟩ := C178_nan_means_hidden_partial hX hac hσ hf ht h hi hj hn
      exact absurd hk (hc k)
    · exact hv
  · intro hn
    obtain ⟨k, _, hk⟩ := C178_nan_means_hidden_partial hX hac hσ hf ht h hj hi hn
    exact hc k hk

/-- C178 (partial): two variables whose proper ancestors have no hidden causes: the pair is NaN exactly when the direct
hidden causes of the two are correlated. -/
theorem C178_nan_iff_partial (hX : SourceModel n m B L X) (hac : Acyclic (Edge n B 0)) (hσ : ∀ k, k < m → 0 < σ k)
    (hf : ∀ i j, NoHiddenAbove n m B L j → TrueAncestor n B j i → X i j ≠ 0) (ht : PerfectTests n m σ X t)
    (h : fit t coef n 1 fuel = some (M, B')) {i j : Nat} (hi : i < n) (hj : j < n) (hij : i ≠ j)
    (hci : ∀ a, TrueAncestor n B a i → NoHiddenAbove n m B L a)
    (hcj : ∀ a, TrueAncestor n B a j → NoHiddenAbove n m B L a) :
    B' i j = none ↔ ∑ k ∈ Ico n m, σ k * (L i k * L j k) ≠ 0 := by
  obtain ⟨hM, rfl⟩ := fit_parts h
  obtain ⟨hs, hcm⟩ := search_facts hX hac hσ hf ht hM
  have hMn : ∀ a, ∀ h ∈ M a, h < n := fun a b hb => (hs a b hb).lt_left
  have hirr : ∀ a, a ∉ M a := fun a ha => hac a (hs a a ha)
  have hPn : ∀ a, extractParents t n M a ⊆ range n := fun a b hb => mem_range.2 (parents_sub hs hb).lt_left
  -- the covariance of the two residuals
  have hcov : ∀ a b, a ≠ b → popCov m σ (fun k => if k < n then (if k = a then (1 : ℚ) else 0) else L a k)
      (fun k => if k < n then (if k = b then (1 : ℚ) else 0) else L b k) = ∑ k ∈ Ico n m, σ k * (L a k * L b k) := by
    intro a b hab
    unfold popCov
    rw [← sum_range_add_sum_Ico _ hX.1, sum_eq_zero, zero_add]
    · refine sum_congr rfl fun k hk => ?_
      beta_reduce
      rw [if_neg (not_lt.2 (mem_Ico.1 hk).1), if_neg (not_lt.2 (mem_Ico.1 hk).1)]
    · intro k hk
      beta_reduce
      rw [if_pos (mem_range.1 hk), if_pos (mem_range.1 hk)]
      split_ifs with h1 h2
      · exact absurd (h1.symm.trans h2) hab
      all_goals simp
  have htest : ∀ a b, a < n → b < n → a ≠ b → (∀ q, TrueAncestor n B q a → NoHiddenAbove n m B L q) →
      (∀ q, TrueAncestor n B q b → NoHiddenAbove n m B L q) →
      (t.corr (extractParents t n M a) a (extractParents t n M b) b = true ↔
        ∑ k ∈ Ico n m, σ k * (L a k * L b k) ≠ 0) := by
    intro a b ha hb hab hca hcb
    have ra := parents_residual hX hac hσ ht hMn hirr ha (clean_regression (σ := σ) hX hac (hs a) hcm ha hca)
    have rb := parents_residual hX hac hσ ht hMn hirr hb (clean_regression (σ := σ) hX hac (hs b) hcm hb hcb)
    rw [ht.corr _ _ _ _ (hPn a) (hPn b) ha hb]
    constructor
    · rintro ⟨r, s, hr, hs', hne⟩
      rwa [popCov_congr (hr.unique hσ ⟨_, ra⟩) (hs'.unique hσ ⟨_, rb⟩), hcov a b hab] at hne
    · intro hne
      exact ⟨_, _, ⟨_, ra⟩, ⟨_, rb⟩, by rwa [hcov a b hab]⟩
  -- a correlated pair has no edge
  have hno : ∀ a b, a < n → b < n → (∀ q, TrueAncestor n B q b → NoHiddenAbove n m B L q) →
      ∑ k ∈ Ico n m, σ k * (L a k * L b k) ≠ 0 → a ∉ extractParents t n M b := by
    intro a b ha hb hcb hne hP
    obtain ⟨k, hk, hk0⟩ := exists_ne_zero_of_sum_ne_zero hne
    refine hcb a (parents_sub hs hP) k ⟨(mem_Ico.1 hk).1, (mem_Ico.1 hk).2, a, ha, ?_, Or.inl rfl⟩
    intro h0
    rw [h0] at hk0
    simp at hk0
  have hsymm : ∑ k ∈ Ico n m, σ k * (L j k * L i k) = ∑ k ∈ Ico n m, σ k * (L i k * L j k) :=
    sum_congr rfl fun k _ => by ring
  rw [entry_none hi, mem_extractConfounded]
  constructor
  · rintro (⟨_, _, _, _, h⟩ | ⟨_, _, _, _, h⟩)
    · exact (htest i j hi hj hij hci hcj).1 h
    · rw [← hsymm]
      exact (htest j i hj hi hij.symm hcj hci).1 h
  · intro hne
    have hne' := hne
    rw [← hsymm] at hne'
    rcases lt_or_gt_of_ne hij with hlt | hlt
    · exact Or.inl ⟨hlt, hj, hno i j hi hj hcj hne, hno j i hj hi hci hne', (htest i j hi hj hij hci hcj).2 hne⟩
    · exact Or.inr ⟨hlt, hi, hno j i hj hi hci hne', hno i j hi hj hcj hne, (htest j i hj hi hij.symm hcj hci).2 hne'⟩

end

/-! ### Concrete models -/

/-- `0 → 1`, `0 → 2` and a hidden cause (source 3) of 1 and 2. -/
def forkB : Nat → Nat → ℚ := weights [(1, 0, 1), (2, 0, 2)]
def forkL : Nat → Nat → ℚ := weights [(1, 3, 1), (2, 3, 1)]
def forkX : Nat → Nat → ℚ := rows [[1, 0, 0, 0], [1, 1, 0, 1], [2, 0, 1, 1]]

theorem fork_model : SourceModel 3 4 forkB forkL forkX := by
  refine ⟨by omega, ?_⟩
  decide +kernel

theorem fork_acyclic : Acyclic (Edge 3 forkB 0) := acyclic_of_lt (by decide +kernel)

theorem fork_anc {a b : Nat} (h : TrueAncestor 3 forkB a b) : a = 0 := by
  have key : ∀ x, x < 3 → ∀ y, y < 3 → forkB y x ≠ 0 → x = 0 := by decide +kernel
  induction h with
  | single h => exact key _ h.1 _ h.2.1 (abs_pos.1 h.2.2)
  | tail _ _ ih => exact ih

theorem fork_clean : NoHiddenAbove 3 4 forkB forkL 0 := by
  rintro k ⟨h1, h2, a, ha, hL, rfl | h⟩
  · have : ∀ k, k < 4 → forkL 0 k = 0 := by decide +kernel
    exact hL (this k h2)
  · have key : ∀ y, y < 3 → ∀ x, x < 3 → forkB y x ≠ 0 → y ≠ 0 := by decide +kernel
    cases h with
    | single h => exact key _ h.2.1 _ h.1 (abs_pos.1 h.2.2) rfl
    | tail _ h => exact key _ h.2.1 _ h.1 (abs_pos.1 h.2.2) rfl

/-- C177, C178: all hypotheses hold in this model; the result is `x1 = 1·x0`, `x2 = 2·x0` and NaN between 1 and 2. -/
example : ∃ (t : Tests) (coef : Coef) (M : Anc) (B' : Nat → Nat → Option ℚ), PerfectTests 3 4 (fun _ => 1) forkX t ∧
    PerfectCoef 3 4 (fun _ => 1) forkX coef ∧ fit t coef 3 1 30 = some (M, B') ∧
    (∀ i j, NoHiddenAbove 3 4 forkB forkL j → TrueAncestor 3 forkB j i → forkX i j ≠ 0) ∧
    B' 1 0 = some 1 ∧ B' 2 0 = some 2 ∧ B' 1 2 = none ∧ B' 0 1 = some 0 := by
  obtain ⟨coef, hcoef⟩ := perfectCoef_exists (m := 4) (σ := fun _ => 1) (fun _ _ => one_pos) 3 forkX
  have ht := popTests_perfect (m := 4) (σ := fun _ => 1) (fun _ _ => one_pos) 3 forkX
  obtain ⟨M, hM, _⟩ := C25_ancestors_terminate (popTests 3 4 (fun _ => 1) forkX) 3 (maxNum := 1) (by omega)
  have hfit : ∃ B', fit (popTests 3 4 (fun _ => 1) forkX) coef 3 1 30 = some (M, B') := by
    unfold fit
    rw [hM 30 (by omega)]
    exact ⟨_, rfl⟩
  obtain ⟨B', hfit⟩ := hfit
  have hf : ∀ i j, NoHiddenAbove 3 4 forkB forkL j → TrueAncestor 3 forkB j i → forkX i j ≠ 0 := by
    intro i j _ h
    rw [fork_anc h]
    exact (by decide +kernel : ∀ i, i < 3 → forkX i 0 ≠ 0) i h.lt_right
  have hc : ∀ i a, TrueAncestor 3 forkB a i → NoHiddenAbove 3 4 forkB forkL a := by
    intro i a h
    rw [fork_anc h]; exact fork_clean
  have hσ : ∀ k, k < 4 → 0 < (fun _ : Nat => (1 : ℚ)) k := fun _ _ => one_pos
  have hn : ∀ {i j : Nat}, i < 3 → j < 3 → i ≠ j → (B' i j = none ↔ _) := fun {i j} hi hj hij =>
    C178_nan_iff_partial fork_model fork_acyclic hσ hf ht hfit hi hj hij (hc i) (hc j)
  have hr : ∀ i, i < 3 → ∀ j, j < 3 → B' i j = none ∨ B' i j = some (forkB i j) := fun i hi =>
    (C178_rows_partial fork_model fork_acyclic hσ hf ht hcoef hfit hi (hc i)).2
  refine ⟨_, coef, M, B', ht, hcoef, hfit, hf, ?_, ?_, ?_, ?_⟩
  · rcases hr 1 (by omega) 0 (by omega) with h | h
    · exact absurd ((hn (by omega) (by omega) (by omega)).1 h) (by decide +kernel)
    · rw [h]; decide +kernel
  · rcases hr 2 (by omega) 0 (by omega) with h | h
    · exact absurd ((hn (by omega) (by omega) (by omega)).1 h) (by decide +kernel)
    · rw [h]; decide +kernel
  · exact (hn (by omega) (by omega) (by omega)).2 (by decide +kernel)
  · rw [(C178_clean_no_nan_partial fork_model fork_acyclic hσ hf ht hcoef hfit (i := 0) (j := 1) (by omega) (by omega)
      fork_clean).1]
    decide +kernel

/-- C177: the same model with the default: variable 0 has no hidden cause above it, 1 and 2 have. -/
example : ∃ (t : Tests) (coef : Coef) (M : Anc) (B' : Nat → Nat → Option ℚ), PerfectTests 3 4 (fun _ => 1) forkX t ∧
    PerfectCoef 3 4 (fun _ => 1) forkX coef ∧ fit t coef 3 2 30 = some (M, B') ∧ NoHiddenAbove 3 4 forkB forkL 0 ∧
    HiddenAbove 3 4 forkB forkL 1 3 ∧ 0 ∈ M 1 ∧ 0 ∈ M 2 ∧ M 0 = ∅ := by
  obtain ⟨coef, hcoef⟩ := perfectCoef_exists (m := 4) (σ := fun _ => 1) (fun _ _ => one_pos) 3 forkX
  have ht := popTests_perfect (m := 4) (σ := fun _ => 1) (fun _ _ => one_pos) 3 forkX
  obtain ⟨M, hM, _⟩ := C25_ancestors_terminate (popTests 3 4 (fun _ => 1) forkX) 3 (maxNum := 2) (by omega)
  have hfit : ∃ B', fit (popTests 3 4 (fun _ => 1) forkX) coef 3 2 30 = some (M, B') := by
    unfold fit
    rw [hM 30 (by omega)]
    exact ⟨_, rfl⟩
  obtain ⟨B', hfit⟩ := hfit
  have hf : ∀ i j, NoHiddenAbove 3 4 forkB forkL j → TrueAncestor 3 forkB j i → forkX i j ≠ 0 := by
    intro i j _ h
    rw [fork_anc h]
    exact (by decide +kernel : ∀ i, i < 3 → forkX i 0 ≠ 0) i h.lt_right
  obtain ⟨h1, h2, _⟩ := C177_clean_variable_default fork_model fork_acyclic (fun _ _ => one_pos) hf ht hcoef (Or.inr rfl)
    hfit (i := 0) (by omega) fork_clean
  refine ⟨_, coef, M, B', ht, hcoef, hfit, fork_clean, ⟨by omega, by omega, 1, by omega, by decide +kernel, Or.inl rfl⟩,
    (h2 1).2 (trueAncestor_of_edge (by omega) (by omega) (by decide +kernel)),
    (h2 2).2 (trueAncestor_of_edge (by omega) (by omega) (by decide +kernel)), ?_⟩
  rw [Finset.eq_empty_iff_forall_notMem]
  intro j hj
  have ha := (h1 j).1 hj
  rw [fork_anc ha] at ha
  exact fork_acyclic 0 ha

/-- `1 → 0`, `3 → 0`, `1 → 2` and a hidden cause (source 4) of all four. -/
def bowB : Nat → Nat → ℚ := weights [(0, 1, -1), (0, 3, 1), (2, 1, 2)]
def bowL : Nat → Nat → ℚ := weights [(0, 4, 1), (1, 4, 1), (2, 4, -1), (3, 4, -1)]
def bowX : Nat → Nat → ℚ := rows [[1, -1, 0, 1, -1], [0, 1, 0, 0, 1], [0, 2, 1, 0, 1], [0, 0, 0, 1, -1]]

theorem bow_model : SourceModel 4 5 bowB bowL bowX := by
  refine ⟨by omega, ?_⟩
  decide +kernel

theorem bow_anc {a b : Nat} (h : TrueAncestor 4 bowB a b) : (a = 1 ∨ a = 3) ∧ b ≠ 1 ∧ b ≠ 3 := by
  have key : ∀ x y : Fin 4, bowB y x ≠ 0 → (x.1 = 1 ∨ x.1 = 3) ∧ y.1 ≠ 1 ∧ y.1 ≠ 3 := by decide +kernel
  induction h with
  | single h => exact key ⟨_, h.1⟩ ⟨_, h.2.1⟩ (abs_pos.1 h.2.2)
  | tail _ h ih => exact ⟨ih.1, (key ⟨_, h.1⟩ ⟨_, h.2.1⟩ (abs_pos.1 h.2.2)).2⟩

theorem bow_acyclic : Acyclic (Edge 4 bowB 0) := by
  intro i hi
  rcases (bow_anc hi).1 with rfl | rfl
  · exact (bow_anc hi).2.1 rfl
  · exact (bow_anc hi).2.2 rfl

/-- C100 (violated for the default): with correct tests, correct regressions, `max_explanatory_num = 2` and no total effect
that cancels, the result contains a directed edge `2 → 0` although 2 has no effect on 0. -/
theorem C100_default_false_edge : ∃ (B L X : Nat → Nat → ℚ) (σ : Nat → ℚ) (t : Tests) (coef : Coef) (M : Anc)
    (B' : Nat → Nat → Option ℚ) (v : ℚ), SourceModel 4 5 B L X ∧ Acyclic (Edge 4 B 0) ∧ (∀ k, k < 5 → 0 < σ k) ∧
      (∀ i j, TrueAncestor 4 B j i → X i j ≠ 0) ∧ PerfectTests 4 5 σ X t ∧ PerfectCoef 4 5 σ X coef ∧
      fit t coef 4 2 40 = some (M, B') ∧ B' 0 2 = some v ∧ v ≠ 0 ∧ ¬ TrueAncestor 4 B 2 0 := by
  obtain ⟨coef, hcoef⟩ := perfectCoef_exists (m := 5) (σ := fun _ => 1) (fun _ _ => one_pos) 4 bowX
  have ht := popTests_perfect (m := 5) (σ := fun _ => 1) (fun _ _ => one_pos) 4 bowX
  have hσ : ∀ k, k < 5 → 0 < (fun _ : Nat => (1 : ℚ)) k := fun _ _ => one_pos
  have key : (fit (popTests 4 5 (fun _ => 1) bowX) (fun _ _ _ => (1 : ℚ)) 4 2 40).map (fun r => (r.1 0, r.2 0 2)) =
      some ({1, 2, 3}, some 1) := by decide +kernel
  obtain ⟨M, hM, _⟩ := C25_ancestors_terminate (popTests 4 5 (fun _ => 1) bowX) 4 (maxNum := 2) (by omega)
  have hM := hM 40 (by omega)
  have hfit : ∀ coef : Coef, fit (popTests 4 5 (fun _ => 1) bowX) coef 4 2 40 =
      some (M, adjacency coef 4 (extractParents (popTests 4 5 (fun _ => 1) bowX) 4 M)
        (extractConfounded (popTests 4 5 (fun _ => 1) bowX) 4 (extractParents (popTests 4 5 (fun _ => 1) bowX) 4 M))) := by
    intro coef
    unfold fit
    rw [hM]
  have key2 := key
  rw [hfit, Option.map_some, Option.some.injEq, Prod.mk.injEq] at key2
  dsimp only at key2
  cases hv : adjacency coef 4 (extractParents (popTests 4 5 (fun _ => 1) bowX) 4 M)
      (extractConfounded (popTests 4 5 (fun _ => 1) bowX) 4 (extractParents (popTests 4 5 (fun _ => 1) bowX) 4 M)) 0 2 with
  | none =>
    have := ((C26_same_pattern (hfit coef) (hfit fun _ _ _ => 1)).2 0 2).1 hv
    rw [key2.2] at this
    cases this
  | some v =>
    refine ⟨bowB, bowL, bowX, fun _ => 1, _, coef, M, _, v, bow_model, bow_acyclic, hσ, ?_, ht, hcoef, hfit coef, hv, ?_,
      fun h => by rcases (bow_anc h).1 with h | h <;> omega⟩
    · intro i j h
      have h1 := bow_anc h
      have hi := h.lt_right
      have hij : ¬ (i = 2 ∧ j = 3) := by
        rintro ⟨rfl, rfl⟩
        have h2 : ∀ b, Relation.TransGen (Edge 4 bowB 0) 3 b → b = 0 := by
          intro b hb
          have k1 : ∀ y, y < 4 → bowB y 3 ≠ 0 → y = 0 := by decide +kernel
          have k2 : ∀ y, y < 4 → bowB y 0 = 0 := by decide +kernel
          induction hb with
          | single h => exact k1 _ h.2.1 (abs_pos.1 h.2.2)
          | tail _ h ih =>
            subst ih
            exact absurd (k2 _ h.2.1) (abs_pos.1 h.2.2)
        exact absurd (h2 2 h) (by omega)
      have k : ∀ i j : Fin 4, (j.1 = 1 ∨ j.1 = 3) → i.1 ≠ 1 → i.1 ≠ 3 → ¬ (i.1 = 2 ∧ j.1 = 3) → bowX i j ≠ 0 := by
        decide +kernel
      exact k ⟨i, hi⟩ ⟨j, h.lt_left⟩ h1.1 h1.2.1 h1.2.2 hij
    · have hreg : IsRegression 5 (fun _ => 1) bowX (M 0) (bowX 0)
          (fun h => if h = 1 then -1/4 else if h = 2 then -1/4 else 3/4)
          (fun k => bowX 0 k - ∑ h ∈ ({1, 2, 3} : Finset Nat),
            (if h = 1 then -1/4 else if h = 2 then -1/4 else 3/4) * bowX h k) := by
        rw [key2.1]
        exact ⟨fun _ _ => rfl, by decide +kernel⟩
      have := C179_pruning_keeps_regression bow_model bow_acyclic hσ ht hcoef (by omega) (hfit coef) (by omega) hreg hv
      rw [this, key2.1]
      decide +kernel

/-- `4 → 0`, `2 → 1`, `3 → 1` and a hidden cause (source 5) of 0, 1, 2 and 3. -/
def sideB : Nat → Nat → ℚ := weights [(0, 4, 1), (1, 2, -1), (1, 3, 1)]
def sideL : Nat → Nat → ℚ := weights [(0, 5, 2), (1, 5, 1), (2, 5, 1), (3, 5, -1)]
def sideX : Nat → Nat → ℚ :=
  rows [[1, 0, 0, 0, 1, 2], [0, 1, -1, 1, 0, -1], [0, 0, 1, 0, 0, 1], [0, 0, 0, 1, 0, -1], [0, 0, 0, 0, 1, 0]]

theorem side_model : SourceModel 5 6 sideB sideL sideX := by
  refine ⟨by omega, ?_⟩
  decide +kernel

theorem side_anc {a b : Nat} (h : TrueAncestor 5 sideB a b) : (a = 4 ∧ b = 0) ∨ (a = 2 ∧ b = 1) ∨ (a = 3 ∧ b = 1) := by
  have key : ∀ x y : Fin 5, sideB y x ≠ 0 →
      (x.1 = 4 ∧ y.1 = 0) ∨ (x.1 = 2 ∧ y.1 = 1) ∨ (x.1 = 3 ∧ y.1 = 1) := by decide +kernel
  induction h with
  | single h => exact key ⟨_, h.1⟩ ⟨_, h.2.1⟩ (abs_pos.1 h.2.2)
  | tail _ h ih =>
    have := key ⟨_, h.1⟩ ⟨_, h.2.1⟩ (abs_pos.1 h.2.2)
    simp only at this
    omega

theorem side_acyclic : Acyclic (Edge 5 sideB 0) := by
  intro i hi
  have := side_anc hi
  omega

theorem side_clean : NoHiddenAbove 5 6 sideB sideL 4 := by
  rintro k ⟨h1, h2, a, ha, hL, rfl | h⟩
  · have : ∀ k, k < 6 → sideL 4 k = 0 := by decide +kernel
    exact hL (this k h2)
  · have := side_anc h
    omega

/-- C178 (violated for the default): with correct tests, `max_explanatory_num = 2` and no total effect that cancels,
the pair 1, 4 is marked NaN although no hidden cause acts on 4 or on anything that influences 4. -/
theorem C178_default_false_nan : ∃ (B L X : Nat → Nat → ℚ) (σ : Nat → ℚ) (t : Tests), SourceModel 5 6 B L X ∧
    Acyclic (Edge 5 B 0) ∧ (∀ k, k < 6 → 0 < σ k) ∧ (∀ i j, TrueAncestor 5 B j i → X i j ≠ 0) ∧ PerfectTests 5 6 σ X t ∧
      NoHiddenAbove 5 6 B L 4 ∧ ∀ coef : Coef, ∃ M B', fit t coef 5 2 60 = some (M, B') ∧ B' 1 4 = none ∧ B' 4 1 = none := by
  refine ⟨sideB, sideL, sideX, fun _ => 1, popTests 5 6 (fun _ => 1) sideX, side_model, side_acyclic, fun _ _ => one_pos,
    ?_, popTests_perfect (fun _ _ => one_pos) 5 sideX, side_clean, fun coef => ?_⟩
  · intro i j h
    rcases side_anc h with ⟨rfl, rfl⟩ | ⟨rfl, rfl⟩ | ⟨rfl, rfl⟩ <;> decide +kernel
  · have key : (fit (popTests 5 6 (fun _ => 1) sideX) (fun _ _ _ => (1 : ℚ)) 5 2 60).map (fun r => (r.2 1 4, r.2 4 1)) =
        some (none, none) := by decide +kernel
    obtain ⟨M, hM, _⟩ := C25_ancestors_terminate (popTests 5 6 (fun _ => 1) sideX) 5 (maxNum := 2) (by omega)
    have hM := hM 60 (by omega)
    have hfit : ∀ coef : Coef, fit (popTests 5 6 (fun _ => 1) sideX) coef 5 2 60 =
        some (M, adjacency coef 5 (extractParents (popTests 5 6 (fun _ => 1) sideX) 5 M)
          (extractConfounded (popTests 5 6 (fun _ => 1) sideX) 5
            (extractParents (popTests 5 6 (fun _ => 1) sideX) 5 M))) := by
      intro coef
      unfold fit
      rw [hM]
    rw [hfit, Option.map_some, Option.some.injEq, Prod.mk.injEq] at key
    dsimp only at key
    refine ⟨M, _, hfit coef, ?_, ?_⟩
    · exact ((C26_same_pattern (hfit coef) (hfit fun _ _ _ => 1)).2 1 4).2 key.1
    · exact ((C26_same_pattern (hfit coef) (hfit fun _ _ _ => 1)).2 4 1).2 key.2

end Verif.Rcd
