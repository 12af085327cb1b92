import Verif.Model.RcdEffects
import Verif.Props.RcdHidden
import Verif.Props.Paths
import Verif.Spec.ParceTests

/-!
# Total effects and consistency of RCD with hidden causes and perfect tests (C180, C181)
-/
set_option linter.unusedSectionVars false
set_option autoImplicit false
namespace Verif.Rcd
open Finset

section
variable {n m : Nat} {B L X : Nat → Nat → ℚ} {σ : Nat → ℚ} {t : Tests} {coef : Coef} {fuel : Nat} {M : Anc}
  {B' : Nat → Nat → Option ℚ}

theorem rowNan_iff {src : Nat} : rowNan n B' src = true ↔ ∃ k, k < n ∧ B' src k = none := by
  unfold rowNan
  simp [List.any_eq_true, Option.isNone_iff_eq_none]

/-- The equation of a variable without hidden causes above it has no hidden part. -/
theorem clean_direct {i : Nat} (hi : i < n) (hc : NoHiddenAbove n m B L i) {k : Nat} (h1 : n ≤ k) (h2 : k < m) :
    L i k = 0 := by
  by_contra h
  exact hc k ⟨h1, h2, i, hi, h, Or.inl rfl⟩

/-- Regressing on a variable without hidden causes above it and its parents gives the total effect. -/
theorem clean_effect (hX : SourceModel n m B L X) (hac : Acyclic (Edge n B 0)) (hσ : ∀ k, k < m → 0 < σ k) {i : Nat}
    (hin : i < n) (hc : NoHiddenAbove n m B L i) {P : Finset Nat} (hiP : i ∈ P)
    (hP : ∀ h, h ∈ P ↔ h = i ∨ (h < n ∧ B i h ≠ 0)) {d : Nat} {c r : Nat → ℚ}
    (hr : IsRegression m σ X P (X d) c r) : c i = X d i := by
  have him : i < m := hin.trans_le hX.1
  have hPn : ∀ h ∈ P, h < n := by
    intro h hh
    rcases (hP h).1 hh with rfl | h'
    · exact hin
    · exact h'.1
  -- the own error is a combination of the regressors
  have hown : ∀ k, k < m → (if k = i then (1 : ℚ) else 0) = ∑ h ∈ P, (if h = i then 1 else - B i h) * X h k := by
    intro k hk
    have hsub : ∑ h ∈ range n, B i h * X h k = ∑ h ∈ P.erase i, B i h * X h k := by
      symm
      refine sum_subset (fun h hh => mem_range.2 (hPn h (mem_erase.1 hh).2)) fun h hh hnot => ?_
      by_contra hne
      have hB : B i h ≠ 0 := fun h0 => hne (by rw [h0, zero_mul])
      refine hnot (mem_erase.2 ⟨?_, (hP h).2 (Or.inr ⟨mem_range.1 hh, hB⟩)⟩)
      exact (trueAncestor_of_edge (mem_range.1 hh) hin hB).ne hac
    have := hX.2 i hin k hk
    rw [hsub] at this
    rw [← add_sum_erase P _ hiP, if_pos rfl, one_mul, this]
    have e2 : ∑ h ∈ P.erase i, (if h = i then 1 else - B i h) * X h k = - ∑ h ∈ P.erase i, B i h * X h k := by
      rw [← sum_neg_distrib]
      exact sum_congr rfl fun h hh => by rw [if_neg (mem_erase.1 hh).1]; ring
    rw [e2]
    rcases lt_or_ge k n with hkn | hkn
    · rw [if_pos hkn]; ring
    · rw [if_neg (not_lt.2 hkn), clean_direct hin hc hkn hk, if_neg (by omega)]; ring
  have h0 : popCov m σ r (fun k => if k = i then (1 : ℚ) else 0) = 0 := by
    rw [popCov_comm, popCov_congr hown (fun _ _ => rfl), popCov_sum_left]
    refine sum_eq_zero fun h hh => ?_
    rw [popCov_comm, hr.2 h hh, mul_zero]
  rw [popCov_comm, popCov_single him] at h0
  have hri : r i = 0 := by
    rcases mul_eq_zero.1 h0 with h | h
    · exact absurd h (hσ i him).ne'
    · exact h
  have hs : ∑ h ∈ P, c h * X h i = c i := by
    rw [sum_eq_single i]
    · rw [source_self hX hac hin, mul_one]
    · intro h hh hhi
      have : X h i = 0 := by
        by_contra hne
        rcases (hP h).1 hh with h' | ⟨hn, hB⟩
        · exact hhi h'
        · have hE := trueAncestor_of_edge hn hin hB
          rcases source_ancestor hX hac hn hin hne with h' | h'
          · exact hhi h'.symm
          · exact h'.asymm hac hE
      rw [this, mul_zero]
    · exact fun h => absurd hiP h
  have := hr.1 i him
  rw [hs, hri] at this
  linarith

/-- C180: `max_explanatory_num` 1 or 2 (the default), hidden causes allowed anywhere. For a source without hidden causes
above it, `estimate_total_effect` returns the true total effect on any variable, or NaN. -/
theorem C180_regression (hX : SourceModel n m B L X) (hac : Acyclic (Edge n B 0)) (hσ : ∀ k, k < m → 0 < σ k)
    (hf : ∀ i j, NoHiddenAbove n m B L j → TrueAncestor n B j i → X i j ≠ 0) (ht : PerfectTests n m σ X t)
    (hcoef : PerfectCoef n m σ X coef) {lr : List Nat → Nat → Nat → ℚ} (hlr : Parce.RightCoef n m σ X lr) {maxNum : Nat}
    (hm : maxNum = 1 ∨ maxNum = 2) (h : fit t coef n maxNum fuel = some (M, B')) {src dst : Nat} (hs : src < n)
    (hd : dst < n) (hc : NoHiddenAbove n m B L src) :
    totalEffect lr n B' src dst = some (X dst src) ∨ (∃ j, j < n ∧ B' src j = none) ∧ totalEffect lr n B' src dst = none := by
  unfold totalEffect
  by_cases hn : rowNan n B' src = true
  · right
    exact ⟨rowNan_iff.1 hn, if_pos hn⟩
  left
  rw [if_neg hn]
  congr 1
  have hrow : ∀ j, j < n → B' src j = some (B src j) := by
    intro j hj
    rcases (C177_clean_variable_default hX hac hσ hf ht hcoef hm h hs hc).2.2 j hj with h' | h'
    · exact absurd (rowNan_iff.2 ⟨j, hj, h'⟩) hn
    · exact h'
  have hmem : ∀ u, u ∈ effectPredictors n B' src ↔ u = src ∨ (u < n ∧ B src u ≠ 0) := by
    intro u
    unfold effectPredictors
    rw [List.mem_cons, List.mem_filter, List.mem_range, decide_eq_true_eq]
    constructor
    · rintro (h | ⟨h1, h2⟩)
      · exact Or.inl h
      · rw [hrow u h1] at h2
        exact Or.inr ⟨h1, abs_pos.1 h2⟩
    · rintro (h | ⟨h1, h2⟩)
      · exact Or.inl h
      · exact Or.inr ⟨h1, by rw [hrow u h1]; exact abs_pos.2 h2⟩
  have hnd : (effectPredictors n B' src).Nodup := by
    unfold effectPredictors
    rw [List.nodup_cons]
    refine ⟨?_, List.nodup_range.filter _⟩
    rw [List.mem_filter, decide_eq_true_eq, hrow src hs]
    rintro ⟨_, h2⟩
    exact (trueAncestor_of_edge hs hs (abs_pos.1 h2)).ne hac rfl
  obtain ⟨r, hreg⟩ := hlr (effectPredictors n B' src) dst hnd
    (fun u hu => by rcases (hmem u).1 hu with rfl | h; exacts [hs, h.1]) hd
  exact clean_effect hX hac hσ hs hc (List.mem_toFinset.2 ((hmem src).2 (Or.inl rfl)))
    (fun u => by rw [List.mem_toFinset]; exact hmem u) hreg

/-- C180: with `max_explanatory_num = 1` the value is the true total effect, never NaN. -/
theorem C180_regression_one (hX : SourceModel n m B L X) (hac : Acyclic (Edge n B 0)) (hσ : ∀ k, k < m → 0 < σ k)
    (hf : ∀ i j, NoHiddenAbove n m B L j → TrueAncestor n B j i → X i j ≠ 0) (ht : PerfectTests n m σ X t)
    (hcoef : PerfectCoef n m σ X coef) {lr : List Nat → Nat → Nat → ℚ} (hlr : Parce.RightCoef n m σ X lr)
    (h : fit t coef n 1 fuel = some (M, B')) {src dst : Nat} (hs : src < n) (hd : dst < n)
    (hc : NoHiddenAbove n m B L src) : totalEffect lr n B' src dst = some (X dst src) := by
  rcases C180_regression hX hac hσ hf ht hcoef hlr (Or.inl rfl) h hs hd hc with h' | ⟨⟨j, hj, hn⟩, _⟩
  · exact h'
  · rw [(C178_clean_no_nan_partial hX hac hσ hf ht hcoef h hs hj hc).1] at hn
    cases hn

/-- Entries of the result with NaN read as 0: the regression on all recorded ancestors. -/
theorem clean_entry (hX : SourceModel n m B L X) (hac : Acyclic (Edge n B 0)) (hσ : ∀ k, k < m → 0 < σ k)
    (ht : PerfectTests n m σ X t) (hcoef : PerfectCoef n m σ X coef) {maxNum : Nat} (hm : 1 ≤ maxNum)
    (h : fit t coef n maxNum fuel = some (M, B')) {i j : Nat} (hi : i < n) {c r : Nat → ℚ}
    (hreg : IsRegression m σ X (M i) (X i) c r) : Paths.clean B' i j = if j ∈ M i then c j else 0 := by
  unfold Paths.clean Paths.nan0
  cases hv : B' i j with
  | some v => exact C179_pruning_keeps_regression hX hac hσ ht hcoef hm h hi hreg hv
  | none =>
    obtain ⟨hM, rfl⟩ := fit_parts h
    have hg := extract_good hm hM
    have hMn : ∀ a, ∀ b ∈ M a, b < n := fun a b hb => (hg.range a b hb).2
    rw [entry_none hi, mem_extractConfounded] at hv
    have hjP : j ∉ extractParents t n M i := by
      rcases hv with ⟨_, _, h1, h2, _⟩ | ⟨_, _, h1, h2, _⟩ <;> assumption
    split_ifs with hjM
    · by_contra hne
      refine hjP ?_
      unfold extractParents
      rw [if_pos hi, mem_filter]
      exact ⟨hjM, (isParent_coef hX hac hσ ht hMn hg.irrefl hi hjM hreg).2 fun h0 => hne h0.symm⟩
    · rfl

/-- The column of total effects of a source without hidden causes satisfies the equations of the estimated matrix. -/
theorem column_equation (hX : SourceModel n m B L X) (hac : Acyclic (Edge n B 0)) (hσ : ∀ k, k < m → 0 < σ k)
    (hf : ∀ i j, NoHiddenAbove n m B L j → TrueAncestor n B j i → X i j ≠ 0) (ht : PerfectTests n m σ X t)
    (hcoef : PerfectCoef n m σ X coef) {maxNum : Nat} (hm : maxNum = 1 ∨ maxNum = 2)
    (h : fit t coef n maxNum fuel = some (M, B')) {src d : Nat} (hs : src < n) (hd : d < n)
    (hc : NoHiddenAbove n m B L src) (hnan : ∀ j, j < n → B' src j ≠ none) :
    X d src - ∑ j ∈ range n, Paths.clean B' d j * X j src = if d = src then 1 else 0 := by
  have hsm : src < m := hs.trans_le hX.1
  have hM := (fit_parts h).1
  have hg := extract_good (by omega) hM
  obtain ⟨hws, hcm⟩ := loop_clean hX hac hσ hf ht (maxNum := maxNum) (by omega) (by omega) (good_empty t n maxNum)
    (fun i j h => absurd h (by simp)) (fun _ _ _ _ _ _ h => absurd h (by simp)) (Or.inl rfl) hM
  have hMn : ∀ a, M a ⊆ range n := fun a b hb => mem_range.2 (hg.range a b hb).2
  have hMn' : ∀ a, ∀ b ∈ M a, b < n := fun a b hb => (hg.range a b hb).2
  obtain ⟨hMs, hMd, _⟩ := C177_clean_variable_default hX hac hσ hf ht hcoef hm h hs hc
  obtain ⟨r, hreg⟩ := hcoef ((List.range n).filter (fun k => decide (k ∈ M d))) d List.filter_sublist hd
  have htf : ((List.range n).filter (fun k => decide (k ∈ M d))).toFinset = M d := listOf_toFinset (hMn d)
  generalize coef ((List.range n).filter (fun k => decide (k ∈ M d))) d = c at hreg
  rw [htf] at hreg
  have hsum : ∑ j ∈ range n, Paths.clean B' d j * X j src = ∑ j ∈ M d, c j * X j src := by
    have : ∀ j ∈ range n, Paths.clean B' d j * X j src = if j ∈ M d then c j * X j src else 0 := by
      intro j _
      rw [clean_entry hX hac hσ ht hcoef (by omega) h hd hreg]
      split_ifs <;> ring
    rw [sum_congr rfl this, ← sum_filter]
    exact sum_congr (by ext j; rw [mem_filter]; exact ⟨fun h => h.2, fun h => ⟨hMn d h, h⟩⟩) fun _ _ => rfl
  rw [hsum, ← hreg.1 src hsm]
  split_ifs with hds
  · -- the own row
    subst hds
    have hz : ∑ j ∈ M d, c j * X j d = 0 := by
      refine sum_eq_zero fun j hj => ?_
      have ha := (hMs j).1 hj
      have : X j d = 0 := by
        by_contra hne
        rcases source_ancestor hX hac ha.lt_left hd hne with h' | h'
        · exact ha.ne hac h'.symm
        · exact h'.asymm hac ha
      rw [this, mul_zero]
    rw [hreg.1 d hsm, hz, source_self hX hac hd, sub_zero]
  · by_contra hne
    by_cases ha : TrueAncestor n B src d
    · exact hne (resid_no_clean hX hσ hcm hc ha hreg)
    -- the residual of `d` contains the own error of the source: a pair that is marked
    have hcl := clean_regression (σ := σ) hX hac (M := M) (i := src) (fun j hj => (hMs j).1 hj) hcm hs
      (fun a ha => NoHiddenAbove.anc hc ha)
    have r1 := parents_residual hX hac hσ ht hMn' hg.irrefl hs hcl
    have r2 := parents_residual hX hac hσ ht hMn' hg.irrefl hd hreg
    have hPn : ∀ a, extractParents t n M a ⊆ range n := by
      intro a b hb
      unfold extractParents at hb
      split at hb
      · exact hMn a (mem_filter.1 hb).1
      · simp at hb
    have hcov : popCov m σ (fun k => if k < n then (if k = src then (1 : ℚ) else 0) else L src k) r ≠ 0 := by
      have : ∀ k, k < m → (if k < n then (if k = src then (1 : ℚ) else 0) else L src k) = if k = src then 1 else 0 := by
        intro k hk
        rcases lt_or_ge k n with hkn | hkn
        · rw [if_pos hkn]
        · rw [if_neg (not_lt.2 hkn), clean_direct hs hc hkn hk, if_neg (by omega)]
      rw [popCov_congr this (fun _ _ => rfl), popCov_single hsm]
      exact mul_ne_zero (hσ src hsm).ne' hne
    have hno1 : src ∉ extractParents t n M d := by
      intro hP
      unfold extractParents at hP
      rw [if_pos hd, mem_filter] at hP
      exact ha ((hMd d).1 hP.1)
    have hno2 : d ∉ extractParents t n M src := by
      intro hP
      unfold extractParents at hP
      rw [if_pos hs, mem_filter] at hP
      -- then `d` has no hidden causes either and its row is right
      have had := (hMs d).1 hP.1
      apply hne
      have hcd := NoHiddenAbove.anc hc had
      have hz : ∀ j, j = d ∨ TrueAncestor n B j d → j < n → X j src = 0 := by
        intro j hj hjn
        by_contra h0
        rcases source_ancestor hX hac hjn hs h0 with e | e
        · rcases hj with rfl | hj
          · exact hds e.symm
          · rw [← e] at hj; exact hj.asymm hac had
        · rcases hj with rfl | hj
          · exact e.asymm hac had
          · exact (e.trans hj).asymm hac had
      rw [hreg.1 src hsm, hz d (Or.inl rfl) hd, sum_eq_zero, sub_zero]
      intro j hj
      have hja := hws d j hj (Or.inl hcd)
      rw [hz j (Or.inr hja) hja.lt_left, mul_zero]
    obtain ⟨_, rfl⟩ := fit_parts h
    refine hnan d hd ?_
    rw [entry_none hs, mem_extractConfounded]
    rcases lt_or_gt_of_ne hds with hlt | hlt
    · refine Or.inr ⟨hlt, hs, hno2, hno1, ?_⟩
      rw [ht.corr _ _ _ _ (hPn _) (hPn _) hd hs]
      exact ⟨_, _, ⟨_, r2⟩, ⟨_, r1⟩, by rwa [popCov_comm]⟩
    · refine Or.inl ⟨hlt, hd, hno1, hno2, ?_⟩
      rw [ht.corr _ _ _ _ (hPn _) (hPn _) hs hd]
      exact ⟨_, _, ⟨_, r1⟩, ⟨_, r2⟩, hcov⟩

/-- C180: `max_explanatory_num` 1 or 2. For a source without hidden causes above it, `estimate_total_effect2` returns the
true total effect on every other variable, or NaN, provided the estimated matrix has no cycle. -/
theorem C180_paths (hX : SourceModel n m B L X) (hac : Acyclic (Edge n B 0)) (hσ : ∀ k, k < m → 0 < σ k)
    (hf : ∀ i j, NoHiddenAbove n m B L j → TrueAncestor n B j i → X i j ≠ 0) (ht : PerfectTests n m σ X t)
    (hcoef : PerfectCoef n m σ X coef) {maxNum : Nat} (hm : maxNum = 1 ∨ maxNum = 2)
    (h : fit t coef n maxNum fuel = some (M, B')) (hE : Acyclic (Edge n (Paths.clean B') 0)) {src dst : Nat} (hs : src < n)
    (hd : dst < n) (hne : src ≠ dst) (hc : NoHiddenAbove n m B L src) :
    totalEffect2 n B' src dst = some (.ok (some (X dst src))) ∨
      (∃ j, j < n ∧ B' src j = none) ∧ totalEffect2 n B' src dst = some (.ok none) := by
  unfold totalEffect2
  by_cases hn : rowNan n B' src = true
  · right
    exact ⟨rowNan_iff.1 hn, if_pos hn⟩
  left
  have hn' := hn
  unfold rowNan at hn'
  rw [if_neg hn', Paths.C13_total_effect_is_inverse_entry n B' ⟨src, hs⟩ ⟨dst, hd⟩ hE (fun e => hne (Fin.mk.inj e))]
  set C : Matrix (Fin n) (Fin n) ℚ := Matrix.of fun i j : Fin n => Paths.clean B' i j with hC
  have hu := Paths.C13_one_sub_isUnit n B' hE
  rw [← hC] at hu
  have hcol : (1 - C).mulVec (fun d : Fin n => X d src) = Pi.single (⟨src, hs⟩ : Fin n) 1 := by
    ext d
    rw [Matrix.sub_mulVec, Matrix.one_mulVec]
    simp only [Pi.sub_apply, Matrix.mulVec, dotProduct, hC, Matrix.of_apply]
    have := column_equation hX hac hσ hf ht hcoef hm h hs d.2 hc
      (fun j hj hj' => hn (rowNan_iff.2 ⟨j, hj, hj'⟩))
    rw [Finset.sum_range] at this
    rw [this, Pi.single_apply]
    by_cases hds : (d : Nat) = src
    · rw [if_pos hds, if_pos (Fin.ext hds)]
    · rw [if_neg hds, if_neg (fun e => hds (congrArg Fin.val e))]
  have hinv : (fun d : Fin n => X d src) = (1 - C)⁻¹.mulVec (Pi.single (⟨src, hs⟩ : Fin n) 1) := by
    rw [← hcol, Matrix.mulVec_mulVec, Matrix.nonsing_inv_mul _ ((Matrix.isUnit_iff_isUnit_det _).1 hu), Matrix.one_mulVec]
  have := congrFun hinv ⟨dst, hd⟩
  rw [Matrix.mulVec_single_one] at this
  simp only [Matrix.col_apply] at this
  rw [this]

/-- C181 (partial): with right tests and `max_explanatory_num = 1` the recorded ancestors have no cycle, whatever the
hidden causes. -/
theorem C181_no_cycle_partial (hX : SourceModel n m B L X) (hac : Acyclic (Edge n B 0)) (hσ : ∀ k, k < m → 0 < σ k)
    (ht : PerfectTests n m σ X t) (h : fit t coef n 1 fuel = some (M, B')) : Acyclic (fun a b => a ∈ M b) := by
  have hs : SoundM n B M := loop_sound_one hX hac hσ ht (fun i j h => absurd h (by simp)) (fit_parts h).1
  intro i hi
  have : ∀ a b, Relation.TransGen (fun a b => a ∈ M b) a b → TrueAncestor n B a b := by
    intro a b hab
    induction hab with
    | single h => exact hs _ _ h
    | tail _ h ih => exact ih.trans (hs _ _ h)
  exact hac i (this i i hi)

/-- C180: with `max_explanatory_num = 1` `estimate_total_effect2` is the true total effect for a source without hidden
causes above it. -/
theorem C180_paths_one (hX : SourceModel n m B L X) (hac : Acyclic (Edge n B 0)) (hσ : ∀ k, k < m → 0 < σ k)
    (hf : ∀ i j, NoHiddenAbove n m B L j → TrueAncestor n B j i → X i j ≠ 0) (ht : PerfectTests n m σ X t)
    (hcoef : PerfectCoef n m σ X coef) (h : fit t coef n 1 fuel = some (M, B')) {src dst : Nat} (hs : src < n)
    (hd : dst < n) (hne : src ≠ dst) (hc : NoHiddenAbove n m B L src) :
    totalEffect2 n B' src dst = some (.ok (some (X dst src))) := by
  have hE : Acyclic (Edge n (Paths.clean B') 0) := by
    have hcyc := C181_no_cycle_partial hX hac hσ ht h
    have key : ∀ a b, Edge n (Paths.clean B') 0 a b → a ∈ M b := by
      rintro a b ⟨_, hb, hab⟩
      by_contra hna
      apply abs_pos.1 hab
      unfold Paths.clean Paths.nan0
      cases hv : B' b a with
      | none => rfl
      | some v =>
        have hg := extract_good (by omega) (fit_parts h).1
        obtain ⟨_, rfl⟩ := fit_parts h
        unfold adjacency at hv
        rw [if_pos hb] at hv
        split at hv
        · cases hv
        · rw [if_neg] at hv
          · exact (Option.some.inj hv).symm
          · intro hP
            unfold extractParents at hP
            rw [if_pos hb, mem_filter] at hP
            exact hna hP.1
    intro i hi
    exact hcyc i (Relation.TransGen.mono (fun a b hab => key a b hab) i i hi)
  rcases C180_paths hX hac hσ hf ht hcoef (Or.inl rfl) h hE hs hd hne hc with h' | ⟨⟨j, hj, hn⟩, _⟩
  · exact h'
  · rw [(C178_clean_no_nan_partial hX hac hσ hf ht hcoef h hs hj hc).1] at hn
    cases hn

end

/-- C180: in the fork model (hidden cause of 1 and 2) the total effect of 0 on 2 is found by both functions. -/
example : ∃ (t : Tests) (coef : Coef) (lr : List Nat → Nat → Nat → ℚ) (M : Anc) (B' : Nat → Nat → Option ℚ),
    PerfectTests 3 4 (fun _ => 1) forkX t ∧ PerfectCoef 3 4 (fun _ => 1) forkX coef ∧
    Parce.RightCoef 3 4 (fun _ => 1) forkX lr ∧ fit t coef 3 1 30 = some (M, B') ∧ HiddenAbove 3 4 forkB forkL 2 3 ∧
    totalEffect lr 3 B' 0 2 = some 2 ∧ totalEffect2 3 B' 0 2 = some (.ok (some 2)) ∧ totalEffect lr 3 B' 1 2 = none := by
  obtain ⟨coef, hcoef⟩ := perfectCoef_exists (m := 4) (σ := fun _ => 1) (fun _ _ => one_pos) 3 forkX
  obtain ⟨lr, hlr⟩ : ∃ lr, Parce.RightCoef 3 4 (fun _ => 1) forkX lr := by
    choose r hr using fun (ps : List Nat) (x : Nat) =>
      exists_residual (m := 4) (σ := fun _ => (1 : ℚ)) (fun _ _ => one_pos) forkX ps.toFinset (forkX x)
    choose c hc using hr
    exact ⟨c, fun ps x _ _ _ => ⟨r ps x, hc ps x⟩⟩
  have ht := popTests_perfect (m := 4) (σ := fun _ => 1) (fun _ _ => one_pos) 3 forkX
  obtain ⟨M, hM, _⟩ := C25_ancestors_terminate (popTests 3 4 (fun _ => 1) forkX) 3 (maxNum := 1) (by omega)
  have hfit : ∃ B', fit (popTests 3 4 (fun _ => 1) forkX) coef 3 1 30 = some (M, B') := by
    unfold fit
    rw [hM 30 (by omega)]
    exact ⟨_, rfl⟩
  obtain ⟨B', hfit⟩ := hfit
  have hf : ∀ i j, NoHiddenAbove 3 4 forkB forkL j → TrueAncestor 3 forkB j i → forkX i j ≠ 0 := by
    intro i j _ h
    rw [fork_anc h]
    exact (by decide +kernel : ∀ i, i < 3 → forkX i 0 ≠ 0) i h.lt_right
  have hc : ∀ i a, TrueAncestor 3 forkB a i → NoHiddenAbove 3 4 forkB forkL a := by
    intro i a h
    rw [fork_anc h]; exact fork_clean
  have h2 : forkX 2 0 = 2 := by decide +kernel
  refine ⟨_, coef, lr, M, B', ht, hcoef, hlr, hfit,
    ⟨by omega, by omega, 2, by omega, by decide +kernel, Or.inl rfl⟩, ?_, ?_, ?_⟩
  · rw [C180_regression_one fork_model fork_acyclic (fun _ _ => one_pos) hf ht hcoef hlr hfit (by omega) (by omega)
      fork_clean, h2]
  · rw [C180_paths_one fork_model fork_acyclic (fun _ _ => one_pos) hf ht hcoef hfit (by omega) (by omega) (by omega)
      fork_clean, h2]
  · unfold totalEffect
    rw [if_pos]
    rw [rowNan_iff]
    exact ⟨2, by omega, (C178_nan_iff_partial fork_model fork_acyclic (fun _ _ => one_pos) hf ht hfit (by omega) (by omega)
      (by omega) (hc 1) (hc 2)).2 (by decide +kernel)⟩

/-- `0 → 2 → 1`, `0 → 4 → 1`, `4 → 3` and a hidden cause (source 5) of 0 and 4. -/
def cycB : Nat → Nat → ℚ := weights [(1, 2, 1), (1, 4, 1), (2, 0, 1), (3, 4, 1), (4, 0, 1)]
def cycL : Nat → Nat → ℚ := weights [(0, 5, 1), (4, 5, 1)]
def cycX : Nat → Nat → ℚ :=
  rows [[1, 0, 0, 0, 0, 1], [2, 1, 1, 0, 1, 3], [1, 0, 1, 0, 0, 1], [1, 0, 0, 1, 1, 2], [1, 0, 0, 0, 1, 2]]

theorem cyc_model : SourceModel 5 6 cycB cycL cycX := by
  refine ⟨by omega, ?_⟩
  decide +kernel

theorem cyc_anc {a b : Nat} (h : TrueAncestor 5 cycB a b) : a = 0 ∧ b ≠ 0 ∨ (a = 2 ∧ b = 1) ∨ (a = 4 ∧ (b = 1 ∨ b = 3)) := by
  have key : ∀ x y : Fin 5, cycB y x ≠ 0 →
      x.1 = 0 ∧ y.1 ≠ 0 ∨ (x.1 = 2 ∧ y.1 = 1) ∨ (x.1 = 4 ∧ (y.1 = 1 ∨ y.1 = 3)) := by decide +kernel
  induction h with
  | single h => exact key ⟨_, h.1⟩ ⟨_, h.2.1⟩ (abs_pos.1 h.2.2)
  | tail _ h ih =>
    have := key ⟨_, h.1⟩ ⟨_, h.2.1⟩ (abs_pos.1 h.2.2)
    simp only at this
    omega

theorem cyc_acyclic : Acyclic (Edge 5 cycB 0) := by
  intro i hi
  have := cyc_anc hi
  omega

/-- C181 (violated for the default): with correct tests, `max_explanatory_num = 2` and no total effect that cancels, RCD
records 2 as ancestor of 1, 3 as ancestor of 2 and 1 as ancestor of 3. -/
theorem C181_default_cycle : ∃ (B L X : Nat → Nat → ℚ) (σ : Nat → ℚ) (t : Tests), SourceModel 5 6 B L X ∧
    Acyclic (Edge 5 B 0) ∧ (∀ k, k < 6 → 0 < σ k) ∧ (∀ i j, TrueAncestor 5 B j i → X i j ≠ 0) ∧ PerfectTests 5 6 σ X t ∧
      ∀ coef : Coef, ∃ M B', fit t coef 5 2 60 = some (M, B') ∧ 2 ∈ M 1 ∧ 3 ∈ M 2 ∧ 1 ∈ M 3 := by
  refine ⟨cycB, cycL, cycX, fun _ => 1, popTests 5 6 (fun _ => 1) cycX, cyc_model, cyc_acyclic, fun _ _ => one_pos,
    ?_, popTests_perfect (fun _ _ => one_pos) 5 cycX, fun coef => ?_⟩
  · intro i j h
    have hi := h.lt_right
    rcases cyc_anc h with ⟨rfl, _⟩ | ⟨rfl, rfl⟩ | ⟨rfl, rfl | rfl⟩
    · exact (by decide +kernel : ∀ i, i < 5 → cycX i 0 ≠ 0) i hi
    all_goals decide +kernel
  · have key : (fit (popTests 5 6 (fun _ => 1) cycX) (fun _ _ _ => (1 : ℚ)) 5 2 60).map (fun r => (r.1 1, r.1 2, r.1 3)) =
        some ({0, 2, 4}, {0, 3, 4}, {0, 1, 4}) := by decide +kernel
    obtain ⟨M, hM, _⟩ := C25_ancestors_terminate (popTests 5 6 (fun _ => 1) cycX) 5 (maxNum := 2) (by omega)
    have hM := hM 60 (by omega)
    have hfit : ∀ coef : Coef, fit (popTests 5 6 (fun _ => 1) cycX) coef 5 2 60 =
        some (M, adjacency coef 5 (extractParents (popTests 5 6 (fun _ => 1) cycX) 5 M)
          (extractConfounded (popTests 5 6 (fun _ => 1) cycX) 5
            (extractParents (popTests 5 6 (fun _ => 1) cycX) 5 M))) := by
      intro coef
      unfold fit
      rw [hM]
    rw [hfit, Option.map_some, Option.some.injEq, Prod.mk.injEq, Prod.mk.injEq] at key
    dsimp only at key
    refine ⟨M, _, hfit coef, ?_, ?_, ?_⟩
    · rw [key.1]; decide
    · rw [key.2.1]; decide
    · rw [key.2.2]; decide

/-- C181: the hypotheses of the partial theorem hold in the same model. -/
example : ∃ t : Tests, PerfectTests 5 6 (fun _ => 1) cycX t ∧ ∀ coef : Coef, ∃ M B', fit t coef 5 1 60 = some (M, B') ∧
    Acyclic (fun a b => a ∈ M b) ∧ 0 ∈ M 2 := by
  have ht := popTests_perfect (m := 6) (σ := fun _ => 1) (fun _ _ => one_pos) 5 cycX
  refine ⟨_, ht, fun coef => ?_⟩
  obtain ⟨M, hM, _⟩ := C25_ancestors_terminate (popTests 5 6 (fun _ => 1) cycX) 5 (maxNum := 1) (by omega)
  have hM := hM 60 (by omega)
  have hfit : fit (popTests 5 6 (fun _ => 1) cycX) coef 5 1 60 =
      some (M, adjacency coef 5 (extractParents (popTests 5 6 (fun _ => 1) cycX) 5 M)
        (extractConfounded (popTests 5 6 (fun _ => 1) cycX) 5
          (extractParents (popTests 5 6 (fun _ => 1) cycX) 5 M))) := by
    unfold fit
    rw [hM]
  have key : (extractAncestors (popTests 5 6 (fun _ => 1) cycX) 5 1 60).map (fun M => M 2) = some {0} := by
    decide +kernel
  rw [hM, Option.map_some, Option.some.injEq] at key
  exact ⟨M, _, hfit, C181_no_cycle_partial cyc_model cyc_acyclic (fun _ _ => one_pos) ht hfit, by rw [key]; decide⟩

end Verif.Rcd
