import Verif.Proofs.LassoColumns

/-!
# The order of the predictors in the adaptive Lasso (C219)
-/
set_option linter.unusedSectionVars false
set_option autoImplicit false
namespace Verif.Pairwise
open Finset

variable {N : Nat} {lin : Lin N} {lars : Lars N}

/-- **C219.** The predictors may be listed in any order `σ` (and the columns of the data be stored in any order): every predictor gets
the same coefficient, if the Lasso path treats the weighted columns alike. -/
theorem C219_order (hlin : RightRegression lin) (X X' : Nat → Fin N → ℝ) (ps ps' : List Nat) (t t' : Nat) (σ : Nat → Nat) (hσ : Rearranges ps.length σ)
    (hlen : ps'.length = ps.length) (hX : ∀ k, k < ps.length → X' (ps'.getD k 0) = X (ps.getD (σ k) 0)) (ht : X' t' = X t)
    (hi : IndependentCols (ps.map X))
    (hp : ∀ d, TreatsAlike lars (multiplied d (ps.map fun p => zscore (X p))) (zscore (X t))) :
    ∀ k, k < ps.length → predict lin lars X' ps' t' k = predict lin lars X ps t (σ k) := by
  intro k hk
  refine predict_shuffled hlin ⟨by simp [hlen], by simpa using hσ, fun j hj => ?_⟩ ht hi hp hk
  have hj : j < ps.length := by simpa using hj
  rw [col_get X' (by omega), col_get X (rearranges_lt hσ hj), hX j hj]

/-- **C219, by name.** For the same data: the coefficient of predictor `p` does not depend on the order of the list of predictors. -/
theorem C219_list (hlin : RightRegression lin) (X : Nat → Fin N → ℝ) {ps ps' : List Nat} (hnd : ps.Nodup) (hperm : ps'.Perm ps) (t : Nat)
    (hi : IndependentCols (ps.map X))
    (hp : ∀ d, TreatsAlike lars (multiplied d (ps.map fun p => zscore (X p))) (zscore (X t))) :
    ∀ p ∈ ps, predict lin lars X ps' t (ps'.idxOf p) = predict lin lars X ps t (ps.idxOf p) := by
  intro p hpm
  have hl := hperm.length_eq
  have hget : ∀ j, j < ps'.length → ps.getD (ps.idxOf (ps'.getD j 0)) 0 = ps'.getD j 0 := fun j hj => by
    have hm : ps'.getD j 0 ∈ ps := by rw [getD_of_lt hj]; exact hperm.mem_iff.1 (List.getElem_mem _)
    rw [getD_of_lt (List.idxOf_lt_length_of_mem hm), List.getElem_idxOf]
  have hσ : Rearranges ps.length (fun j => ps.idxOf (ps'.getD j 0)) := by
    unfold Rearranges
    have e : (List.range ps.length).map (fun j => ps.idxOf (ps'.getD j 0)) = ps'.map (fun i => ps.idxOf i) := by
      rw [← hl]
      refine List.ext_getElem (by simp) fun j h1 h2 => ?_
      have hj : j < ps'.length := by simpa using h1
      simp only [List.getElem_map, List.getElem_range]
      rw [getD_of_lt hj]
    have e2 : ps.map (fun i => ps.idxOf i) = List.range ps.length := by
      refine List.ext_getElem (by simp) fun j h1 h2 => ?_
      have hj : j < ps.length := by simpa using h1
      simp only [List.getElem_map, List.getElem_range]
      exact hnd.idxOf_getElem j hj
    rw [e, ← e2]
    exact hperm.map _
  have hm : p ∈ ps' := hperm.mem_iff.2 hpm
  have hk := List.idxOf_lt_length_of_mem hm
  have := C219_order (lars := lars) hlin X X ps ps' t t _ hσ hl (fun k hk => by rw [hget k (by omega)]) rfl hi hp (ps'.idxOf p) (by omega)
  rw [this]
  beta_reduce
  rw [getD_of_lt hk, List.getElem_idxOf]

/-! ### Routines with all assumed properties exist -/

theorem multiplied_unique {cols M : List (Fin N → ℝ)} {d : Nat → ℝ} (hi : IndependentCols cols) (hl : M.length = cols.length)
    (hM : ∀ k, k < cols.length → ∀ r, M.getD k 0 r = cols.getD k 0 r * d k) {y : Fin N → ℝ} {b b' : ℝ} {w w' : Nat → ℝ}
    (h : SolvesRegression M y b w) (h' : SolvesRegression M y b' w') {k : Nat} (hk : k < cols.length) (h0 : M.getD k 0 ≠ 0) : w k = w' k := by
  have hd : d k ≠ 0 := fun hd => h0 (by funext r; rw [hM k hk r, hd, mul_zero]; rfl)
  have := hi (b' - b) (fun k => (w' k - w k) * d k) (fun r => by
    have := congrFun (unexplained_unique h h') r
    unfold unexplained at this
    have e : ∀ v : Nat → ℝ, ∑ k ∈ range M.length, v k * M.getD k 0 r = ∑ k ∈ range cols.length, v k * d k * cols.getD k 0 r := fun v => by
      rw [hl]
      exact sum_congr rfl fun k hk => by rw [hM k (mem_range.1 hk) r]; ring
    rw [e, e] at this
    simp only [sub_mul, sum_sub_distrib]
    linarith) k hk
  rcases mul_eq_zero.1 this with h | h
  · linarith
  · exact absurd h hd

/-- There are a least squares routine and a Lasso path with all the properties assumed: the path has the breaks 0 and least squares. -/
theorem exists_alike (N : Nat) : ∃ (lin : Lin N) (lars : Lars N), RightRegression lin ∧ RightPath lars ∧
    ∀ cols, IndependentCols cols → ∀ d y, TreatsAlike lars (multiplied d cols) y := by
  classical
  obtain ⟨lin, -, hlin, -⟩ := exists_oracles N
  let z : Lin N := fun cols y k => if cols.getD k 0 = 0 then 0 else lin cols y k
  have hz : ∀ cols y, ∃ b0, SolvesRegression cols y b0 (z cols y) := by
    intro cols y
    obtain ⟨b0, h⟩ := hlin cols y
    have e : unexplained cols y b0 (z cols y) = unexplained cols y b0 (lin cols y) := by
      funext r
      unfold unexplained
      congr 1
      refine sum_congr rfl fun k _ => ?_
      by_cases h0 : cols.getD k 0 = 0
      · rw [h0]; simp
      · simp only [z]
        rw [if_neg h0]
    exact ⟨b0, by unfold SolvesRegression; rw [e]; exact h⟩
  have key : ∀ cols y, (∀ x ∈ cols, ∑ r, x r = 0) → ∑ r, y r = 0 → SolvesRegression cols y 0 (z cols y) := by
    intro cols y hc hy
    by_cases hN : N = 0
    · subst hN
      exact ⟨by simp, fun k _ => by simp⟩
    · obtain ⟨b0, h⟩ := hz cols y
      rwa [intercept_zero hN hy hc h] at h
  refine ⟨lin, fun cols y => [fun _ => 0, z cols y], hlin, ⟨fun cols y => ⟨_, _, rfl, fun _ _ => rfl⟩,
    fun cols y hc hy => ⟨_, by simp, key cols y hc hy⟩, fun x y hx hy v hv => ?_⟩, ?_⟩
  · simp only [List.mem_cons, List.not_mem_nil, or_false] at hv
    rcases hv with rfl | rfl
    · exact Or.inl rfl
    · exact Or.inr (key [x] y (by simpa using hx) hy)
  · intro cols hi d y σ cols' hs
    refine .cons (fun _ _ => rfl) (.cons (fun k hk => ?_) .nil)
    have hml : (multiplied d cols).length = cols.length := by simp [multiplied]
    have hmg : ∀ k, k < cols.length → ∀ r, (multiplied d cols).getD k 0 r = cols.getD k 0 r * d k := fun k hk r => by
      unfold multiplied
      have : (List.range cols.length).getD k 0 = k := by rw [getD_of_lt (by simpa using hk), List.getElem_range]
      rw [list_getD_map _ _ (by simpa using hk) 0 0, this]
    rw [hml] at hk
    have hr : Rearranges cols.length σ := by have := hs.rearranges; rwa [hml] at this
    have hsame := hs.same k (by rw [hml]; exact hk)
    by_cases h0 : (multiplied d cols).getD (σ k) 0 = 0
    · simp only [z]
      rw [hsame, if_pos h0, if_pos h0]
    · simp only [z]
      rw [hsame, if_neg h0, if_neg h0]
      have hC : Shuffled σ cols ((List.range cols.length).map fun k => cols.getD (σ k) 0) := by
        refine ⟨by simp, hr, fun k hk => ?_⟩
        have : (List.range cols.length).getD k 0 = k := by rw [getD_of_lt (by simpa using hk), List.getElem_range]
        rw [list_getD_map _ _ (by simpa using hk) 0 0, this]
      obtain ⟨b0, h1⟩ := hlin (multiplied d cols) y
      obtain ⟨b1, h2⟩ := hlin cols' y
      have h3 := solves_shuffled hs (w' := fun k => lin (multiplied d cols) y (σ k)) (fun _ _ => rfl) h1
      refine multiplied_unique (d := fun k => d (σ k)) (independent_shuffled hC hi) (by rw [hs.length, hml]; simp) (fun k hk r => ?_) h2 h3 (by simpa using hk)
        (by rw [hsame]; exact h0)
      have hk : k < cols.length := by simpa using hk
      rw [hs.same k (by rw [hml]; exact hk), hC.same k hk, hmg _ (rearranges_lt hr hk)]

/-! ### Example -/

/-- The predictors 0 and 2 of column 1 in both orders, for routines with the assumed properties. -/
example : ∃ (lin : Lin 4) (lars : Lars 4), RightRegression lin ∧ RightPath lars ∧
    predict lin lars lassoData [2, 0] 1 0 = predict lin lars lassoData [0, 2] 1 1 ∧
    predict lin lars lassoData [2, 0] 1 1 = predict lin lars lassoData [0, 2] 1 0 := by
  obtain ⟨lin, lars, h1, h2, h3⟩ := exists_alike 4
  have hi : IndependentCols ([0, 2].map lassoData) := independent_of_identified lassoData_identified (by decide) (by decide)
  have hz : IndependentCols ([0, 2].map fun p => zscore (lassoData p)) := by
    have := independent_units (cols := [0, 2].map lassoData) (cols' := [0, 2].map fun p => scaled (lassoData p)) (by simp)
      (s := fun k => scale (lassoData ([0, 2].getD k 0))) (a := fun k => mean (lassoData ([0, 2].getD k 0)))
      (fun k hk r => by
        have hk : k < [0, 2].length := by simpa using hk
        rw [col_get lassoData hk, scaled_get lassoData hk]
        exact scaled_eq _ r) (fun k _ => scale_ne _) hi
    simpa only [scaled_eq_zscore (N := 4) (by norm_num)] using this
  have := C219_list (lars := lars) h1 lassoData (ps := [0, 2]) (ps' := [2, 0]) (by decide) (by decide) 1 hi (fun d => h3 _ hz d _)
  exact ⟨lin, lars, h1, h2, by simpa using this 2 (by simp), by simpa using this 0 (by simp)⟩

end Verif.Pairwise
