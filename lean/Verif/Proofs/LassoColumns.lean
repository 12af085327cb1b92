import Verif.Props.AdaptiveLasso
import Verif.Spec.Shuffle

set_option linter.unusedSectionVars false
set_option autoImplicit false
namespace Verif.Pairwise
open Finset

variable {N : Nat} {lin : Lin N} {lars : Lars N} {σ : Nat → Nat} {cols cols' : List (Fin N → ℝ)} {y : Fin N → ℝ}

theorem rearranges_lt {n : Nat} (h : Rearranges n σ) {k : Nat} (hk : k < n) : σ k < n :=
  List.mem_range.1 (h.mem_iff.1 (List.mem_map.2 ⟨k, List.mem_range.2 hk, rfl⟩))

theorem rearranges_inj {n : Nat} (h : Rearranges n σ) {j k : Nat} (hj : j < n) (hk : k < n) (e : σ j = σ k) : j = k :=
  List.inj_on_of_nodup_map (h.nodup_iff.2 List.nodup_range) (List.mem_range.2 hj) (List.mem_range.2 hk) e

theorem rearranges_surj {n : Nat} (h : Rearranges n σ) {k : Nat} (hk : k < n) : ∃ j, j < n ∧ σ j = k := by
  obtain ⟨j, hj, e⟩ := List.mem_map.1 (h.mem_iff.2 (List.mem_range.2 hk))
  exact ⟨j, List.mem_range.1 hj, e⟩

theorem sum_rearranged {M : Type} [AddCommMonoid M] {n : Nat} (h : Rearranges n σ) (f : Nat → M) :
    ∑ k ∈ range n, f (σ k) = ∑ k ∈ range n, f k := by
  refine sum_bij (fun k _ => σ k) (fun k hk => mem_range.2 (rearranges_lt h (mem_range.1 hk)))
    (fun j hj k hk e => rearranges_inj h (mem_range.1 hj) (mem_range.1 hk) e) (fun k hk => ?_) (fun _ _ => rfl)
  obtain ⟨j, hj, e⟩ := rearranges_surj h (mem_range.1 hk)
  exact ⟨j, mem_range.2 hj, e⟩

theorem sum_shuffled (h : Shuffled σ cols cols') {w w' : Nat → ℝ} (hw : ∀ k, k < cols.length → w' k = w (σ k)) (r : Fin N) :
    ∑ k ∈ range cols'.length, w' k * cols'.getD k 0 r = ∑ k ∈ range cols.length, w k * cols.getD k 0 r := by
  rw [h.length, ← sum_rearranged h.rearranges fun k => w k * cols.getD k 0 r]
  exact sum_congr rfl fun k hk => by rw [hw k (mem_range.1 hk), h.same k (mem_range.1 hk)]

theorem unexplained_shuffled (h : Shuffled σ cols cols') {w w' : Nat → ℝ} (hw : ∀ k, k < cols.length → w' k = w (σ k)) (b0 : ℝ) :
    unexplained cols' y b0 w' = unexplained cols y b0 w := by
  funext r
  unfold unexplained
  rw [sum_shuffled h hw]

theorem solves_shuffled (h : Shuffled σ cols cols') {w w' : Nat → ℝ} (hw : ∀ k, k < cols.length → w' k = w (σ k)) {b0 : ℝ}
    (hs : SolvesRegression cols y b0 w) : SolvesRegression cols' y b0 w' := by
  unfold SolvesRegression
  rw [unexplained_shuffled h hw]
  refine ⟨hs.1, fun k hk => ?_⟩
  rw [h.length] at hk
  rw [h.same k hk]
  exact hs.2 _ (rearranges_lt h.rearranges hk)

theorem independent_shuffled (h : Shuffled σ cols cols') (hi : IndependentCols cols) : IndependentCols cols' := by
  intro b0 w hz k hk
  rw [h.length] at hk
  -- the inverse
  have hex : ∀ k, ∃ j, k < cols.length → j < cols.length ∧ σ j = k := fun k => by
    by_cases hk : k < cols.length
    · obtain ⟨j, h1, h2⟩ := rearranges_surj h.rearranges hk
      exact ⟨j, fun _ => ⟨h1, h2⟩⟩
    · exact ⟨0, fun h => absurd h hk⟩
  choose τ hτ using hex
  have hw : ∀ k, k < cols.length → w k = w (τ (σ k)) := fun k hk => by
    have := hτ (σ k) (rearranges_lt h.rearranges hk)
    rw [rearranges_inj h.rearranges this.1 hk this.2]
  have := hi b0 (fun k => w (τ k)) (fun r => by rw [← sum_shuffled h hw]; exact hz r) (σ k) (rearranges_lt h.rearranges hk)
  rw [hw k hk]
  exact this

theorem lin_shuffled (hlin : RightRegression lin) (h : Shuffled σ cols cols') (hi : IndependentCols cols) {k : Nat} (hk : k < cols.length) :
    lin cols' y k = lin cols y (σ k) := by
  obtain ⟨b0, h0⟩ := hlin cols y
  obtain ⟨b1, h1⟩ := hlin cols' y
  exact leastSquares_unique (independent_shuffled h hi) h1 (solves_shuffled h (w' := fun k => lin cols y (σ k)) (fun _ _ => rfl) h0)
    (by rw [h.length]; exact hk)

theorem rss_shuffled (h : Shuffled σ cols cols') {w w' : Nat → ℝ} (hw : ∀ k, k < cols.length → w' k = w (σ k)) :
    rss cols' y w' = rss cols y w := by
  rw [rss_unexplained, rss_unexplained, unexplained_shuffled h hw]

theorem dof_shuffled {n : Nat} (h : Rearranges n σ) {w w' : Nat → ℝ} (hw : ∀ k, k < n → w' k = w (σ k)) : dof n w' = dof n w := by
  unfold dof
  rw [card_filter, card_filter, ← sum_rearranged h fun k => if w k ≠ 0 then 1 else 0]
  exact sum_congr rfl fun k hk => by rw [hw k (mem_range.1 hk)]

/-- The estimated error variance does not depend on the order of centred columns. -/
theorem noise_shuffled (hN : N ≠ 0) (hlin : RightRegression lin) (h : Shuffled σ cols cols') (hc : ∀ x ∈ cols, ∑ r, x r = 0)
    (hy : ∑ r, y r = 0) : noise lin cols' y = noise lin cols y := by
  have hc' : ∀ x ∈ cols', ∑ r, x r = 0 := by
    intro x hx
    obtain ⟨k, hk, rfl⟩ := List.getElem_of_mem hx
    rw [h.length] at hk
    rw [← getD_of_lt (by rw [h.length]; exact hk) 0, h.same k hk, getD_of_lt (rearranges_lt h.rearranges hk)]
    exact hc _ (List.getElem_mem _)
  obtain ⟨b0, h0⟩ := hlin cols y
  obtain ⟨b1, h1⟩ := hlin cols' y
  have e0 := intercept_zero hN hy hc h0
  have e1 := intercept_zero hN hy hc' h1
  subst e0
  subst e1
  have h2 := solves_shuffled h (w' := fun k => lin cols y (σ k)) (fun _ _ => rfl) h0
  unfold noise
  rw [rss_unexplained, unexplained_unique h1 h2, ← rss_unexplained, rss_shuffled h (fun _ _ => rfl), h.length]

theorem firstMin_alike {n : Nat} {f f' : (Nat → ℝ) → ℝ} (hf : ∀ b b' : Nat → ℝ, (∀ k, k < n → b' k = b (σ k)) → f' b' = f b) {cs cs' : List (Nat → ℝ)}
    (h : List.Forall₂ (fun b b' : Nat → ℝ => ∀ k, k < n → b' k = b (σ k)) cs cs') : ∀ b b' : Nat → ℝ, (∀ k, k < n → b' k = b (σ k)) →
      ∀ k, k < n → firstMin f' b' cs' k = firstMin f b cs (σ k) := by
  induction h with
  | nil => intro b b' hb k hk; exact hb k hk
  | @cons c c' cs cs' hc _ ih =>
    intro b b' hb k hk
    unfold firstMin
    rw [hf b b' hb, hf c c' hc]
    split
    · exact ih c c' hc k hk
    · exact ih b b' hb k hk

theorem larsIC_shuffled (hN : N ≠ 0) (hlin : RightRegression lin) (h : Shuffled σ cols cols') (hc : ∀ x ∈ cols, ∑ r, x r = 0)
    (hy : ∑ r, y r = 0) (hp : TreatsAlike lars cols y) {k : Nat} (hk : k < cols.length) : larsIC lin lars cols' y k = larsIC lin lars cols y (σ k) := by
  have hn := noise_shuffled hN hlin h hc hy
  have := hp σ cols' h
  unfold larsIC
  cases hl : lars cols y with
  | nil =>
    rw [hl] at this
    cases hl' : lars cols' y with
    | nil => rfl
    | cons => rw [hl'] at this; cases this
  | cons b cs =>
    rw [hl] at this
    cases hl' : lars cols' y with
    | nil => rw [hl'] at this; cases this
    | cons b' cs' =>
      rw [hl'] at this
      cases this with
      | cons hb hcs =>
        simp only [hn]
        split
        · exact hb k hk
        · refine firstMin_alike (n := cols.length) (fun b b' hb => ?_) hcs b b' hb k hk
          unfold bic
          rw [hn, rss_shuffled h hb, h.length, dof_shuffled h.rearranges hb]

theorem weighted_shuffled (hlin : RightRegression lin) (h : Shuffled σ cols cols') (hi : IndependentCols cols) :
    Shuffled σ (weighted lin cols y) (weighted lin cols' y) where
  length := by rw [weighted_length, weighted_length, h.length]
  rearranges := by rw [weighted_length]; exact h.rearranges
  same := fun k hk => by
    rw [weighted_length] at hk
    funext r
    rw [weighted_get _ _ _ (by rw [h.length]; exact hk), weighted_get _ _ _ (rearranges_lt h.rearranges hk), h.same k hk, weight, weight,
      lin_shuffled hlin h hi hk]

theorem kept_shuffled (hN : N ≠ 0) (hlin : RightRegression lin) (h : Shuffled σ cols cols') (hi : IndependentCols cols)
    (hc : ∀ x ∈ cols, ∑ r, x r = 0) (hy : ∑ r, y r = 0) (hp : TreatsAlike lars (weighted lin cols y) y) {k : Nat} (hk : k < cols.length) :
    k ∈ kept lin lars cols' y ↔ σ k ∈ kept lin lars cols y := by
  rw [mem_kept, mem_kept, lin_shuffled hlin h hi hk,
    larsIC_shuffled hN hlin (weighted_shuffled hlin h hi) (weighted_centred hc) hy hp (by rw [weighted_length]; exact hk), h.length]
  simp only [hk, rearranges_lt h.rearranges hk, true_and]

theorem scaled_eq_zscore (hN : N ≠ 0) (x : Fin N → ℝ) : scaled x = zscore x := by
  by_cases h : var x = 0
  · funext r
    rw [zscore_eq, scaled, var_eq_zero hN h r]
    simp
  · exact scaled_zscore h

/-- The selected regression with the predictors in another order. -/
theorem predict_shuffled (hlin : RightRegression lin) {X X' : Nat → Fin N → ℝ} {ps ps' : List Nat} {t t' : Nat}
    (h : Shuffled σ (ps.map X) (ps'.map X')) (ht : X' t' = X t) (hi : IndependentCols (ps.map X))
    (hp : ∀ d, TreatsAlike lars (multiplied d (ps.map fun p => zscore (X p))) (zscore (X t))) {k : Nat} (hk : k < ps.length) :
    predict lin lars X' ps' t' k = predict lin lars X ps t (σ k) := by
  have hN : N ≠ 0 := by
    rintro rfl
    have := hi 0 (fun _ => 1) (fun r => r.elim0) k (by simpa using hk)
    norm_num at this
  have hlen : ps'.length = ps.length := by simpa using h.length
  have hσ : Rearranges ps.length σ := by simpa using h.rearranges
  have hsame : ∀ k, k < ps.length → X' (ps'.getD k 0) = X (ps.getD (σ k) 0) := fun k hk => by
    have := h.same k (by simpa using hk)
    rwa [col_get X' (by omega), col_get X (rearranges_lt hσ hk)] at this
  set C := ps.map (fun p => scaled (X p)) with hC
  set C' := ps'.map (fun p => scaled (X' p)) with hC'
  have hs : Shuffled σ C C' := by
    refine ⟨by simp [hC, hC', hlen], by simpa [hC] using hσ, fun k hk => ?_⟩
    have hk : k < ps.length := by simpa [hC] using hk
    rw [hC, hC', scaled_get X' (by omega), scaled_get X (rearranges_lt hσ hk), hsame k hk]
  have hiC : IndependentCols C :=
    independent_units (cols := ps.map X) (by simp [hC]) (s := fun k => scale (X (ps.getD k 0))) (a := fun k => mean (X (ps.getD k 0)))
      (fun k hk r => by
        have hk : k < ps.length := by simpa using hk
        rw [col_get X hk, hC, scaled_get X hk]
        exact scaled_eq _ r) (fun k _ => scale_ne _) hi
  have hcC : ∀ x ∈ C, ∑ r, x r = 0 := scaled_centred X ps
  have hpC : TreatsAlike lars (weighted lin C (scaled (X t))) (scaled (X t)) := by
    have := hp (weight lin C (scaled (X t)))
    have e : (ps.map fun p => zscore (X p)) = C := List.map_congr_left fun p _ => (scaled_eq_zscore hN _).symm
    rw [e, ← scaled_eq_zscore hN] at this
    exact this
  have hkept : ∀ k, k < ps.length → (k ∈ kept lin lars C' (scaled (X t)) ↔ σ k ∈ kept lin lars C (scaled (X t))) := fun k hk =>
    kept_shuffled hN hlin hs hiC hcC (sum_scaled _) hpC (by simpa [hC] using hk)
  unfold predict
  rw [ht]
  simp only
  rw [← hC, ← hC']
  set S := kept lin lars C (scaled (X t)) with hS
  set S' := kept lin lars C' (scaled (X t)) with hS'
  have hnd : S.Nodup := kept_nodup _ _ _ _
  have hnd' : S'.Nodup := kept_nodup _ _ _ _
  have hlt : ∀ i ∈ S, i < ps.length := fun i hi => by simpa [hC] using kept_lt hi
  have hlt' : ∀ i ∈ S', i < ps.length := fun i hi => by simpa [hC', hlen] using kept_lt hi
  have hperm : (S'.map σ).Perm S := by
    refine (List.perm_ext_iff_of_nodup (hnd'.map_on fun a ha b hb e => rearranges_inj hσ (hlt' a ha) (hlt' b hb) e) hnd).2 fun i => ?_
    rw [List.mem_map]
    constructor
    · rintro ⟨a, ha, rfl⟩
      exact (hkept a (hlt' a ha)).1 ha
    · intro hi
      obtain ⟨a, ha, rfl⟩ := rearranges_surj hσ (hlt i hi)
      exact ⟨a, (hkept a ha).2 hi, rfl⟩
  by_cases hmem : k ∈ S'
  · have hmem' := (hkept k hk).1 hmem
    rw [if_pos hmem, if_pos hmem']
    have hSi : IndependentCols (S.map (fun i => X (ps.getD i 0))) := by
      have := independent_sub hi hnd (fun i hi => by simpa using hlt i hi)
      rwa [List.map_congr_left fun i hi => col_get X (hlt i hi)] at this
    have hlS : S'.length = S.length := by simpa using hperm.length_eq
    have hget : ∀ j, j < S'.length → S.getD (S.idxOf (σ (S'.getD j 0))) 0 = σ (S'.getD j 0) := fun j hj => by
      have : σ (S'.getD j 0) ∈ S := by
        rw [getD_of_lt hj]
        exact (hkept _ (hlt' _ (List.getElem_mem _))).1 (List.getElem_mem _)
      rw [getD_of_lt (List.idxOf_lt_length_of_mem this), List.getElem_idxOf]
    have hτ : Shuffled (fun j => S.idxOf (σ (S'.getD j 0))) (S.map (fun i => X (ps.getD i 0))) (S'.map (fun i => X' (ps'.getD i 0))) := by
      refine ⟨by simp [hlS], ?_, fun j hj => ?_⟩
      · unfold Rearranges
        have e : (List.range (S.map fun i => X (ps.getD i 0)).length).map (fun j => S.idxOf (σ (S'.getD j 0))) = (S'.map σ).map (fun i => S.idxOf i) := by
          rw [List.length_map, ← hlS]
          refine List.ext_getElem (by simp) fun j h1 h2 => ?_
          have hj : j < S'.length := by simpa using h1
          simp only [List.getElem_map, List.getElem_range]
          rw [getD_of_lt hj]
        rw [e]
        refine (hperm.map _).trans ?_
        have e2 : S.map (fun i => S.idxOf i) = List.range S.length := by
          refine List.ext_getElem (by simp) fun j h1 h2 => ?_
          have hj : j < S.length := by simpa using h1
          simp only [List.getElem_map, List.getElem_range]
          exact hnd.idxOf_getElem j hj
        rw [e2, List.length_map]
      · have hj : j < S'.length := by rw [hlS]; simpa using hj
        have hj' : S.idxOf (σ (S'.getD j 0)) < S.length := by
          refine List.idxOf_lt_length_of_mem ?_
          rw [getD_of_lt hj]
          exact (hkept _ (hlt' _ (List.getElem_mem _))).1 (List.getElem_mem _)
        rw [list_getD_map _ S' hj 0 0, list_getD_map _ S hj' 0 0, hget j hj, hsame]
        rw [getD_of_lt hj]
        exact hlt' _ (List.getElem_mem _)
    have hpos := List.idxOf_lt_length_of_mem hmem
    have hk' : S'.getD (S'.idxOf k) 0 = k := by rw [getD_of_lt hpos, List.getElem_idxOf]
    rw [lin_shuffled hlin hτ hSi (by simpa [← hlS] using hpos)]
    beta_reduce
    rw [hk']
  · rw [if_neg hmem, if_neg fun h => hmem ((hkept k hk).2 h)]

end Verif.Pairwise
