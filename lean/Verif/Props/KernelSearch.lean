import Verif.Model.KernelSearch
import Verif.Props.KernelMi
import Verif.Props.Pairwise

/-! C240: the causal order of `DirectLiNGAM` with `measure='kernel'`. -/
set_option autoImplicit false
set_option linter.unusedSectionVars false
namespace Verif.KernelSearch
open Pairwise (Col mean var cov residual sumNan pick removeEffect aff Sign Rows Indep)

variable {N : Nat}

/-! ### What the order should be -/

/-- What remains of `y` after removing the least squares multiple of `x`. -/
noncomputable def slopeResidual (y x : Fin N → ℝ) : Fin N → ℝ := fun r =>
  y r - (∑ q, (y q - sampleMean y) * (x q - sampleMean x)) / (∑ q, (x q - sampleMean x) ^ 2) * x r

/-- The kernel measure of dependence (Bach and Jordan) with the constants used up to, and above, a thousand rows. -/
noncomputable def dependence (x y : Fin N → ℝ) : ℝ :=
  if 1000 < N then -1 / 2 * Real.log (KernelMi.generalisedVariance (2 / 1000) (1 / 2) x y)
  else -1 / 2 * Real.log (KernelMi.generalisedVariance (2 / 100) 1 x y)

/-- The evidence against `j` being the first of the variables `U`. -/
noncomputable def evidence (x : Nat → Fin N → ℝ) (U : List Nat) (j : Nat) : ℝ :=
  ((U.filter (fun i => decide (i ≠ j))).map (fun i => dependence (x j) (slopeResidual (x i) (x j)))).sum

/-- Each variable has the least evidence against it among those that remain, after removing the earlier ones. -/
inductive KernelOrder : (Nat → Fin N → ℝ) → List Nat → List Nat → Prop
  | nil (x : Nat → Fin N → ℝ) : KernelOrder x [] []
  | cons {x : Nat → Fin N → ℝ} {U l : List Nat} {m : Nat} (hm : m ∈ U) (best : ∀ i ∈ U, evidence x U m ≤ evidence x U i)
      (rest : KernelOrder (fun i => slopeResidual (x i) (x m)) (U.filter (fun i => decide (i ≠ m))) l) : KernelOrder x U (m :: l)

/-! ### Two runs on related data -/

theorem search_mem {cfg : Direct.Config} {po : List (Nat × Nat)} {X : Nat → Col N} {U : List Nat} {m : Nat} (h : search cfg po X U = .ok m) : m ∈ U := by
  unfold search at h
  have hs := Pairwise.candidates_sub cfg po U
  generalize Direct.searchCandidate cfg po U = q at h hs
  obtain ⟨Uc, Vj⟩ := q
  simp only at hs h
  match Uc, h, hs with
  | [], h, _ => simp [pick] at h
  | [c], h, hs =>
    simp only [Except.ok.injEq] at h
    subst h; exact hs c (by simp)
  | c :: c' :: cs, h, hs =>
    simp only [pick] at h
    split_ifs at h
    simp only [Except.ok.injEq] at h
    rw [← h]
    exact hs _ (Pairwise.pickGo_mem _ _ _)

theorem tkernel_congr {A : Nat} {X : Nat → Col N} {X' : Nat → Col A} (Rel : Col N → Col A → Prop)
    (hmi : ∀ x y x' y', Rel x x' → Rel y y' → mi x' y' = mi x y)
    (hr : ∀ x y x' y', Rel x x' → Rel y y' → Rel (residual x y) (residual x' y')) {U Uc Vj : List Nat} (h : ∀ i ∈ U, Rel (X i) (X' i)) {j : Nat} (hj : j ∈ U) :
    tkernel X' U Uc Vj j = tkernel X U Uc Vj j := by
  unfold tkernel
  congr 1
  refine List.map_congr_left fun i hi => ?_
  have hi' := h i (List.mem_filter.1 hi).1
  apply hmi _ _ _ _ (h j hj)
  split_ifs
  · exact hi'
  · exact hr _ _ _ _ hi' (h j hj)

theorem search_congr {A : Nat} {cfg : Direct.Config} {po : List (Nat × Nat)} {X : Nat → Col N} {X' : Nat → Col A} {U : List Nat}
    (h : ∀ j ∈ U, ∀ Uc Vj, tkernel X' U Uc Vj j = tkernel X U Uc Vj j) : search cfg po X' U = search cfg po X U := by
  unfold search
  have hs := Pairwise.candidates_sub cfg po U
  generalize Direct.searchCandidate cfg po U = q at hs ⊢
  obtain ⟨Uc, Vj⟩ := q
  simp only at hs ⊢
  have ha : Uc.all (fun j => (tkernel X' U Uc Vj j).isSome) = Uc.all (fun j => (tkernel X U Uc Vj j).isSome) := by
    rw [Bool.eq_iff_iff, List.all_eq_true, List.all_eq_true]
    exact forall₂_congr fun j hj => by rw [h j (hs j hj)]
  have hp : pick (fun j => (tkernel X' U Uc Vj j).map (fun t => -1 * t)) Uc = pick (fun j => (tkernel X U Uc Vj j).map (fun t => -1 * t)) Uc :=
    Pairwise.pick_congr fun j hj => by rw [h j (hs j hj)]
  split
  · rfl
  · rw [ha, hp]

theorem loop_congr {A : Nat} {cfg : Direct.Config} (Rel : Col N → Col A → Prop) (hmi : ∀ x y x' y', Rel x x' → Rel y y' → mi x' y' = mi x y)
    (hr : ∀ x y x' y', Rel x x' → Rel y y' → Rel (residual x y) (residual x' y')) :
    ∀ (r : Nat) (X : Nat → Col N) (X' : Nat → Col A) (K U : List Nat) (po : List (Nat × Nat)), (∀ i ∈ U, Rel (X i) (X' i)) →
      loop cfg r X' K U po = loop cfg r X K U po
  | 0, _, _, _, _, _, _ => rfl
  | r + 1, X, X', K, U, po, h => by
    unfold loop
    rw [search_congr fun j hj Uc Vj => tkernel_congr Rel hmi hr h hj]
    cases hm : search cfg po X U with
    | error e => rfl
    | ok m =>
      simp only
      apply loop_congr Rel hmi hr r
      intro i hi
      have hi := (List.mem_filter.1 hi).1
      unfold removeEffect
      by_cases hc : i ∈ U ∧ i ≠ m
      · rw [if_pos hc, if_pos hc]; exact hr _ _ _ _ (h i hi) (h m (search_mem hm))
      · rw [if_neg hc, if_neg hc]; exact h i hi

/-! ### Units, origins, signs and the order of the rows -/

/-- The same column with its rows in another order, up to sign. -/
def Moved (π : Equiv.Perm (Fin N)) (x y : Col N) : Prop := ∃ z, Sign x z ∧ Rows π z y

theorem perm_card (π : Equiv.Perm (Fin N)) (r : Fin N) : (Finset.univ.filter (fun q => π q = r)).card = 1 := by
  rw [Finset.card_eq_one]
  exact ⟨π.symm r, by ext q; simp [Equiv.eq_symm_apply]⟩

theorem residual_moved (hN : N ≠ 0) {π : Equiv.Perm (Fin N)} {x y x' y' : Col N} (h : Moved π x x') (h' : Moved π y y') :
    Moved π (residual x y) (residual x' y') := by
  obtain ⟨z, hz, hx⟩ := h
  obtain ⟨w, hw, hy⟩ := h'
  exact ⟨_, Pairwise.residual_sign hN hz hw, Pairwise.residual_rows one_ne_zero (perm_card π) hx hy⟩

theorem mi_moved (hN : N ≠ 0) {π : Equiv.Perm (Fin N)} {x y x' y' : Col N} (h : Moved π x x') (h' : Moved π y y') : mi x' y' = mi x y := by
  obtain ⟨_, ⟨s, hs, rfl⟩, rfl⟩ := h
  obtain ⟨_, ⟨t, ht, rfl⟩, rfl⟩ := h'
  cases x with
  | none => rfl
  | some x =>
    cases y with
    | none => rfl
    | some y =>
      simp only [Option.map_some, mi, Option.some.injEq]
      exact KernelMi.C166_invariant (Nat.pos_of_ne_zero hN) (KernelMi.C166_parameters N).1 _ x y π s 0 t 0 hs ht

theorem scale_moved (hN : N ≠ 0) (π : Equiv.Perm (Fin N)) {c : ℝ} (hc : c ≠ 0) (a : ℝ) (x : Fin N → ℝ) :
    Moved π (some (scale x)) (some (scale (fun r => c * x (π r) + a))) := by
  have e1 : mean (fun r => c * x (π r) + a) = c * mean x + a := by
    rw [← Pairwise.mean_aff hN c a x]
    exact Pairwise.mean_rows one_ne_zero (perm_card π) (aff c a x)
  have e2 : var (fun r => c * x (π r) + a) = c ^ 2 * var x := by
    rw [← Pairwise.var_aff hN c a x]
    exact Pairwise.var_rows one_ne_zero (perm_card π) (aff c a x)
  refine ⟨_, ⟨c / |c|, ?_, rfl⟩, ?_⟩
  · rcases lt_or_gt_of_ne hc with h | h
    · right; rw [abs_of_neg h, div_neg, div_self hc]
    · left; rw [abs_of_pos h, div_self hc]
  · simp only [Option.map_some, Rows, Option.some.injEq]
    funext r
    unfold scale aff
    rw [e1, e2]
    have hac : |c| ≠ 0 := abs_ne_zero.2 hc
    by_cases hv : var x = 0
    · have hx := Pairwise.var_eq_zero hN hv (π r)
      rw [if_pos hv, if_pos (by rw [hv, mul_zero])]
      beta_reduce
      rw [hx]
      ring
    · have hsv : √(var x) ≠ 0 := (Real.sqrt_pos.2 (lt_of_le_of_ne (Pairwise.var_nonneg x) (Ne.symm hv))).ne'
      rw [if_neg hv, if_neg (by simp [hc, hv]), Real.sqrt_mul (sq_nonneg c), Real.sqrt_sq_eq_abs]
      field_simp
      ring

/-- **C240.** Units, origins and signs of the columns and the order of the rows do not influence the causal order (or the exception), whatever
the prior knowledge. -/
theorem C240_invariant (cfg : Direct.Config) (n : Nat) (X : Nat → Fin N → ℝ) {c a : Nat → ℝ} (hc : ∀ j, j < n → c j ≠ 0) (π : Equiv.Perm (Fin N)) :
    fitOrder cfg n (fun j r => c j * X j (π r) + a j) = fitOrder cfg n X := by
  by_cases hN : N = 0
  · subst hN
    congr 1
    funext j r
    exact r.elim0
  · have key : ∀ po, loop cfg n (fun j => some (scale (fun r => c j * X j (π r) + a j))) [] (List.range n) po =
        loop cfg n (fun j => some (scale (X j))) [] (List.range n) po := fun po =>
      loop_congr (Moved π) (fun _ _ _ _ h h' => mi_moved hN h h') (fun _ _ _ _ h h' => residual_moved hN h h') n _ _ _ _ _
        fun i hi => scale_moved hN π (hc i (List.mem_range.1 hi)) _ _
    unfold fitOrder
    simp only [key]

/-! ### The order -/

theorem sumNan_some (l : List Nat) (f : Nat → ℝ) : sumNan (l.map (fun i => some (f i))) = some ((l.map f).sum) := by
  induction l with
  | nil => rfl
  | cons a l ih => simp only [List.map_cons, sumNan, ih, Option.map_some, List.sum_cons]

theorem sumNan_none {l : List (Option ℝ)} (h : none ∈ l) : sumNan l = none := by
  induction l with
  | nil => cases h
  | cons a l ih =>
    cases a with
    | none => rfl
    | some a =>
      have : none ∈ l := by simpa using h
      simp [sumNan, ih this]

theorem mi_eq (hN : N ≠ 0) (x y : Fin N → ℝ) : mi (some x) (some y) = some (dependence x y) := by
  have h := KernelMi.C166_parameters N
  simp only [mi, Option.some.injEq]
  rw [KernelMi.C166_value_partial (Nat.pos_of_ne_zero hN) h.1]
  unfold dependence KernelMi.params
  split_ifs <;> rfl

theorem residual_eq (hN : N ≠ 0) {x : Fin N → ℝ} (h : 0 < var x) (y : Fin N → ℝ) : residual (some y) (some x) = some (slopeResidual y x) := by
  have hN' : (N : ℝ) ≠ 0 := by exact_mod_cast hN
  simp only [Pairwise.residual, h.ne', if_false, Option.some.injEq]
  funext r
  have e : cov y x / var x = (∑ q, (y q - sampleMean y) * (x q - sampleMean x)) / (∑ q, (x q - sampleMean x) ^ 2) := by
    show ((∑ q, (y q - sampleMean y) * (x q - sampleMean x)) / N) / ((∑ q, (x q - sampleMean x) ^ 2) / N) = _
    rw [div_div_div_cancel_right₀ hN']
  unfold slopeResidual
  rw [e]

theorem tkernel_eq {U : List Nat} (hnd : U.Nodup) {x : Nat → Fin N → ℝ} (h : Indep U x) {X : Nat → Col N} (hX : ∀ i ∈ U, X i = some (x i)) (Uc : List Nat) {j : Nat}
    (hj : j ∈ U) : tkernel X U Uc [] j = some (evidence x U j) := by
  have hN := Pairwise.indep_ne h hj
  unfold tkernel evidence
  rw [← sumNan_some]
  congr 1
  refine List.map_congr_left fun i hi => ?_
  rw [if_neg (by simp), hX j hj, hX i (List.mem_filter.1 hi).1, residual_eq hN (Pairwise.indep_var hnd h hj), mi_eq hN]

/-- With independent columns no test raises an exception. -/
theorem tkernel_isSome {U : List Nat} (hnd : U.Nodup) {x : Nat → Fin N → ℝ} (h : Indep U x) {X : Nat → Col N} (hX : ∀ i ∈ U, X i = some (x i)) (Uc Vj : List Nat)
    {j : Nat} (hj : j ∈ U) : (tkernel X U Uc Vj j).isSome := by
  have hN := Pairwise.indep_ne h hj
  have : ∀ i ∈ U.filter (fun i => decide (i ≠ j)), mi (X j) (if j ∈ Vj ∧ i ∈ Uc then X i else residual (X i) (X j)) =
      some (dependence (x j) (if j ∈ Vj ∧ i ∈ Uc then x i else slopeResidual (x i) (x j))) := by
    intro i hi
    rw [hX j hj, hX i (List.mem_filter.1 hi).1, residual_eq hN (Pairwise.indep_var hnd h hj)]
    split_ifs <;> exact mi_eq hN _ _
  unfold tkernel
  rw [List.map_congr_left this, sumNan_some]
  rfl

theorem indep_residuals {U : List Nat} (hnd : U.Nodup) {x : Nat → Fin N → ℝ} (h : Indep U x) {m : Nat} (hm : m ∈ U) :
    Indep (U.filter (fun i => decide (i ≠ m))) (fun i => slopeResidual (x i) (x m)) :=
  Pairwise.indep_rest hnd h hm fun _ _ _ => ⟨_, fun _ => rfl⟩

theorem removed_eq {U : List Nat} (hnd : U.Nodup) {x : Nat → Fin N → ℝ} (h : Indep U x) {X : Nat → Col N} (hX : ∀ i ∈ U, X i = some (x i)) {m : Nat} (hm : m ∈ U) :
    ∀ i ∈ U.filter (fun i => decide (i ≠ m)), removeEffect X U m i = some (slopeResidual (x i) (x m)) := by
  intro i hi
  have hi' := List.mem_filter.1 hi
  have him : i ≠ m := by simpa using hi'.2
  unfold removeEffect
  rw [if_pos ⟨hi'.1, him⟩, hX i hi'.1, hX m hm, residual_eq (Pairwise.indep_ne h hm) (Pairwise.indep_var hnd h hm)]

theorem length_rest {U : List Nat} (hnd : U.Nodup) {m r : Nat} (hm : m ∈ U) (hl : U.length = r + 1) : (U.filter (fun i => decide (i ≠ m))).length = r := by
  have e : U.filter (fun i => decide (i ≠ m)) = U.erase m := by
    rw [hnd.erase_eq_filter]
    refine List.filter_congr fun i _ => ?_
    by_cases h : i = m <;> simp [h]
  rw [e, List.length_erase_of_mem hm, hl]
  rfl

theorem search_not_svd {cfg : Direct.Config} {po : List (Nat × Nat)} {U : List Nat} (hnd : U.Nodup) {x : Nat → Fin N → ℝ} (h : Indep U x) {X : Nat → Col N}
    (hX : ∀ i ∈ U, X i = some (x i)) : search cfg po X U ≠ .error .svd := by
  unfold search
  have hs := Pairwise.candidates_sub cfg po U
  generalize Direct.searchCandidate cfg po U = q at hs ⊢
  obtain ⟨Uc, Vj⟩ := q
  simp only at hs ⊢
  have ha : Uc.all (fun j => (tkernel X U Uc Vj j).isSome) = true := List.all_eq_true.2 fun j hj => tkernel_isSome hnd h hX Uc Vj (hs j hj)
  match Uc, ha with
  | [], _ => simp [pick]
  | [c], _ => simp
  | c :: c' :: cs, ha => simp only [ha, if_true, pick]; simp

theorem loop_not_svd {cfg : Direct.Config} : ∀ (r : Nat) (x : Nat → Fin N → ℝ) (X : Nat → Col N) (K U : List Nat) (po : List (Nat × Nat)), U.Nodup → Indep U x →
    (∀ i ∈ U, X i = some (x i)) → loop cfg r X K U po ≠ .error .svd
  | 0, _, _, _, _, _, _, _, _ => by simp [loop]
  | r + 1, x, X, K, U, po, hnd, h, hX => by
    unfold loop
    cases hs : search cfg po X U with
    | error e =>
      intro hc
      apply search_not_svd (po := po) (cfg := cfg) hnd h hX
      rw [hs]
      simpa using hc
    | ok m =>
      have hm := search_mem hs
      exact loop_not_svd r _ _ _ _ _ (hnd.filter _) (indep_residuals hnd h hm) (removed_eq hnd h hX hm)

theorem search_least {cfg : Direct.Config} (hpk : cfg.pk = none) {po : List (Nat × Nat)} {U : List Nat} (hne : U ≠ []) (hnd : U.Nodup) {x : Nat → Fin N → ℝ}
    (h : Indep U x) {X : Nat → Col N} (hX : ∀ i ∈ U, X i = some (x i)) :
    ∃ m, search cfg po X U = .ok m ∧ m ∈ U ∧ ∀ i ∈ U, evidence x U m ≤ evidence x U i := by
  have ht := fun j (hj : j ∈ U) => tkernel_eq hnd h hX U hj
  have hall : U.all (fun j => (tkernel X U U [] j).isSome) = true := List.all_eq_true.2 fun j hj => by rw [ht j hj]; rfl
  have hex : ∃ m, search cfg po X U = .ok m ∧ ∀ i ∈ U, evidence x U m ≤ evidence x U i := by
    unfold search Direct.searchCandidate
    rw [hpk]
    simp only
    match U, hne, ht, hall with
    | [c], _, _, _ => exact ⟨c, rfl, by simp⟩
    | c :: c' :: cs, _, ht, hall =>
      simp only [hall, if_true, pick]
      exact ⟨_, rfl, Pairwise.pickGo_least _ _ fun i hi => by rw [ht i hi]; rfl⟩
  obtain ⟨m, hm, hb⟩ := hex
  exact ⟨m, hm, search_mem hm, hb⟩

theorem loop_order {cfg : Direct.Config} (hpk : cfg.pk = none) : ∀ (r : Nat) (x : Nat → Fin N → ℝ) (X : Nat → Col N) (K U : List Nat) (po : List (Nat × Nat)),
    U.length = r → U.Nodup → Indep U x → (∀ i ∈ U, X i = some (x i)) → ∃ l, loop cfg r X K U po = .ok (K ++ l) ∧ l.Perm U ∧ KernelOrder x U l
  | 0, x, X, K, U, po, hl, _, _, _ => by
    have : U = [] := List.length_eq_zero_iff.1 hl
    subst this
    exact ⟨[], by simp [loop], .refl _, .nil x⟩
  | r + 1, x, X, K, U, po, hl, hnd, h, hX => by
    obtain ⟨m, hs, hm, hb⟩ := search_least (po := po) hpk (by rintro rfl; simp at hl) hnd h hX
    unfold loop
    rw [hs]
    simp only
    obtain ⟨l, h1, h2, h3⟩ := loop_order hpk r _ _ (K ++ [m]) _ (if cfg.pk.isSome && !cfg.soft then po.filter (fun p => decide (p.1 ≠ m)) else po)
      (length_rest hnd hm hl) (hnd.filter _) (indep_residuals hnd h hm) (removed_eq hnd h hX hm)
    refine ⟨m :: l, by rw [h1]; simp, ?_, .cons hm hb h3⟩
    have e : U.filter (fun i => decide (i ≠ m)) = U.erase m := by
      rw [hnd.erase_eq_filter]
      refine List.filter_congr fun i _ => ?_
      by_cases h : i = m <;> simp [h]
    rw [e] at h2
    exact (h2.cons m).trans (List.perm_cons_erase hm).symm

theorem scale_eq {x : Fin N → ℝ} (h : 0 < var x) : scale x = zscore x := by
  funext r
  unfold scale
  rw [if_neg h.ne']
  rfl

theorem indep_zscore {n : Nat} {X : Nat → Fin N → ℝ} (h : Identified n X) : Indep (List.range n) (fun j => zscore (X j)) := by
  have hI := Pairwise.indep_range h
  have hv := fun j (hj : j ∈ List.range n) => Pairwise.indep_var List.nodup_range hI hj
  intro b b0 h0 j hj
  have hs : ∀ i ∈ List.range n, √(var (X i)) ≠ 0 := fun i hi => (Real.sqrt_pos.2 (hv i hi)).ne'
  have := hI (fun i => b i / √(var (X i))) (b0 - ((List.range n).map (fun i => b i / √(var (X i)) * mean (X i))).sum) (fun r => by
    rw [← h0 r, sub_add, sub_eq_add_neg]
    congr 1
    have e : ∀ l : List Nat, -((l.map (fun i => b i / √(var (X i)) * mean (X i))).sum - (l.map (fun i => b i / √(var (X i)) * X i r)).sum) =
        (l.map (fun i => b i * zscore (X i) r)).sum := by
      intro l
      induction l with
      | nil => simp
      | cons k l ih =>
        simp only [List.map_cons, List.sum_cons]
        rw [← ih, Pairwise.zscore_eq]
        ring
    exact e _) j hj
  exact (div_eq_zero_iff.1 this).resolve_right (hs j hj)

/-- **C240.** If no column is a combination of the others and a constant, `measure='kernel'` gives a complete order, in which every variable has
the least evidence against it among those that remain. -/
theorem C240_order {cfg : Direct.Config} (hpk : cfg.pk = none) {n : Nat} {X : Nat → Fin N → ℝ} (h : Identified n X) :
    ∃ o, fitOrder cfg n X = .ok o ∧ o.Perm (List.range n) ∧ KernelOrder (fun j => zscore (X j)) (List.range n) o := by
  have hv := fun j (hj : j ∈ List.range n) => Pairwise.indep_var List.nodup_range (Pairwise.indep_range h) hj
  obtain ⟨l, h1, h2, h3⟩ := loop_order hpk n (fun j => zscore (X j)) (fun j => some (scale (X j))) [] (List.range n) [] List.length_range List.nodup_range
    (indep_zscore h) fun i hi => by rw [scale_eq (hv i hi)]
  refine ⟨l, ?_, h2, h3⟩
  unfold fitOrder
  rw [hpk]
  simpa using h1

/-- **C240.** For such data no exception of the linear algebra is raised, whatever the prior knowledge. -/
theorem C240_no_exception (cfg : Direct.Config) {n : Nat} {X : Nat → Fin N → ℝ} (h : Identified n X) : fitOrder cfg n X ≠ .error .svd := by
  have hv := fun j (hj : j ∈ List.range n) => Pairwise.indep_var List.nodup_range (Pairwise.indep_range h) hj
  have key : ∀ po, loop cfg n (fun j => some (scale (X j))) [] (List.range n) po ≠ .error .svd := fun po =>
    loop_not_svd n (fun j => zscore (X j)) _ _ _ _ List.nodup_range (indep_zscore h) fun i hi => by rw [scale_eq (hv i hi)]
  unfold fitOrder
  cases hpk : cfg.pk with
  | none => exact key _
  | some pk =>
    simp only
    split_ifs
    · exact key _
    · cases Direct.extractPartialOrders n pk with
      | error e => simp
      | ok po => exact key _

/-- **C240.** A constant column raises an exception (the default measure accepts it). -/
theorem C240_constant {cfg : Direct.Config} (hpk : cfg.pk = none) {n : Nat} (hn : 2 ≤ n) {X : Nat → Fin N → ℝ} {k : Nat} (hk : k < n) {v : ℝ} (hX : ∀ r, X k r = v) :
    fitOrder cfg n X = .error .svd ∧ ∃ o, Pairwise.fitOrder cfg n X = .ok o := by
  refine ⟨?_, Pairwise.C144_found hpk n X⟩
  have hmean : ∀ r, X k r - mean (X k) = 0 := by
    intro r
    have hN : N ≠ 0 := by rintro rfl; exact r.elim0
    rw [show X k = fun _ => v from funext hX, Pairwise.mean_const hN]
    ring
  have hsc : scale (X k) = fun _ => 0 := by
    funext r
    unfold scale
    rw [hmean r, zero_div]
  have hv : var (scale (X k)) = 0 := by
    rw [hsc]
    simp [var, mean]
  have ht : tkernel (fun j => some (scale (X j))) (List.range n) (List.range n) [] k = none := by
    apply sumNan_none
    obtain ⟨i, hi, hik⟩ : ∃ i, i < n ∧ i ≠ k := ⟨if k = 0 then 1 else 0, by split_ifs <;> omega, by split_ifs <;> omega⟩
    refine List.mem_map.2 ⟨i, List.mem_filter.2 ⟨List.mem_range.2 hi, by simpa using hik⟩, ?_⟩
    rw [if_neg (by simp)]
    simp only [Pairwise.residual, hv, if_true]
    rfl
  have hs : search cfg [] (fun j => some (scale (X j))) (List.range n) = .error .svd := by
    unfold search Direct.searchCandidate
    rw [hpk]
    simp only
    have hall : ¬ (List.range n).all (fun j => (tkernel (fun j => some (scale (X j))) (List.range n) (List.range n) [] j).isSome) = true := by
      intro hc
      have := List.all_eq_true.1 hc k (List.mem_range.2 hk)
      rw [ht] at this
      cases this
    have hlen : (List.range n).length = n := List.length_range
    split
    · rename_i c hc
      rw [hc] at hlen
      simp at hlen
      omega
    · exact if_neg hall
  unfold fitOrder
  rw [hpk]
  simp only
  obtain ⟨n', rfl⟩ : ∃ n', n = n' + 1 := ⟨n - 1, by omega⟩
  unfold loop
  rw [hs]

/-- The hypotheses for the sum of two throws of a coin, and with a third column that is constant. -/
example : (∃ o, fitOrder {} 2 Pairwise.coins = .ok o ∧ o.Perm (List.range 2) ∧ KernelOrder (fun j => zscore (Pairwise.coins j)) (List.range 2) o) ∧
    fitOrder {} 3 (fun j r => if j = 2 then 5 else Pairwise.coins j r) = .error .svd :=
  ⟨C240_order rfl Pairwise.coins_identified, (C240_constant (k := 2) (v := 5) rfl (by norm_num) (by norm_num) fun _ => rfl).1⟩

end Verif.KernelSearch
