import Verif.Model.Pairwise
import Verif.Spec.Pairwise
import Verif.Proofs.Score
import Mathlib.Algebra.BigOperators.Field
import Mathlib.Tactic.FieldSimp
import Mathlib.Tactic.Linarith
import Mathlib.Tactic.Positivity
import Mathlib.Data.List.Perm.Basic

set_option autoImplicit false
set_option linter.unusedSectionVars false
namespace Verif.Pairwise

variable {N M : Nat}

/-! ### Means -/

theorem mean_smul (c : ℝ) (x : Fin N → ℝ) : mean (fun r => c * x r) = c * mean x := by
  simp [mean, ← Finset.mul_sum, mul_div_assoc]

theorem mean_add (x y : Fin N → ℝ) : mean (fun r => x r + y r) = mean x + mean y := by
  simp [mean, Finset.sum_add_distrib, add_div]

theorem mean_const (hN : N ≠ 0) (a : ℝ) : mean (fun _ : Fin N => a) = a := by
  have : (N : ℝ) ≠ 0 := by exact_mod_cast hN
  simp [mean]; field_simp

/-- The affine image of a column. -/
def aff (c a : ℝ) (x : Fin N → ℝ) : Fin N → ℝ := fun r => c * x r + a

theorem mean_aff (hN : N ≠ 0) (c a : ℝ) (x : Fin N → ℝ) : mean (aff c a x) = c * mean x + a := by
  unfold aff
  rw [mean_add, mean_smul, mean_const hN]

theorem var_aff (hN : N ≠ 0) (c a : ℝ) (x : Fin N → ℝ) : var (aff c a x) = c ^ 2 * var x := by
  unfold var
  rw [mean_aff hN, ← mean_smul (c ^ 2)]
  congr 1; funext r; unfold aff; ring

theorem cov_aff (hN : N ≠ 0) (c a : ℝ) (x : Fin N → ℝ) (c' a' : ℝ) (y : Fin N → ℝ) :
    cov (aff c a x) (aff c' a' y) = c * c' * cov x y := by
  unfold cov
  rw [mean_aff hN, mean_aff hN, ← mean_smul (c * c')]
  congr 1; funext r; unfold aff; ring

theorem var_nonneg (x : Fin N → ℝ) : 0 ≤ var x := by
  unfold var mean
  exact div_nonneg (Finset.sum_nonneg fun r _ => sq_nonneg _) (Nat.cast_nonneg N)

/-! ### Columns that differ by units, origin and sign -/

/-- The same column in other units. -/
def Same (x y : Col N) : Prop := ∃ c a, c ≠ 0 ∧ y = x.map (aff c a)

/-- The same column up to sign. -/
def Sign (x y : Col N) : Prop := ∃ s : ℝ, (s = 1 ∨ s = -1) ∧ y = x.map (aff s 0)

theorem entropy_sign {s : ℝ} (hs : s = 1 ∨ s = -1) (u : Fin N → ℝ) : entropy (aff s 0 u) = entropy u := by
  rcases hs with rfl | rfl
  · congr 1; funext r; simp [aff]
  · have h1 : (fun r => Real.log (Real.cosh (aff (-1) 0 u r))) = fun r => Real.log (Real.cosh (u r)) := by
      funext r; unfold aff; rw [show -1 * u r + 0 = -u r by ring, Real.cosh_neg]
    have h2 : (fun r => aff (-1) 0 u r * Real.exp (-(aff (-1) 0 u r) ^ 2 / 2)) =
        fun r => -1 * (u r * Real.exp (-(u r) ^ 2 / 2)) := by
      funext r
      have e : aff (-1) 0 u r = -u r := by unfold aff; ring
      rw [e, neg_sq]; ring
    unfold entropy
    rw [h1, h2, mean_smul]
    ring

theorem var_sign (hN : N ≠ 0) {s : ℝ} (hs : s = 1 ∨ s = -1) (x : Fin N → ℝ) : var (aff s 0 x) = var x := by
  rw [var_aff hN]; rcases hs with rfl | rfl <;> ring

theorem standardize_same (hN : N ≠ 0) {x y : Col N} (h : Same x y) : Sign (standardize x) (standardize y) := by
  obtain ⟨c, a, hc, rfl⟩ := h
  cases x with
  | none => exact ⟨1, .inl rfl, rfl⟩
  | some x =>
    simp only [Option.map_some, standardize]
    rw [var_aff hN]
    have hiff : c ^ 2 * var x = 0 ↔ var x = 0 := by simp [hc]
    by_cases hv : var x = 0
    · rw [if_pos hv, if_pos (hiff.2 hv)]; exact ⟨1, .inl rfl, rfl⟩
    · rw [if_neg hv, if_neg (fun h => hv (hiff.1 h))]
      refine ⟨c / |c|, ?_, ?_⟩
      · rcases lt_or_gt_of_ne hc with h | h
        · right; rw [abs_of_neg h, div_neg, div_self hc]
        · left; rw [abs_of_pos h, div_self hc]
      · simp only [Option.map_some, Option.some.injEq]
        funext r
        have hac : |c| ≠ 0 := abs_ne_zero.2 hc
        have hsv : √(var x) ≠ 0 := (Real.sqrt_pos.2 (lt_of_le_of_ne (var_nonneg x) (Ne.symm hv))).ne'
        rw [mean_aff hN, Real.sqrt_mul (sq_nonneg c), Real.sqrt_sq_eq_abs]
        unfold aff
        field_simp
        ring

theorem residual_sign (hN : N ≠ 0) {x y x' y' : Col N} (h : Sign x x') (h' : Sign y y') : Sign (residual x y) (residual x' y') := by
  obtain ⟨s, hs, rfl⟩ := h
  obtain ⟨t, ht, rfl⟩ := h'
  refine ⟨s, hs, ?_⟩
  cases x with
  | none => rfl
  | some x =>
    cases y with
    | none => rfl
    | some y =>
      simp only [Option.map_some, residual]
      rw [var_sign hN ht, cov_aff hN]
      by_cases hv : var y = 0
      · rw [if_pos hv, if_pos hv]; rfl
      · rw [if_neg hv, if_neg hv]
        simp only [Option.map_some, Option.some.injEq]
        funext r
        unfold aff
        rcases ht with rfl | rfl <;> field_simp <;> ring

theorem residual_same (hN : N ≠ 0) {x y x' y' : Col N} (h : Same x x') (h' : Same y y') : Same (residual x y) (residual x' y') := by
  obtain ⟨c, a, hc, rfl⟩ := h
  obtain ⟨c', a', hc', rfl⟩ := h'
  cases x with
  | none => exact ⟨1, 0, one_ne_zero, rfl⟩
  | some x =>
    cases y with
    | none => exact ⟨1, 0, one_ne_zero, rfl⟩
    | some y =>
      simp only [Option.map_some, residual]
      rw [var_aff hN, cov_aff hN]
      have hiff : c' ^ 2 * var y = 0 ↔ var y = 0 := by simp [hc']
      by_cases hv : var y = 0
      · rw [if_pos hv, if_pos (hiff.2 hv)]; exact ⟨1, 0, one_ne_zero, rfl⟩
      · rw [if_neg hv, if_neg (fun h => hv (hiff.1 h))]
        refine ⟨c, a - c * c' * cov x y / (c' ^ 2 * var y) * a', hc, ?_⟩
        simp only [Option.map_some, Option.some.injEq]
        funext r
        unfold aff
        field_simp
        ring

theorem entropy_map_sign {x y : Col N} (h : Sign x y) : y.map entropy = x.map entropy := by
  obtain ⟨s, hs, rfl⟩ := h
  cases x with
  | none => rfl
  | some x => simp [entropy_sign hs]

theorem scaledEntropy_sign (hN : N ≠ 0) {x y : Col N} (h : Sign x y) : scaledEntropy y = scaledEntropy x := by
  obtain ⟨s, hs, rfl⟩ := h
  cases x with
  | none => rfl
  | some x =>
    simp only [Option.map_some, scaledEntropy]
    rw [var_sign hN hs]
    by_cases hv : var x = 0
    · rw [if_pos hv, if_pos hv]
    · rw [if_neg hv, if_neg hv]
      congr 1
      rw [← entropy_sign hs (fun r => x r / √(var x))]
      congr 1
      funext r
      unfold aff
      ring

theorem pairDiff_same (hN : N ≠ 0) {X X' : Nat → Col N} {Uc Vj : List Nat} {i j : Nat} (hi : Same (X i) (X' i)) (hj : Same (X j) (X' j)) :
    pairDiff X' Uc Vj i j = pairDiff X Uc Vj i j := by
  have si := standardize_same hN hi
  have sj := standardize_same hN hj
  unfold pairDiff diffMutualInfo
  simp only
  rw [entropy_map_sign si, entropy_map_sign sj]
  have e1 : scaledEntropy (if i ∈ Vj ∧ j ∈ Uc then standardize (X' i) else residual (standardize (X' i)) (standardize (X' j))) =
      scaledEntropy (if i ∈ Vj ∧ j ∈ Uc then standardize (X i) else residual (standardize (X i)) (standardize (X j))) := by
    split_ifs
    · exact scaledEntropy_sign hN si
    · exact scaledEntropy_sign hN (residual_sign hN si sj)
  have e2 : scaledEntropy (if j ∈ Vj ∧ i ∈ Uc then standardize (X' j) else residual (standardize (X' j)) (standardize (X' i))) =
      scaledEntropy (if j ∈ Vj ∧ i ∈ Uc then standardize (X j) else residual (standardize (X j)) (standardize (X i))) := by
    split_ifs
    · exact scaledEntropy_sign hN sj
    · exact scaledEntropy_sign hN (residual_sign hN sj si)
  rw [e1, e2]

/-! ### The loop depends on the pairwise differences only -/

theorem statistic_congr {A : Nat} {X : Nat → Col N} {X' : Nat → Col A} {U Uc Vj : List Nat} {i : Nat}
    (h : ∀ j ∈ U, pairDiff X' Uc Vj i j = pairDiff X Uc Vj i j) : statistic X' U Uc Vj i = statistic X U Uc Vj i := by
  unfold statistic
  congr 1
  refine List.map_congr_left fun j hj => ?_
  rw [h j (List.mem_filter.1 hj).1]

theorem pickGo_congr {f g : Nat → Option ℝ} : ∀ {cs : List Nat} {b : Nat}, (∀ i ∈ b :: cs, f i = g i) → pickGo f b cs = pickGo g b cs
  | [], _, _ => rfl
  | c :: cs, b, h => by
    unfold pickGo
    rw [h b (by simp), h c (by simp)]
    cases g b with
    | none => rfl
    | some v =>
      cases g c with
      | none => rfl
      | some w =>
        simp only
        rw [pickGo_congr (cs := cs) (b := c) fun i hi => h i (by simp at hi ⊢; tauto),
          pickGo_congr (cs := cs) (b := b) fun i hi => h i (by simp at hi ⊢; tauto)]

theorem pick_congr {f g : Nat → Option ℝ} {l : List Nat} (h : ∀ i ∈ l, f i = g i) : pick f l = pick g l := by
  cases l with
  | nil => rfl
  | cons b cs => simp only [pick]; rw [pickGo_congr h]

theorem candidates_sub (cfg : Direct.Config) (po : List (Nat × Nat)) (U : List Nat) : ∀ i ∈ (Direct.searchCandidate cfg po U).1, i ∈ U := by
  intro i hi
  unfold Direct.searchCandidate at hi
  cases hpk : cfg.pk with
  | none => rw [hpk] at hi; exact hi
  | some pk =>
    rw [hpk] at hi
    simp only at hi
    split_ifs at hi
    · exact (List.mem_filter.1 hi).1
    · exact hi
    · exact (List.mem_filter.1 hi).1
    · exact (List.mem_filter.1 hi).1

theorem searchOrder_congr {A : Nat} {cfg : Direct.Config} {po : List (Nat × Nat)} {X : Nat → Col N} {X' : Nat → Col A} {U : List Nat}
    (h : ∀ i ∈ U, ∀ j ∈ U, ∀ Uc Vj, pairDiff X' Uc Vj i j = pairDiff X Uc Vj i j) : searchOrder cfg po X' U = searchOrder cfg po X U := by
  unfold searchOrder
  have hs := candidates_sub cfg po U
  generalize Direct.searchCandidate cfg po U = q at hs ⊢
  obtain ⟨Uc, Vj⟩ := q
  simp only at hs ⊢
  have hp : pick (fun i => (statistic X' U Uc Vj i).map (fun m => -1 * m)) Uc = pick (fun i => (statistic X U Uc Vj i).map (fun m => -1 * m)) Uc :=
    pick_congr fun i hi => by rw [statistic_congr fun j hj => h i (hs i hi) j hj Uc Vj]
  match Uc, hp with
  | [], hp => exact hp
  | [c], _ => rfl
  | c :: c' :: cs, hp => exact hp

theorem pickGo_mem (f : Nat → Option ℝ) : ∀ (cs : List Nat) (b : Nat), pickGo f b cs ∈ b :: cs
  | [], b => by simp [pickGo]
  | c :: cs, b => by
    unfold pickGo
    cases f b with
    | none => simp
    | some v =>
      cases f c with
      | none => simp
      | some w =>
        simp only
        split_ifs
        · have := pickGo_mem f cs c; simp at this ⊢; tauto
        · have := pickGo_mem f cs b; simp at this ⊢; tauto

theorem searchOrder_mem {cfg : Direct.Config} {po : List (Nat × Nat)} {X : Nat → Col N} {U : List Nat} {m : Nat}
    (h : searchOrder cfg po X U = some m) : m ∈ U := by
  unfold searchOrder at h
  have hs := candidates_sub cfg po U
  generalize Direct.searchCandidate cfg po U = q at h hs
  obtain ⟨Uc, Vj⟩ := q
  simp only at hs h
  match Uc, h, hs with
  | [], h, _ => simp [pick] at h
  | [c], h, hs =>
    simp only [Option.some.injEq] at h
    subst h; exact hs c (by simp)
  | c :: c' :: cs, h, hs =>
    simp only [pick, Option.some.injEq] at h
    rw [← h]
    exact hs _ (pickGo_mem _ _ _)

/-- Two runs on data related by a relation that fixes the differences and is kept by residuals agree. -/
theorem orderLoop_congr {A : Nat} {cfg : Direct.Config} (Rel : Col N → Col A → Prop)
    (hd : ∀ (X : Nat → Col N) (X' : Nat → Col A) i j Uc Vj, Rel (X i) (X' i) → Rel (X j) (X' j) → pairDiff X' Uc Vj i j = pairDiff X Uc Vj i j)
    (hr : ∀ x y x' y', Rel x x' → Rel y y' → Rel (residual x y) (residual x' y')) :
    ∀ (r : Nat) (X : Nat → Col N) (X' : Nat → Col A) (K U : List Nat) (po : List (Nat × Nat)), (∀ i ∈ U, Rel (X i) (X' i)) →
      orderLoop cfg r X' K U po = orderLoop cfg r X K U po
  | 0, _, _, _, _, _, _ => rfl
  | r + 1, X, X', K, U, po, h => by
    unfold orderLoop
    rw [searchOrder_congr fun i hi j hj Uc Vj => hd X X' i j Uc Vj (h i hi) (h j hj)]
    cases hm : searchOrder cfg po X U with
    | none => rfl
    | some m =>
      simp only
      apply orderLoop_congr Rel hd hr r
      intro i hi
      have hi := (List.mem_filter.1 hi).1
      unfold removeEffect
      by_cases hc : i ∈ U ∧ i ≠ m
      · rw [if_pos hc, if_pos hc]; exact hr _ _ _ _ (h i hi) (h m (searchOrder_mem hm))
      · rw [if_neg hc, if_neg hc]; exact h i hi

/-! ### Rows -/

/-- Every row is used the same number of times. -/
theorem mean_rows {A k : Nat} {f : Fin A → Fin N} (hk : k ≠ 0) (hf : ∀ r, (Finset.univ.filter (fun q => f q = r)).card = k)
    (x : Fin N → ℝ) : mean (fun q => x (f q)) = mean x := by
  have hA : A = k * N := by
    have := Finset.card_eq_sum_card_fiberwise (s := (Finset.univ : Finset (Fin A))) (t := (Finset.univ : Finset (Fin N))) (f := f) (by simp)
    simp only [hf, Finset.card_univ, Fintype.card_fin, Finset.sum_const, smul_eq_mul] at this
    rw [this, mul_comm]
  have hs : ∑ q, x (f q) = k * ∑ r, x r := by
    rw [← Finset.sum_fiberwise (s := Finset.univ) (g := f), Finset.mul_sum]
    refine Finset.sum_congr rfl fun r _ => ?_
    rw [Finset.sum_congr rfl (g := fun _ => x r) fun q hq => by rw [(Finset.mem_filter.1 hq).2]]
    rw [Finset.sum_const, hf r, nsmul_eq_mul]
  have hk' : (k : ℝ) ≠ 0 := by exact_mod_cast hk
  unfold mean
  rw [hs, hA, Nat.cast_mul, mul_div_mul_left _ _ hk']

section rows
variable {A k : Nat} {f : Fin A → Fin N} (hk : k ≠ 0) (hf : ∀ r, (Finset.univ.filter (fun q => f q = r)).card = k)
include hk hf

theorem var_rows (x : Fin N → ℝ) : var (fun q => x (f q)) = var x := by
  unfold var
  rw [mean_rows hk hf x]
  exact mean_rows hk hf (fun r => (x r - mean x) ^ 2)

theorem cov_rows (x y : Fin N → ℝ) : cov (fun q => x (f q)) (fun q => y (f q)) = cov x y := by
  unfold cov
  rw [mean_rows hk hf x, mean_rows hk hf y]
  exact mean_rows hk hf (fun r => (x r - mean x) * (y r - mean y))

theorem entropy_rows (x : Fin N → ℝ) : entropy (fun q => x (f q)) = entropy x := by
  unfold entropy
  rw [mean_rows hk hf (fun r => Real.log (Real.cosh (x r))), mean_rows hk hf (fun r => x r * Real.exp (-(x r) ^ 2 / 2))]

/-- Columns with the same rows. -/
def Rows (f : Fin A → Fin N) (x : Col N) (y : Col A) : Prop := y = x.map (fun x q => x (f q))

theorem residual_rows {x y : Col N} {x' y' : Col A} (h : Rows f x x') (h' : Rows f y y') : Rows f (residual x y) (residual x' y') := by
  unfold Rows at *
  subst h; subst h'
  cases x with
  | none => rfl
  | some x =>
    cases y with
    | none => rfl
    | some y =>
      simp only [Option.map_some, residual, var_rows hk hf, cov_rows hk hf]
      split_ifs <;> rfl

theorem standardize_rows {x : Col N} {x' : Col A} (h : Rows f x x') : Rows f (standardize x) (standardize x') := by
  unfold Rows at *
  subst h
  cases x with
  | none => rfl
  | some x =>
    simp only [Option.map_some, standardize, var_rows hk hf, mean_rows hk hf]
    split_ifs <;> rfl

theorem entropy_map_rows {x : Col N} {x' : Col A} (h : Rows f x x') : x'.map entropy = x.map entropy := by
  unfold Rows at *
  subst h
  cases x with
  | none => rfl
  | some x => simp only [Option.map_some, entropy_rows hk hf]

theorem scaledEntropy_rows {x : Col N} {x' : Col A} (h : Rows f x x') : scaledEntropy x' = scaledEntropy x := by
  unfold Rows at *
  subst h
  cases x with
  | none => rfl
  | some x =>
    simp only [Option.map_some, scaledEntropy, var_rows hk hf]
    rw [entropy_rows hk hf (fun r => x r / √(var x))]

theorem pairDiff_rows {X : Nat → Col N} {X' : Nat → Col A} {Uc Vj : List Nat} {i j i' j' : Nat} (hi : Rows f (X i) (X' i')) (hj : Rows f (X j) (X' j'))
    (hii : (i' ∈ Vj ∧ j' ∈ Uc) ↔ (i ∈ Vj ∧ j ∈ Uc)) (hjj : (j' ∈ Vj ∧ i' ∈ Uc) ↔ (j ∈ Vj ∧ i ∈ Uc)) :
    pairDiff X' Uc Vj i' j' = pairDiff X Uc Vj i j := by
  have si := standardize_rows hk hf hi
  have sj := standardize_rows hk hf hj
  unfold pairDiff diffMutualInfo
  simp only [hii, hjj]
  rw [entropy_map_rows hk hf si, entropy_map_rows hk hf sj]
  have e1 : scaledEntropy (if i ∈ Vj ∧ j ∈ Uc then standardize (X' i') else residual (standardize (X' i')) (standardize (X' j'))) =
      scaledEntropy (if i ∈ Vj ∧ j ∈ Uc then standardize (X i) else residual (standardize (X i)) (standardize (X j))) := by
    split_ifs
    · exact scaledEntropy_rows hk hf si
    · exact scaledEntropy_rows hk hf (residual_rows hk hf si sj)
  have e2 : scaledEntropy (if j ∈ Vj ∧ i ∈ Uc then standardize (X' j') else residual (standardize (X' j')) (standardize (X' i'))) =
      scaledEntropy (if j ∈ Vj ∧ i ∈ Uc then standardize (X j) else residual (standardize (X j)) (standardize (X i))) := by
    split_ifs
    · exact scaledEntropy_rows hk hf sj
    · exact scaledEntropy_rows hk hf (residual_rows hk hf sj si)
  rw [e1, e2]

end rows

/-! ### Columns in another order -/

theorem sumNan_perm {l l' : List (Option ℝ)} (h : l.Perm l') : sumNan l = sumNan l' := by
  induction h with
  | nil => rfl
  | cons x _ ih => cases x <;> simp [sumNan, ih]
  | swap x y l =>
    cases x <;> cases y <;> simp only [sumNan, Option.map_none, Option.map_map]
    · rename_i a b
      cases sumNan l with
      | none => rfl
      | some v => simp only [Option.map_some, Function.comp_apply, Option.some.injEq]; ring
  | trans _ _ h1 h2 => exact h1.trans h2

theorem pairDiff_columns (X : Nat → Col N) (π : Nat → Nat) (Uc Uc' : List Nat) (i j : Nat) :
    pairDiff (fun j => X (π j)) Uc' [] i j = pairDiff X Uc [] (π i) (π j) := by
  simp [pairDiff]

theorem pairDiff_congr_cols {X X' : Nat → Col N} {i j i' j' : Nat} (hi : X' i' = X i) (hj : X' j' = X j) (Uc Uc' : List Nat) :
    pairDiff X' Uc' [] i' j' = pairDiff X Uc [] i j := by
  simp [pairDiff, hi, hj]

theorem statistic_columns {X X' : Nat → Col N} {π : Nat → Nat} {U U' : List Nat} (hp : (U'.map π).Perm U)
    (hinj : ∀ i ∈ U', ∀ j ∈ U', π i = π j → i = j) (hX : ∀ i ∈ U', X' i = X (π i)) {i : Nat} (hi : i ∈ U') :
    statistic X' U' U' [] i = statistic X U U [] (π i) := by
  unfold statistic
  have h1 : (U.filter (fun j => decide (π i ≠ j))).Perm ((U'.filter (fun j => decide (i ≠ j))).map π) := by
    have h2 : (U'.filter (fun j => decide (i ≠ j))).map π = (U'.map π).filter (fun j => decide (π i ≠ j)) := by
      rw [List.filter_map]
      congr 1
      refine List.filter_congr fun j hj => ?_
      have : i ≠ j ↔ π i ≠ π j := ⟨fun h e => h (hinj i hi j hj e), fun h e => h (by rw [e])⟩
      simp only [Function.comp_apply, this]
    rw [h2]
    exact (hp.filter _).symm
  rw [sumNan_perm ((h1.map (fun j => (pairDiff X U [] (π i) j).map (fun d => (min 0 d) ^ 2)))), List.map_map]
  congr 1
  refine List.map_congr_left fun j hj => ?_
  have hj' := (List.mem_filter.1 hj).1
  simp only [Function.comp_apply]
  rw [pairDiff_congr_cols (hX i hi) (hX j hj') U U']

/-- Along the run there is always exactly one variable with the smallest statistic. -/
def Decisive : Nat → (Nat → Col N) → List Nat → Prop
  | 0, _, _ => True
  | r + 1, X, U => ∃ b ∈ U, (∃ v, statistic X U U [] b = some v ∧ ∀ j ∈ U, j ≠ b → ∃ w, statistic X U U [] j = some w ∧ v < w) ∧
      Decisive r (removeEffect X U b) (U.filter (fun i => decide (i ≠ b)))

theorem pickGo_unique {f : Nat → Option ℝ} {b : Nat} {v : ℝ} (hb : f b = some v) : ∀ (cs : List Nat) (a : Nat),
    (a = b ∨ b ∈ cs) → (∀ j ∈ a :: cs, j ≠ b → ∃ w, f j = some w ∧ w < v) → pickGo f a cs = b
  | [], a, h, _ => by simpa [pickGo] using h
  | c :: cs, a, h, hj => by
    have hall : ∀ j ∈ a :: c :: cs, ∃ w, f j = some w := by
      intro j hm
      by_cases e : j = b
      · exact ⟨v, e ▸ hb⟩
      · obtain ⟨w, h1, -⟩ := hj j hm e; exact ⟨w, h1⟩
    obtain ⟨va, ha⟩ := hall a (by simp)
    obtain ⟨vc, hc⟩ := hall c (by simp)
    unfold pickGo
    simp only [ha, hc]
    split_ifs with hlt
    · refine pickGo_unique hb cs c ?_ fun j hm => hj j (by simp at hm ⊢; tauto)
      rcases h with rfl | h
      · rw [hb] at ha
        have hva : v = va := by simpa using ha
        by_cases e : c = a
        · exact .inl e
        · obtain ⟨w, h1, h2⟩ := hj c (by simp) e
          rw [hc] at h1
          have : vc = w := by simpa using h1
          linarith
      · simp at h; tauto
    · refine pickGo_unique hb cs a ?_ fun j hm => hj j (by simp at hm ⊢; tauto)
      by_cases e : a = b
      · exact .inl e
      · right
        have hbc : b ∈ c :: cs := h.resolve_left e
        rcases List.mem_cons.1 hbc with rfl | h
        · obtain ⟨w, h1, h2⟩ := hj a (by simp) e
          rw [ha] at h1; rw [hb] at hc
          have : va = w := by simpa using h1
          have : v = vc := by simpa using hc
          exfalso; linarith
        · exact h

theorem searchOrder_unique {cfg : Direct.Config} (hpk : cfg.pk = none) {po : List (Nat × Nat)} {X : Nat → Col N} {U : List Nat} {b : Nat} {v : ℝ}
    (hb : b ∈ U) (hv : statistic X U U [] b = some v) (hj : ∀ j ∈ U, j ≠ b → ∃ w, statistic X U U [] j = some w ∧ v < w) :
    searchOrder cfg po X U = some b := by
  unfold searchOrder Direct.searchCandidate
  rw [hpk]
  simp only
  match U, hb, hv, hj with
  | [c], hb, _, _ => simp at hb; simp [hb]
  | c :: c' :: cs, hb, hv, hj =>
    simp only [pick, Option.some.injEq]
    refine pickGo_unique (v := -1 * v) (by rw [hv]; rfl) _ _ ?_ ?_
    · simp at hb ⊢; tauto
    · intro j hm hne
      obtain ⟨w, h1, h2⟩ := hj j hm hne
      exact ⟨-1 * w, by rw [h1]; rfl, by linarith⟩

theorem orderLoop_columns {cfg : Direct.Config} (hpk : cfg.pk = none) {π : Nat → Nat} :
    ∀ (r : Nat) (X X' : Nat → Col N) (K' U U' : List Nat) (po po' : List (Nat × Nat)), (U'.map π).Perm U → U.Nodup →
      (∀ i ∈ U', ∀ j ∈ U', π i = π j → i = j) → (∀ i ∈ U', X' i = X (π i)) → Decisive r X U →
      ∃ o, orderLoop cfg r X' K' U' po' = .ok o ∧ orderLoop cfg r X (K'.map π) U po = .ok (o.map π)
  | 0, _, _, K', _, _, _, _, _, _, _, _, _ => ⟨K', rfl, rfl⟩
  | r + 1, X, X', K', U, U', po, po', hp, hnd, hinj, hX, hdec => by
    obtain ⟨b, hb, ⟨v, hv, hj⟩, hrest⟩ := hdec
    obtain ⟨b', hb', rfl⟩ := List.mem_map.1 (hp.mem_iff.2 hb)
    have hmemU : ∀ i ∈ U', π i ∈ U := fun i hi => hp.mem_iff.1 (List.mem_map_of_mem hi)
    have s1 : searchOrder cfg po X U = some (π b') := searchOrder_unique hpk hb hv hj
    have s2 : searchOrder cfg po' X' U' = some b' := by
      refine searchOrder_unique hpk (v := v) hb' (by rw [statistic_columns hp hinj hX hb', hv]) fun j hjm hne => ?_
      rw [statistic_columns hp hinj hX hjm]
      exact hj (π j) (hmemU j hjm) fun e => hne (hinj j hjm b' hb' e)
    unfold orderLoop
    rw [s1, s2]
    simp only
    have hK : K'.map π ++ [π b'] = (K' ++ [b']).map π := by simp
    rw [hK]
    refine orderLoop_columns hpk r _ _ _ _ _ _ _ ?_ (hnd.filter _) ?_ ?_ hrest
    · have h2 : (U'.filter (fun j => decide (j ≠ b'))).map π = (U'.map π).filter (fun j => decide (j ≠ π b')) := by
        rw [List.filter_map]
        congr 1
        refine List.filter_congr fun j hj => ?_
        have : j ≠ b' ↔ π j ≠ π b' := ⟨fun h e => h (hinj j hj b' hb' e), fun h e => h (by rw [e])⟩
        simp only [Function.comp_apply, this]
      rw [h2]
      exact hp.filter _
    · intro i hi j hj
      exact hinj i (List.mem_filter.1 hi).1 j (List.mem_filter.1 hj).1
    · intro i hi
      obtain ⟨hi, hne⟩ := List.mem_filter.1 hi
      simp only [ne_eq, decide_not, Bool.not_eq_eq_eq_not, Bool.not_true, decide_eq_false_iff_not] at hne
      unfold removeEffect
      rw [if_pos ⟨hi, hne⟩, if_pos ⟨hmemU i hi, fun e => hne (hinj i hi b' hb' e)⟩, hX i hi, hX b' hb']

theorem pairDiff_swap (X : Nat → Col N) (Uc Vj : List Nat) (i j : Nat) : pairDiff X Uc Vj j i = (pairDiff X Uc Vj i j).map (fun d => -d) := by
  unfold pairDiff diffMutualInfo
  simp only
  cases (standardize (X i)).map entropy <;> cases (standardize (X j)).map entropy <;>
    cases scaledEntropy (if i ∈ Vj ∧ j ∈ Uc then standardize (X i) else residual (standardize (X i)) (standardize (X j))) <;>
    cases scaledEntropy (if j ∈ Vj ∧ i ∈ Uc then standardize (X j) else residual (standardize (X j)) (standardize (X i))) <;> simp

/-! ### The order lists every variable once -/

theorem orderLoop_perm {cfg : Direct.Config} : ∀ (r : Nat) (X : Nat → Col N) (K U : List Nat) (po : List (Nat × Nat)) (o : List Nat),
    U.Nodup → U.length = r → orderLoop cfg r X K U po = .ok o → o.Perm (K ++ U)
  | 0, _, K, U, _, o, _, hl, h => by
    have : U = [] := List.length_eq_zero_iff.1 hl
    subst this
    simp only [orderLoop, Except.ok.injEq] at h
    simp [h]
  | r + 1, X, K, U, po, o, hnd, hl, h => by
    unfold orderLoop at h
    cases hm : searchOrder cfg po X U with
    | none => simp [hm] at h
    | some m =>
      simp only [hm] at h
      have hmU := searchOrder_mem hm
      have he : U.filter (fun i => decide (i ≠ m)) = U.erase m := by
        rw [hnd.erase_eq_filter]
        refine List.filter_congr fun i _ => ?_
        simp [bne, BEq.beq]
      have hp := orderLoop_perm r _ _ _ _ o (hnd.filter _) (by rw [he, List.length_erase_of_mem hmU, hl]; rfl) h
      rw [he, List.append_assoc] at hp
      exact hp.trans (List.Perm.append_left K (List.perm_cons_erase hmU).symm)

theorem fitOrder_perm {cfg : Direct.Config} {n : Nat} {X : Nat → Fin N → ℝ} {o : List Nat} (h : fitOrder cfg n X = .ok o) : o.Perm (List.range n) := by
  have key : ∀ po, orderLoop cfg n (fun j => some (X j)) [] (List.range n) po = .ok o → o.Perm (List.range n) := fun po h => by
    simpa using orderLoop_perm n _ _ _ _ o List.nodup_range List.length_range h
  unfold fitOrder at h
  cases hpk : cfg.pk with
  | none => rw [hpk] at h; exact key _ h
  | some pk =>
    rw [hpk] at h
    simp only at h
    split_ifs at h
    · exact key _ h
    · cases hpo : Direct.extractPartialOrders n pk with
      | error e => rw [hpo] at h; simp at h
      | ok po => rw [hpo] at h; exact key _ h

/-! ### Conversion of the matrix -/

theorem predictors_sub {pk : Option Direct.PK} {before : List Nat} {t : Nat} : (Direct.predictors pk before t).Sublist before := by
  unfold Direct.predictors
  cases pk with
  | none => exact List.Sublist.refl _
  | some pk => exact List.filter_sublist

theorem estimateAdj_scale {pk : Option Direct.PK} {lasso lasso' : Direct.Lasso ℝ} {order : List Nat} {k : Nat → Nat → ℝ} (hnd : order.Nodup)
    (h : ∀ ps t p, ps.Nodup → (∀ q ∈ ps, q ∈ order) → t ∈ order → t ∉ ps → p ∈ ps → lasso' ps t p = lasso ps t p * k t p) (r c : Nat) :
    Direct.estimateAdj pk lasso' order r c = Direct.estimateAdj pk lasso order r c * k r c := by
  unfold Direct.estimateAdj
  suffices hs : ∀ (l : List Nat) (B B' : Nat → Nat → ℝ), (∀ r c, B' r c = B r c * k r c) →
      ∀ r c, l.foldl (Direct.adjIter pk lasso' order) B' r c = l.foldl (Direct.adjIter pk lasso order) B r c * k r c from
    hs _ _ _ (by simp) r c
  intro l
  induction l with
  | nil => intro B B' hB; exact hB
  | cons i l ih =>
    intro B B' hB
    simp only [List.foldl_cons]
    refine ih _ _ fun r c => ?_
    unfold Direct.adjIter
    cases ht : order[i]? with
    | none => exact hB r c
    | some t =>
      unfold Direct.adjStep
      simp only
      split_ifs with h0
      · exact hB r c
      · beta_reduce
        by_cases hc : r = t ∧ c ∈ Direct.predictors pk (order.take i) t
        · rw [if_pos hc, if_pos hc, hc.1]
          have hsub : (Direct.predictors pk (order.take i) t).Sublist order := predictors_sub.trans (List.take_sublist i order)
          obtain ⟨hi, hti⟩ := List.getElem?_eq_some_iff.1 ht
          refine h _ t c (hsub.nodup hnd) (fun q hq => hsub.subset hq) (hti ▸ List.getElem_mem hi) ?_ hc.2
          intro hmem
          have hmem := predictors_sub.subset hmem
          rw [List.mem_take_iff_getElem] at hmem
          obtain ⟨j, hj, hje⟩ := hmem
          have := (List.nodup_iff_injective_getElem.1 hnd) (a₁ := ⟨j, by omega⟩) (a₂ := ⟨i, hi⟩) (by simp only [hje, hti])
          simp only [Fin.mk.injEq] at this
          omega
        · rw [if_neg hc, if_neg hc]; exact hB r c

/-! ### Standardised pairs -/

theorem entropy_eq (z : Fin N → ℝ) : entropy z = approxEntropy z := by
  unfold entropy approxEntropy mean
  norm_num

theorem mean_zero {z : Fin N → ℝ} (h : ∑ r, z r = 0) : mean z = 0 := by simp [mean, h]

theorem var_standard (hN : N ≠ 0) {z : Fin N → ℝ} (h : IsStandard z) : var z = 1 := by
  have hN' : (N : ℝ) ≠ 0 := by exact_mod_cast hN
  unfold var
  rw [mean_zero h.1]
  simp only [sub_zero, mean, h.2, div_self hN']

theorem standardize_standard (hN : N ≠ 0) {z : Fin N → ℝ} (h : IsStandard z) : standardize (some z) = some z := by
  simp only [standardize, var_standard hN h, one_ne_zero, if_false, mean_zero h.1, Real.sqrt_one, sub_zero, div_one]

theorem residual_standard (hN : N ≠ 0) {z w : Fin N → ℝ} (hz : IsStandard z) (hw : IsStandard w) {ρ : ℝ} (hρ : N * ρ = ∑ r, z r * w r) :
    residual (some z) (some w) = some (fun r => z r - ρ * w r) := by
  have hN' : (N : ℝ) ≠ 0 := by exact_mod_cast hN
  have hc : cov z w = ρ := by
    unfold cov
    rw [mean_zero hz.1, mean_zero hw.1]
    simp only [sub_zero, mean, ← hρ]
    field_simp
  simp only [residual, var_standard hN hw, one_ne_zero, if_false, hc, div_one]

theorem var_residual (hN : N ≠ 0) {z w : Fin N → ℝ} (hz : IsStandard z) (hw : IsStandard w) {ρ : ℝ} (hρ : N * ρ = ∑ r, z r * w r) :
    var (fun r => z r - ρ * w r) = 1 - ρ ^ 2 := by
  have hN' : (N : ℝ) ≠ 0 := by exact_mod_cast hN
  have hm : mean (fun r => z r - ρ * w r) = 0 := by
    apply mean_zero
    rw [Finset.sum_sub_distrib, ← Finset.mul_sum, hz.1, hw.1, mul_zero, sub_zero]
  unfold var
  rw [hm]
  have e : ∀ r, (z r - ρ * w r - 0) ^ 2 = (z r) ^ 2 + (-2 * ρ) * (z r * w r) + ρ ^ 2 * (w r) ^ 2 := fun r => by ring
  simp only [mean, e, Finset.sum_add_distrib, ← Finset.mul_sum, hz.2, hw.2, ← hρ]
  field_simp
  ring

theorem pairDiff_standard (hN : N ≠ 0) {X : Nat → Col N} {i j : Nat} {z w : Fin N → ℝ} (hi : X i = some z) (hj : X j = some w)
    (hz : IsStandard z) (hw : IsStandard w) {ρ : ℝ} (hρ : N * ρ = ∑ r, z r * w r) (h1 : ρ ^ 2 < 1) (Uc : List Nat) :
    pairDiff X Uc [] i j = some (directionScore ρ z w) := by
  have hρ' : N * ρ = ∑ r, w r * z r := by rw [hρ]; exact Finset.sum_congr rfl fun r _ => mul_comm _ _
  have hv : (1 - ρ ^ 2) ≠ 0 := by linarith [h1] |> fun h : (0 : ℝ) < 1 - ρ ^ 2 => h.ne'
  unfold pairDiff
  simp only [hi, hj, standardize_standard hN hz, standardize_standard hN hw, List.not_mem_nil, false_and, if_false,
    residual_standard hN hz hw hρ, residual_standard hN hw hz hρ', diffMutualInfo, Option.map_some, scaledEntropy,
    var_residual hN hz hw hρ, var_residual hN hw hz hρ', hv, entropy_eq]
  rfl

/-! ### The order in terms of penalties -/

/-- The constant and the columns `U` are linearly independent. -/
def Indep (U : List Nat) (x : Nat → Fin N → ℝ) : Prop :=
  ∀ (b : Nat → ℝ) (b0 : ℝ), (∀ r, b0 + (U.map (fun j => b j * x j r)).sum = 0) → ∀ j ∈ U, b j = 0

theorem indep_range {n : Nat} {x : Nat → Fin N → ℝ} (h : Identified n x) : Indep (List.range n) x := by
  intro b b0 h0 j hj
  exact h b b0 h0 j (List.mem_range.1 hj)

theorem sum_split {U : List Nat} {m : Nat} (hnd : U.Nodup) (hm : m ∈ U) (f : Nat → ℝ) :
    (U.map f).sum = f m + ((U.filter (fun i => decide (i ≠ m))).map f).sum := by
  have e : U.filter (fun i => decide (i ≠ m)) = U.erase m := by
    rw [hnd.erase_eq_filter]
    refine List.filter_congr fun i _ => ?_
    by_cases h : i = m <;> simp [h]
  rw [e]
  exact (List.sum_map_erase f hm).symm

theorem sum_single {U : List Nat} {i : Nat} (hnd : U.Nodup) (hi : i ∈ U) (f : Nat → ℝ) :
    (U.map (fun j => if j = i then f j else 0)).sum = f i := by
  rw [sum_split hnd hi, if_pos rfl]
  have : ((U.filter (fun j => decide (j ≠ i))).map (fun j => if j = i then f j else 0)).sum = 0 := by
    apply List.sum_eq_zero
    intro v hv
    obtain ⟨j, hj, rfl⟩ := List.mem_map.1 hv
    have := (List.mem_filter.1 hj).2
    simp at this
    simp [this]
  rw [this, add_zero]

theorem indep_ne {U : List Nat} {x : Nat → Fin N → ℝ} (h : Indep U x) {i : Nat} (hi : i ∈ U) : N ≠ 0 := by
  rintro rfl
  have := h (fun _ => 1) 0 (fun r => r.elim0) i hi
  exact one_ne_zero this

theorem var_eq_zero (hN : N ≠ 0) {x : Fin N → ℝ} (h : var x = 0) (r : Fin N) : x r = mean x := by
  have hN' : (N : ℝ) ≠ 0 := by exact_mod_cast hN
  unfold var at h
  rw [mean, div_eq_zero_iff] at h
  have h0 := h.resolve_right hN'
  rw [Finset.sum_eq_zero_iff_of_nonneg (fun _ _ => sq_nonneg _)] at h0
  have := h0 r (Finset.mem_univ r)
  simp only [sq_eq_zero_iff] at this
  linarith

theorem indep_var {U : List Nat} (hnd : U.Nodup) {x : Nat → Fin N → ℝ} (h : Indep U x) {i : Nat} (hi : i ∈ U) : 0 < var (x i) := by
  refine lt_of_le_of_ne (var_nonneg _) fun e => ?_
  have hx := var_eq_zero (indep_ne h hi) e.symm
  have := h (fun j => if j = i then 1 else 0) (-mean (x i)) (fun r => by
    have := sum_single hnd hi (fun j => x j r)
    simp only [ite_mul, one_mul, zero_mul, this]
    rw [hx r]
    ring) i hi
  simp at this

theorem zscore_eq (x : Fin N → ℝ) (r : Fin N) : zscore x r = (x r - mean x) / √(var x) := rfl

theorem zscore_standard (hN : N ≠ 0) {x : Fin N → ℝ} (h : 0 < var x) : IsStandard (zscore x) := by
  have hN' : (N : ℝ) ≠ 0 := by exact_mod_cast hN
  constructor
  · simp only [zscore_eq, ← Finset.sum_div, Finset.sum_sub_distrib, Finset.sum_const, Finset.card_univ, Fintype.card_fin, nsmul_eq_mul]
    unfold mean
    field_simp
    simp
  · have e : ∀ r, (zscore x r) ^ 2 = (x r - mean x) ^ 2 / var x := fun r => by
      rw [zscore_eq, div_pow, Real.sq_sqrt h.le]
    simp only [e, ← Finset.sum_div]
    have hv : var x = (∑ r, (x r - mean x) ^ 2) / N := rfl
    rw [div_eq_iff h.ne', hv, mul_comm, div_mul_cancel₀ _ hN']

theorem zscore_same {x : Fin N → ℝ} (h : 0 < var x) : Same (some (zscore x)) (some x) := by
  have hs : √(var x) ≠ 0 := (Real.sqrt_pos.2 h).ne'
  refine ⟨√(var x), mean x, hs, ?_⟩
  simp only [Option.map_some, Option.some.injEq]
  funext r
  simp only [aff, zscore_eq]
  field_simp
  ring

theorem correlation_lt {U : List Nat} (hnd : U.Nodup) {x : Nat → Fin N → ℝ} (h : Indep U x) {i j : Nat} (hi : i ∈ U) (hj : j ∈ U) (hij : j ≠ i) :
    (correlation (x i) (x j)) ^ 2 < 1 := by
  have hN := indep_ne h hi
  have hN' : (N : ℝ) ≠ 0 := by exact_mod_cast hN
  have vi := indep_var hnd h hi
  have vj := indep_var hnd h hj
  have zi := zscore_standard hN vi
  have zj := zscore_standard hN vj
  have hρ : N * correlation (x i) (x j) = ∑ r, zscore (x i) r * zscore (x j) r := by
    unfold correlation; field_simp
  have hv := var_residual hN zi zj hρ
  have hge := var_nonneg (fun r => zscore (x i) r - correlation (x i) (x j) * zscore (x j) r)
  by_contra hcon
  have h0 : var (fun r => zscore (x i) r - correlation (x i) (x j) * zscore (x j) r) = 0 := le_antisymm (by linarith [not_lt.1 hcon]) hge
  have hx := var_eq_zero hN h0
  set M := mean (fun r => zscore (x i) r - correlation (x i) (x j) * zscore (x j) r)
  set ρ := correlation (x i) (x j)
  have si : √(var (x i)) ≠ 0 := (Real.sqrt_pos.2 vi).ne'
  have sj : √(var (x j)) ≠ 0 := (Real.sqrt_pos.2 vj).ne'
  have key := h (fun k => if k = i then 1 / √(var (x i)) else if k = j then -ρ / √(var (x j)) else 0)
    (-M - mean (x i) / √(var (x i)) + ρ * mean (x j) / √(var (x j))) (fun r => by
      have hr := hx r
      simp only [zscore_eq] at hr
      have hjf : j ∈ U.filter (fun k => decide (k ≠ i)) := List.mem_filter.2 ⟨hj, by simpa using hij⟩
      rw [sum_split hnd hi, sum_split (hnd.filter _) hjf]
      have hz : (((U.filter (fun k => decide (k ≠ i))).filter (fun k => decide (k ≠ j))).map (fun k =>
          (if k = i then 1 / √(var (x i)) else if k = j then -ρ / √(var (x j)) else 0) * x k r)).sum = 0 := by
        apply List.sum_eq_zero
        intro v hv
        obtain ⟨k, hk, rfl⟩ := List.mem_map.1 hv
        simp only [List.mem_filter, decide_eq_true_eq] at hk
        rw [if_neg hk.1.2, if_neg hk.2, zero_mul]
      rw [hz, if_pos rfl, if_neg hij, if_pos rfl, ← hr]
      ring) i hi
  simp only [if_true, one_div, inv_eq_zero] at key
  exact si key

theorem statistic_eq {U : List Nat} (hnd : U.Nodup) {x : Nat → Fin N → ℝ} (h : Indep U x) {X : Nat → Col N} (hX : ∀ i ∈ U, X i = some (x i))
    {i : Nat} (hi : i ∈ U) : statistic X U U [] i = some (penalty x U i) := by
  have hN := indep_ne h hi
  have hN' : (N : ℝ) ≠ 0 := by exact_mod_cast hN
  have hd : ∀ j ∈ U, j ≠ i → pairDiff X U [] i j = some (directionScore (correlation (x i) (x j)) (zscore (x i)) (zscore (x j))) := by
    intro j hj hij
    have vi := indep_var hnd h hi
    have vj := indep_var hnd h hj
    rw [pairDiff_same hN (X := fun k => some (zscore (x k))) (X' := X) (by rw [hX i hi]; exact zscore_same vi) (by rw [hX j hj]; exact zscore_same vj)]
    exact pairDiff_standard hN rfl rfl (zscore_standard hN vi) (zscore_standard hN vj) (by unfold correlation; field_simp)
      (correlation_lt hnd h hi hj hij) U
  have hs : ∀ l : List Nat, (∀ j ∈ l, j ∈ U ∧ j ≠ i) → sumNan (l.map (fun j => (pairDiff X U [] i j).map (fun d => (min 0 d) ^ 2))) =
      some ((l.map (fun j => (min 0 (directionScore (correlation (x i) (x j)) (zscore (x i)) (zscore (x j)))) ^ 2)).sum) := by
    intro l
    induction l with
    | nil => intro _; rfl
    | cons j l ih =>
      intro hl
      obtain ⟨h1, h2⟩ := hl j (by simp)
      simp only [List.map_cons, List.sum_cons, hd j h1 h2, Option.map_some, sumNan]
      rw [ih fun k hk => hl k (List.mem_cons_of_mem _ hk)]
      rfl
  unfold statistic penalty
  have e : U.filter (fun j => decide (i ≠ j)) = U.filter (fun j => decide (j ≠ i)) :=
    List.filter_congr fun j _ => by simp only [ne_comm]
  rw [e, hs _ fun j hj => by simpa using List.mem_filter.1 hj]

theorem slopeResidual_iff (hN : N ≠ 0) {x m y : Fin N → ℝ} (h : 0 < var m) : IsSlopeResidual x m y ↔ residual (some x) (some m) = some y := by
  have hN' : (N : ℝ) ≠ 0 := by exact_mod_cast hN
  have hsum0 : ∑ r, (m r - mean m) = 0 := by
    rw [Finset.sum_sub_distrib]
    unfold mean
    simp
    field_simp
    ring
  have hcov : ∑ r, x r * (m r - mean m) = N * cov x m := by
    have e : ∀ r, x r * (m r - mean m) = (x r - mean x) * (m r - mean m) + mean x * (m r - mean m) := fun r => by ring
    simp only [e, Finset.sum_add_distrib, ← Finset.mul_sum, hsum0, mul_zero, add_zero]
    have hv : cov x m = (∑ r, (x r - mean x) * (m r - mean m)) / N := rfl
    rw [hv, mul_comm, div_mul_cancel₀ _ hN']
  have hvar : ∑ r, m r * (m r - mean m) = N * var m := by
    have e : ∀ r, m r * (m r - mean m) = (m r - mean m) ^ 2 + mean m * (m r - mean m) := fun r => by ring
    simp only [e, Finset.sum_add_distrib, ← Finset.mul_sum, hsum0, mul_zero, add_zero]
    have hv : var m = (∑ r, (m r - mean m) ^ 2) / N := rfl
    rw [hv, mul_comm, div_mul_cancel₀ _ hN']
  have hval : ∀ c, ∑ r, (x r - c * m r) * (m r - mean m) = N * (cov x m - c * var m) := by
    intro c
    have e : ∀ r, (x r - c * m r) * (m r - mean m) = x r * (m r - mean m) - c * (m r * (m r - mean m)) := fun r => by ring
    simp only [e, Finset.sum_sub_distrib, ← Finset.mul_sum, hcov, hvar]
    ring
  simp only [residual, h.ne', if_false, Option.some.injEq]
  constructor
  · rintro ⟨⟨c, hc⟩, h0⟩
    have e0 : sampleMean m = mean m := rfl
    rw [e0] at h0
    simp only [hc, hval] at h0
    have h1 : cov x m - c * var m = 0 := (mul_eq_zero.1 h0).resolve_left hN'
    have h2 : cov x m / var m = c := by rw [div_eq_iff h.ne']; linarith
    funext r
    rw [hc r, h2]
  · rintro rfl
    refine ⟨⟨_, fun r => rfl⟩, ?_⟩
    have e0 : sampleMean m = mean m := rfl
    rw [e0, hval, div_mul_cancel₀ _ h.ne', sub_self, mul_zero]

theorem indep_rest {U : List Nat} (hnd : U.Nodup) {x x' : Nat → Fin N → ℝ} (h : Indep U x) {m : Nat} (hm : m ∈ U)
    (hres : ∀ i ∈ U, i ≠ m → ∃ c, ∀ r, x' i r = x i r - c * x m r) : Indep (U.filter (fun i => decide (i ≠ m))) x' := by
  classical
  choose! c hc using hres
  intro b b0 h0 j hj
  have hj' := List.mem_filter.1 hj
  have hjm : j ≠ m := by simpa using hj'.2
  have key := h (fun i => if i = m then -((U.filter (fun i => decide (i ≠ m))).map (fun i => b i * c i)).sum else b i) b0 (fun r => by
    have hr := h0 r
    rw [sum_split hnd hm, if_pos rfl]
    have e : ∀ l : List Nat, (∀ i ∈ l, i ∈ U ∧ i ≠ m) → (l.map (fun i => b i * x' i r)).sum =
        -(l.map (fun i => b i * c i)).sum * x m r + (l.map (fun i => (if i = m then
          -((U.filter (fun i => decide (i ≠ m))).map (fun i => b i * c i)).sum else b i) * x i r)).sum := by
      intro l
      induction l with
      | nil => intro _; simp
      | cons k l ih =>
        intro hl
        obtain ⟨h1, h2⟩ := hl k (by simp)
        simp only [List.map_cons, List.sum_cons]
        rw [ih fun i hi => hl i (List.mem_cons_of_mem _ hi), if_neg h2, hc k h1 h2 r]
        ring
    rw [e _ fun i hi => by simpa using List.mem_filter.1 hi] at hr
    exact hr) j hj'.1
  simpa [hjm] using key

theorem pickGo_least {f : Nat → Option ℝ} {g : Nat → ℝ} : ∀ (cs : List Nat) (b : Nat), (∀ i ∈ b :: cs, f i = some (-1 * g i)) →
    ∀ i ∈ b :: cs, g (pickGo f b cs) ≤ g i
  | [], b, _, i, hi => by simp at hi; simp [pickGo, hi]
  | c :: cs, b, h, i, hi => by
    unfold pickGo
    rw [h b (by simp), h c (by simp)]
    simp only
    split_ifs with hlt
    · have ih := pickGo_least cs c (fun k hk => h k (List.mem_cons_of_mem _ hk))
      rcases List.mem_cons.1 hi with rfl | hi
      · exact (ih c (by simp)).trans (by linarith)
      · exact ih i hi
    · have ih := pickGo_least cs b (fun k hk => h k (by rcases List.mem_cons.1 hk with rfl | hk <;> simp [*]))
      rcases List.mem_cons.1 hi with rfl | hi
      · exact ih i (by simp)
      · rcases List.mem_cons.1 hi with rfl | hi
        · exact (ih b (by simp)).trans (by linarith [not_lt.1 hlt])
        · exact ih i (List.mem_cons_of_mem _ hi)

theorem searchOrder_least {cfg : Direct.Config} (hpk : cfg.pk = none) {po : List (Nat × Nat)} {U : List Nat} (hnd : U.Nodup) {x : Nat → Fin N → ℝ}
    (h : Indep U x) {X : Nat → Col N} (hX : ∀ i ∈ U, X i = some (x i)) {m : Nat} (hs : searchOrder cfg po X U = some m) :
    m ∈ U ∧ ∀ i ∈ U, penalty x U m ≤ penalty x U i := by
  refine ⟨searchOrder_mem hs, ?_⟩
  have hst := fun i (hi : i ∈ U) => statistic_eq hnd h hX hi
  unfold searchOrder Direct.searchCandidate at hs
  rw [hpk] at hs
  simp only at hs
  match U, hs, hst with
  | [], hs, _ => simp
  | [c], hs, _ =>
    simp only [Option.some.injEq] at hs
    subst hs
    simp
  | c :: c' :: cs, hs, hst =>
    simp only [pick, Option.some.injEq] at hs
    subst hs
    exact pickGo_least _ _ fun i hi => by rw [hst i hi]; rfl

theorem orderLoop_pairwise {cfg : Direct.Config} (hpk : cfg.pk = none) : ∀ (r : Nat) (x : Nat → Fin N → ℝ) (X : Nat → Col N) (K U : List Nat) (po : List (Nat × Nat))
    (o : List Nat), U.length = r → U.Nodup → Indep U x → (∀ i ∈ U, X i = some (x i)) → orderLoop cfg r X K U po = .ok o →
    ∃ l, o = K ++ l ∧ PairwiseOrder (· ≤ ·) x U l
  | 0, x, X, K, U, po, o, hl, _, _, _, h => by
    have : U = [] := List.length_eq_zero_iff.1 hl
    subst this
    simp only [orderLoop, Except.ok.injEq] at h
    exact ⟨[], by simp [h], .nil x⟩
  | r + 1, x, X, K, U, po, o, hl, hnd, hind, hX, h => by
    unfold orderLoop at h
    cases hs : searchOrder cfg po X U with
    | none => rw [hs] at h; simp at h
    | some m =>
      rw [hs] at h
      simp only at h
      obtain ⟨hm, hbest⟩ := searchOrder_least hpk hnd hind hX hs
      have hN := indep_ne hind hm
      have hv := indep_var hnd hind hm
      set x' : Nat → Fin N → ℝ := fun i r => x i r - cov (x i) (x m) / var (x m) * x m r with hx'
      have hres : ∀ i, residual (some (x i)) (some (x m)) = some (x' i) := fun i => by
        simp only [residual, hv.ne', if_false, hx']
      have hlen : (U.filter (fun i => decide (i ≠ m))).length = r := by
        have e : U.filter (fun i => decide (i ≠ m)) = U.erase m := by
          rw [hnd.erase_eq_filter]
          refine List.filter_congr fun i _ => ?_
          by_cases h : i = m <;> simp [h]
        rw [e, List.length_erase_of_mem hm, hl]
        rfl
      obtain ⟨l, rfl, hrest⟩ := orderLoop_pairwise hpk r x' _ _ _ _ o hlen (hnd.filter _) (indep_rest hnd hind hm fun i _ _ => ⟨_, fun r => rfl⟩)
        (fun i hi => by
          have hi' := List.mem_filter.1 hi
          have him : i ≠ m := by simpa using hi'.2
          unfold removeEffect
          rw [if_pos ⟨hi'.1, him⟩, hX i hi'.1, hX m hm, hres i]) h
      refine ⟨m :: l, by simp, .cons hm (fun i hi _ => hbest i hi) (fun i _ _ => (slopeResidual_iff hN hv).2 (hres i)) hrest⟩

theorem decisive_of_strict {x : Nat → Fin N → ℝ} {U l : List Nat} (hp : PairwiseOrder (· < ·) x U l) : ∀ (X : Nat → Col N), U.Nodup → Indep U x →
    (∀ i ∈ U, X i = some (x i)) → Decisive l.length X U := by
  induction hp with
  | nil x => intro X _ _ _; trivial
  | @cons x x' U l m hm best res rest ih =>
    intro X hnd hind hX
    have hN := indep_ne hind hm
    have hv := indep_var hnd hind hm
    refine ⟨m, hm, ⟨penalty x U m, statistic_eq hnd hind hX hm, fun j hj hne => ⟨_, statistic_eq hnd hind hX hj, best j hj hne⟩⟩, ?_⟩
    refine ih _ (hnd.filter _) (indep_rest hnd hind hm fun i hi hne => (res i hi hne).1) fun i hi => ?_
    have hi' := List.mem_filter.1 hi
    have him : i ≠ m := by simpa using hi'.2
    unfold removeEffect
    rw [if_pos ⟨hi'.1, him⟩, hX i hi'.1, hX m hm]
    exact (slopeResidual_iff hN hv).1 (res i hi'.1 him)

theorem pairwise_perm {R : ℝ → ℝ → Prop} {x : Nat → Fin N → ℝ} {U l : List Nat} (hp : PairwiseOrder R x U l) : U.Nodup → l.Perm U := by
  induction hp with
  | nil x => intro _; exact .refl _
  | @cons x x' U l m hm best res rest ih =>
    intro hnd
    have e : U.filter (fun i => decide (i ≠ m)) = U.erase m := by
      rw [hnd.erase_eq_filter]
      refine List.filter_congr fun i _ => ?_
      by_cases h : i = m <;> simp [h]
    exact ((ih (hnd.filter _)).cons m).trans (e ▸ (List.perm_cons_erase hm).symm)

theorem orderLoop_strict {cfg : Direct.Config} (hpk : cfg.pk = none) {x : Nat → Fin N → ℝ} {U l : List Nat} (hp : PairwiseOrder (· < ·) x U l) :
    ∀ (X : Nat → Col N) (K : List Nat) (po : List (Nat × Nat)), U.Nodup → Indep U x → (∀ i ∈ U, X i = some (x i)) →
      orderLoop cfg l.length X K U po = .ok (K ++ l) := by
  induction hp with
  | nil x => intro X K po _ _ _; simp [orderLoop]
  | @cons x x' U l m hm best res rest ih =>
    intro X K po hnd hind hX
    have hN := indep_ne hind hm
    have hv := indep_var hnd hind hm
    simp only [List.length_cons]
    unfold orderLoop
    rw [searchOrder_unique hpk hm (statistic_eq hnd hind hX hm) fun j hj hne => ⟨_, statistic_eq hnd hind hX hj, best j hj hne⟩]
    simp only
    rw [ih _ _ _ (hnd.filter _) (indep_rest hnd hind hm fun i hi hne => (res i hi hne).1)]
    · simp
    · intro i hi
      have hi' := List.mem_filter.1 hi
      have him : i ≠ m := by simpa using hi'.2
      unfold removeEffect
      rw [if_pos ⟨hi'.1, him⟩, hX i hi'.1, hX m hm]
      exact (slopeResidual_iff hN hv).1 (res i hi'.1 him)

end Verif.Pairwise
