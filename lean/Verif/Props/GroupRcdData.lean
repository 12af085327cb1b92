import Verif.Model.GroupRcdData
import Verif.Props.RowOrder

/-! MultiGroupRCD on the level of the data: other units in every data set, data sets and rows in another order, and a variable
that is constant in one data set. -/
set_option autoImplicit false
set_option linter.unusedSectionVars false
namespace Verif.GroupRcd
open Finset RcdData

variable {k : Nat} {N : Fin k → Nat} {L : ∀ i, Lib (N i)} {sf : Nat → WithTop ℝ → ℝ} {g : Cfg} {n : Nat}
variable {c o : Fin k → Nat → ℝ} {X X' : ∀ i, Nat → Fin (N i) → ℝ}

/-! ### Other units -/

theorem hsicP_affine {N : Nat} {L : Lib N} (v w : Fin N → ℝ) {a a' : ℝ} (ha : a ≠ 0) (ha' : a' ≠ 0) (b b' : ℝ) :
    hsicP L (fun r => a * v r + b) (fun r => a' * w r + b') = hsicP L v w := by
  unfold hsicP
  rw [Mlhsicr.col_affine, Mlhsicr.col_affine,
    Hsic.C114_hsic_units L.gammaSf (Mlhsicr.col v) (Mlhsicr.col w) a a' (fun _ => b) (fun _ => b') ha ha']

theorem isIndependent_affine (hN : ∀ i, N i ≠ 0) (v w : ∀ i, Fin (N i) → ℝ) {a a' b b' : Fin k → ℝ} (ha : ∀ i, a i ≠ 0) (ha' : ∀ i, a' i ≠ 0) :
    isIndependent L sf g (fun i r => a i * v i r + b i) (fun i r => a' i * w i r + b' i) = isIndependent L sf g v w := by
  unfold isIndependent
  have e1 : (fun i => hsicP (L i) (fun r => a i * v i r + b i) (fun r => a' i * w i r + b' i)) = fun i => hsicP (L i) (v i) (w i) :=
    funext fun i => hsicP_affine _ _ (ha i) (ha' i) _ _
  have e2 : (fun i => FCorr.fcorr (L i).R (fun r => a i * v i r + b i) (fun r => a' i * w i r + b' i)) =
      fun i => FCorr.fcorr (L i).R (v i) (w i) := funext fun i => FCorr.C145_units (L i).R (hN i) _ _ (ha i) (ha' i) _ _
  rw [e1, e2]

theorem corrP_units (hL : ∀ i, OlsRight (L i)) (hc : ∀ i j, c i j ≠ 0) (h : ∀ i, OtherUnits (c i) (o i) (X i) (X' i))
    (A : Finset Nat) (a : Nat) (B : Finset Nat) (b : Nat) : corrP L sf n X' A a B b = corrP L sf n X A a B b := by
  unfold corrP
  congr 1
  funext i
  rw [col_units (without_units (hL i) (hc i) (h i) n A) a, col_units (without_units (hL i) (hc i) (h i) n B) b,
    pearsonP_affine _ _ (hc i a) (hc i b)]

theorem indepOfResid_units (hN : ∀ i, N i ≠ 0) (hL : ∀ i, OlsRight (L i)) (hg : g.mlhsicr = false) (hc : ∀ i j, c i j ≠ 0)
    (h : ∀ i, OtherUnits (c i) (o i) (X i) (X' i)) (x : Nat) (l : List Nat) :
    isIndependentOfResid L sf g X' x l = isIndependentOfResid L sf g X x l := by
  have e : ∀ y, isIndependent L sf g (fun i => resid (L i) (X' i) x l) (fun i => X' i y) =
      isIndependent L sf g (fun i => resid (L i) (X i) x l) (fun i => X i y) := by
    intro y
    have e1 : (fun i => resid (L i) (X' i) x l) = fun i r => c i x * resid (L i) (X i) x l r + 0 := by
      funext i r
      rw [resid_units (hL i) (hc i) (h i), add_zero]
    have e2 : (fun i => X' i y) = fun i r => c i y * X i y r + o i y := by
      funext i r
      exact h i y r
    rw [e1, e2]
    exact isIndependent_affine hN _ _ (fun i => hc i x) (fun i => hc i y)
  unfold isIndependentOfResid
  simp only [e, hg, or_true, if_true]

theorem testsA_units (hN : ∀ i, N i ≠ 0) (hL : ∀ i, OlsRight (L i)) (hS : ∀ i, ShapiroUnits (L i)) (hg : g.mlhsicr = false)
    (hc : ∀ i j, c i j ≠ 0) (h : ∀ i, OtherUnits (c i) (o i) (X i) (X' i)) : testsA L sf g n X' = testsA L sf g n X := by
  unfold testsA
  congr 1
  · funext H x
    have : (fun i => some ((L i).shapiro (without (L i) n (X' i) H x))) = fun i => some ((L i).shapiro (without (L i) n (X i) H x)) := by
      funext i
      rw [col_units (without_units (hL i) (hc i) (h i) n H) x, hS i _ _ _ (hc i x)]
    rw [this]
  · funext A a B b
    rw [corrP_units hL hc h]
  · funext H x l
    exact indepOfResid_units hN hL hg hc (fun i => without_units (hL i) (hc i) (h i) n H) x l

theorem testsP_units (hN : ∀ i, N i ≠ 0) (hL : ∀ i, OlsRight (L i)) (hS : ∀ i, ShapiroUnits (L i)) (hg : g.mlhsicr = false)
    (hc : ∀ i j, c i j ≠ 0) (h : ∀ i, OtherUnits (c i) (o i) (X i) (X' i)) : testsP L sf g n X' = testsP L sf g n X := by
  unfold testsP
  rw [testsA_units hN hL hS hg hc h]
  congr 1
  funext A a B b
  rw [corrP_units hL hc h]

/-- **C235, units.** MultiGroupRCD without MLHSICR, which is the default, when every data set is measured in units and from origins of
its own (also with signs reversed): the ancestors are the same, the entries NaN are the same, and every coefficient is converted to the
units of its data set. -/
theorem C235_units (hN : ∀ i, N i ≠ 0) (hL : ∀ i, OlsRight (L i)) (hS : ∀ i, ShapiroUnits (L i)) (hg : g.mlhsicr = false)
    (hc : ∀ i j, c i j ≠ 0) (h : ∀ i, OtherUnits (c i) (o i) (X i) (X' i)) (hX : ∀ i, ColumnsIndependent n (X i)) (maxNum fuel : Nat)
    {M : Rcd.Anc} {B : Fin k → Nat → Nat → Option ℝ} (hf : fit L sf g n maxNum fuel X = some (M, B)) :
    ∃ B', fit L sf g n maxNum fuel X' = some (M, B') ∧ ∀ s i j, B' s i j = (B s i j).map (fun b => b * (c s i / c s j)) := by
  unfold fit at hf ⊢
  rw [testsA_units hN hL hS hg hc h, testsP_units hN hL hS hg hc h]
  split at hf
  · cases hf
  · rename_i M0 hM
    rw [Option.some.injEq, Prod.mk.injEq] at hf
    obtain ⟨rfl, rfl⟩ := hf
    refine ⟨_, rfl, fun s i j => ?_⟩
    beta_reduce
    unfold Rcd.adjacency
    split
    · split
      · rfl
      · split
        · rw [Option.map_some, coef_units (hL s) (hc s) (h s) (hX s) (List.nodup_range.filter _)
            (fun j hj => List.mem_range.1 (List.mem_filter.1 hj).1)]
        · rw [Option.map_some, zero_mul]
    · rw [Option.map_some, zero_mul]

/-! ### Data sets in another order -/

theorem fisherP_perm (σ : Equiv.Perm (Fin k)) (ps : Fin k → Option ℝ) : fisherP sf (fun i => ps (σ i)) = fisherP sf ps := by
  unfold fisherP fisherStat
  have e : (∃ i, ps (σ i) = none) ↔ ∃ i, ps i = none :=
    ⟨fun ⟨i, h⟩ => ⟨σ i, h⟩, fun ⟨i, h⟩ => ⟨σ.symm i, by rw [σ.apply_symm_apply]; exact h⟩⟩
  by_cases h : ∃ i, ps i = none
  · rw [if_pos h, if_pos (e.2 h)]
  · rw [if_neg h, if_neg (fun h' => h (e.1 h')), Equiv.sum_comp σ fun i => ParceData.fisherTerm ((ps i).getD 1)]

theorem isIndependent_perm (hh : g.hsic = true) (σ : Equiv.Perm (Fin k)) (a b : ∀ i, Fin (N i) → ℝ) :
    isIndependent (fun i => L (σ i)) sf g (fun i => a (σ i)) (fun i => b (σ i)) = isIndependent L sf g a b := by
  unfold isIndependent
  rw [if_pos hh, if_pos hh, fisherP_perm σ fun i => hsicP (L i) (a i) (b i)]

theorem corrP_perm (σ : Equiv.Perm (Fin k)) (A : Finset Nat) (a : Nat) (B : Finset Nat) (b : Nat) :
    corrP (fun i => L (σ i)) sf n (fun i => X (σ i)) A a B b = corrP L sf n X A a B b :=
  fisherP_perm σ fun i => pearsonP (L i) (without (L i) n (X i) A a) (without (L i) n (X i) B b)

theorem testsA_perm (hh : g.hsic = true) (σ : Equiv.Perm (Fin k)) :
    testsA (fun i => L (σ i)) sf g n (fun i => X (σ i)) = testsA L sf g n X := by
  unfold testsA
  congr 1
  · funext H x
    rw [fisherP_perm σ fun i => some ((L i).shapiro (without (L i) n (X i) H x))]
  · funext A a B b
    rw [corrP_perm σ]
  · funext H x l
    unfold isIndependentOfResid
    have e1 : ∀ y, isIndependent (fun i => L (σ i)) sf g (fun i => resid (L (σ i)) (without (L (σ i)) n (X (σ i)) H) x l)
        (fun i => without (L (σ i)) n (X (σ i)) H y) =
        isIndependent L sf g (fun i => resid (L i) (without (L i) n (X i) H) x l) (fun i => without (L i) n (X i) H y) := fun y =>
      isIndependent_perm hh σ (fun i => resid (L i) (without (L i) n (X i) H) x l) (fun i => without (L i) n (X i) H y)
    have e2 : ∀ y, isIndependent (fun i => L (σ i)) sf g (fun i => residMlhsicr (L (σ i)) (without (L (σ i)) n (X (σ i)) H) x l)
        (fun i => without (L (σ i)) n (X (σ i)) H y) =
        isIndependent L sf g (fun i => residMlhsicr (L i) (without (L i) n (X i) H) x l) (fun i => without (L i) n (X i) H y) := fun y =>
      isIndependent_perm hh σ (fun i => residMlhsicr (L i) (without (L i) n (X i) H) x l) (fun i => without (L i) n (X i) H y)
    simp only [e1, e2]

/-- **C235, order of the data sets.** MultiGroupRCD with HSIC, with and without MLHSICR: if the data sets are given in another order,
the ancestors are the same and the matrices come in that order.  (With the F-correlation this fails:
`MultiGroup.C48_rcd_fcorr_depends_on_order`.) -/
theorem C235_order_of_data_sets (hh : g.hsic = true) (σ : Equiv.Perm (Fin k)) (maxNum fuel : Nat) :
    fit (fun i => L (σ i)) sf g n maxNum fuel (fun i => X (σ i)) =
      (fit L sf g n maxNum fuel X).map fun r => (r.1, fun i => r.2 (σ i)) := by
  have hP : testsP (fun i => L (σ i)) sf g n (fun i => X (σ i)) = testsP L sf g n X := by
    unfold testsP
    rw [testsA_perm hh σ]
    congr 1
    funext A a B b
    rw [corrP_perm σ]
  unfold fit
  rw [testsA_perm hh σ, hP]
  cases Rcd.extractAncestors (testsA L sf g n X) n maxNum fuel <;> rfl

/-! ### Rows in another order -/

theorem hsicP_rows {N : Nat} {L : Lib N} (v w : Fin N → ℝ) {σ : Equiv.Perm (Fin N)} (hσ : ∀ i : Fin N, i.val < 100 ↔ (σ i).val < 100) :
    hsicP L (fun r => v (σ r)) (fun r => w (σ r)) = hsicP L v w := by
  unfold hsicP
  have := Hsic.C115_hsic_row_order_partial L.gammaSf (Mlhsicr.col v) (Mlhsicr.col w) σ hσ
  rw [← this]
  rfl

theorem corrP_rows (hL : ∀ i, OlsRight (L i)) (σ : ∀ i, Equiv.Perm (Fin (N i))) (A : Finset Nat) (a : Nat) (B : Finset Nat) (b : Nat) :
    corrP L sf n (fun i j r => X i j (σ i r)) A a B b = corrP L sf n X A a B b := by
  unfold corrP
  congr 1
  funext i
  rw [without_rows (hL i), without_rows (hL i)]
  unfold pearsonP
  beta_reduce
  rw [codev_rows, codev_rows, codev_rows]

theorem testsA_rows (hL : ∀ i, OlsRight (L i)) (hS : ∀ i, ShapiroRows (L i)) (hg : g.mlhsicr = false) (hh : g.hsic = true)
    {σ : ∀ i, Equiv.Perm (Fin (N i))} (hσ : ∀ i (r : Fin (N i)), r.val < 100 ↔ (σ i r).val < 100) :
    testsA L sf g n (fun i j r => X i j (σ i r)) = testsA L sf g n X := by
  unfold testsA
  congr 1
  · funext H x
    have : (fun i => some ((L i).shapiro (without (L i) n (fun j r => X i j (σ i r)) H x))) =
        fun i => some ((L i).shapiro (without (L i) n (X i) H x)) := by
      funext i
      rw [without_rows (hL i)]
      beta_reduce
      rw [hS i]
    rw [this]
  · funext A a B b
    rw [corrP_rows hL σ]
  · funext H x l
    have e : ∀ y, isIndependent L sf g (fun i => resid (L i) (without (L i) n (fun j r => X i j (σ i r)) H) x l)
        (fun i => without (L i) n (fun j r => X i j (σ i r)) H y) =
        isIndependent L sf g (fun i => resid (L i) (without (L i) n (X i) H) x l) (fun i => without (L i) n (X i) H y) := fun y => by
      unfold isIndependent
      rw [if_pos hh, if_pos hh]
      have : (fun i => hsicP (L i) (resid (L i) (without (L i) n (fun j r => X i j (σ i r)) H) x l)
          (without (L i) n (fun j r => X i j (σ i r)) H y)) =
          fun i => hsicP (L i) (resid (L i) (without (L i) n (X i) H) x l) (without (L i) n (X i) H y) := by
        funext i
        rw [without_rows (hL i), ParceData.resid_rows (hL i)]
        exact hsicP_rows _ _ (hσ i)
      rw [this]
    unfold isIndependentOfResid
    simp only [e, hg, or_true, if_true]

/-- **C235, order of the rows.** MultiGroupRCD with HSIC and without MLHSICR, which is the default: with the rows of every data set in
another order the result is the same, if the p-value of `shapiro` does not depend on the order of the rows and the first 100 rows of every
data set, from which the kernel width is estimated, remain the same. -/
theorem C235_rows_partial (hL : ∀ i, OlsRight (L i)) (hS : ∀ i, ShapiroRows (L i)) (hg : g.mlhsicr = false) (hh : g.hsic = true)
    (hX : ∀ i, ColumnsIndependent n (X i)) (maxNum fuel : Nat)
    {σ : ∀ i, Equiv.Perm (Fin (N i))} (hσ : ∀ i (r : Fin (N i)), r.val < 100 ↔ (σ i r).val < 100) :
    fit L sf g n maxNum fuel (fun i j r => X i j (σ i r)) = fit L sf g n maxNum fuel X := by
  have hP : testsP L sf g n (fun i j r => X i j (σ i r)) = testsP L sf g n X := by
    unfold testsP
    rw [testsA_rows hL hS hg hh hσ]
    congr 1
    funext A a B b
    rw [corrP_rows hL σ]
  unfold fit
  rw [testsA_rows hL hS hg hh hσ, hP]
  cases Rcd.extractAncestors (testsA L sf g n X) n maxNum fuel with
  | none => rfl
  | some M =>
    simp only
    congr 2
    funext s i j
    unfold Rcd.adjacency
    split
    · split
      · rfl
      · split
        · rw [coef_rows (hL s) (hX s) (σ s) (List.nodup_range.filter _) (fun j hj => List.mem_range.1 (List.mem_filter.1 hj).1)]
        · rfl
    · rfl

/-! ### A variable that is constant in one data set -/

theorem resid_constant {R : Nat} {l : Lib R} {Y : Nat → Fin R → ℝ} (hl : OlsRight l) {j : Nat} {a : ℝ} (hY : ∀ r, Y j r = a) (ls : List Nat) :
    resid l Y j ls = fun _ => 0 := by
  unfold resid
  have h0 : LeastSquaresFit (cols Y ls) (Y j) (l.ols ls.length (cols Y ls) (Y j)) := hl _ _ _
  have e : Y j = fun r => 0 * Y j r + a := funext fun r => by rw [hY, zero_mul, zero_add]
  have e' : cols Y ls = fun k r => (1 : ℝ) * cols Y ls k r + 0 := by
    funext k r
    rw [one_mul, add_zero]
  have := residual_units (Z := cols Y ls) (y := Y j) (a := 0) (b := a) (s := fun _ => 1) (t := fun _ => 0) (fun _ => one_ne_zero) h0
    (c' := l.ols ls.length (cols Y ls) (Y j)) (by rw [← e, ← e']; exact h0)
  rw [← e, ← e'] at this
  rw [this]
  funext r
  rw [zero_mul]

theorem without_constant {R : Nat} {l : Lib R} {Y : Nat → Fin R → ℝ} (hl : OlsRight l) {j : Nat} {a : ℝ} (hY : ∀ r, Y j r = a) (H : Finset Nat) :
    ∃ a', without l n Y H j = fun _ => a' := by
  unfold without
  split
  · exact ⟨a, funext hY⟩
  · exact ⟨0, resid_constant hl hY _⟩

theorem codev_constant {R : Nat} (a : ℝ) : codev (fun _ : Fin R => a) (fun _ => a) = 0 := by
  unfold codev
  refine Finset.sum_eq_zero fun r _ => ?_
  have hR : (R : ℝ) ≠ 0 := by
    have := r.pos
    exact_mod_cast (by omega : R ≠ 0)
  have : mean (fun _ : Fin R => a) = a := by
    unfold mean
    rw [Finset.sum_const, Finset.card_univ, Fintype.card_fin, nsmul_eq_mul, mul_comm, mul_div_assoc, div_self hR, mul_one]
  rw [this]
  ring

/-- **C236, a constant variable.** If a variable is constant in one data set, then MultiGroupRCD reports no causes of it, no effects of it
and no hidden common cause with another variable: its row and its column are zero in the matrices of all data sets, whatever the other
data sets show. -/
theorem C236_constant (hL : ∀ i, OlsRight (L i)) {s : Fin k} {j : Nat} {a : ℝ} (hj : ∀ r, X s j r = a) (maxNum fuel : Nat)
    {M : Rcd.Anc} {B : Fin k → Nat → Nat → Option ℝ} (hf : fit L sf g n maxNum fuel X = some (M, B)) (i : Fin k) (x : Nat) :
    B i j x = some 0 ∧ B i x j = some 0 := by
  have hnone : ∀ A x D y, x = j ∨ y = j → corrP L sf n X A x D y = none := by
    intro A x D y hxy
    have : pearsonP (L s) (without (L s) n (X s) A x) (without (L s) n (X s) D y) = none := by
      unfold pearsonP
      apply if_pos
      rcases hxy with rfl | rfl
      · obtain ⟨a', ha⟩ := without_constant (n := n) (hL s) hj A
        left
        rw [ha]
        exact codev_constant a'
      · obtain ⟨a', ha⟩ := without_constant (n := n) (hL s) hj D
        right
        rw [ha]
        exact codev_constant a'
    unfold corrP fisherP fisherStat
    rw [if_pos ⟨s, this⟩]
    rfl
  have hcorr : ∀ A x D y, x = j ∨ y = j → (testsP L sf g n X).corr A x D y = false := by
    intro A x D y hxy
    show (match corrP L sf n X A x D y with
        | some p => decide (p < g.corAlpha) | none => false) = false
    rw [hnone A x D y hxy]
  unfold fit at hf
  split at hf
  · cases hf
  rename_i M0 hM
  simp only [Option.some.injEq, Prod.mk.injEq] at hf
  obtain ⟨rfl, rfl⟩ := hf
  have hPar : ∀ x y, x = j ∨ y = j → y ∉ Rcd.extractParents (testsP L sf g n X) n M0 x := by
    intro x y hxy hy
    unfold Rcd.extractParents at hy
    split at hy
    · have := (Finset.mem_filter.1 hy).2
      unfold Rcd.isParent at this
      rw [hcorr _ y _ x (hxy.symm)] at this
      cases this
    · exact absurd hy (Finset.notMem_empty _)
  have hConf : ∀ x y, x = j ∨ y = j → y ∉ Rcd.extractConfounded (testsP L sf g n X) n (Rcd.extractParents (testsP L sf g n X) n M0) x := by
    intro x y hxy hy
    rcases Rcd.mem_extractConfounded.1 hy with ⟨_, _, h⟩ | ⟨_, _, h⟩
    · have := h.2.2
      rw [hcorr _ x _ y hxy] at this
      cases this
    · have := h.2.2
      rw [hcorr _ y _ x hxy.symm] at this
      cases this
  have hz : ∀ x y, x = j ∨ y = j → Rcd.adjacency (coef (L i) (X i)) n (Rcd.extractParents (testsP L sf g n X) n M0)
      (Rcd.extractConfounded (testsP L sf g n X) n (Rcd.extractParents (testsP L sf g n X) n M0)) x y = some 0 := by
    intro x y hxy
    unfold Rcd.adjacency
    rw [if_neg (hConf x y hxy), if_neg (hPar x y hxy), ite_self]
  exact ⟨hz j x (Or.inl rfl), hz x j (Or.inr rfl)⟩

theorem hsicP_constant {R : Nat} {l : Lib R} (v w : Fin R → ℝ) {a : ℝ} (h : v = (fun _ => a) ∨ w = fun _ => a) : hsicP l v w = none := by
  have hw : ∀ u : Fin R → ℝ, (u = fun _ => a) → Hsic.kernelWidth (Mlhsicr.col u) = none := by
    rintro u rfl
    rw [Hsic.kernelWidth_eq_none]
    intro i j _ _
    rfl
  unfold hsicP Hsic.test Hsic.testWith
  by_cases hR : R ≤ 3
  · rw [if_pos hR]
  · rw [if_neg hR]
    rcases h with h | h
    · rw [hw v h]
    · rw [hw w h]
      rcases Hsic.kernelWidth (Mlhsicr.col v) with _ | x <;> rfl

/-- **C236, ancestors of a constant variable.** With HSIC, a variable that is constant in one data set is nobody's ancestor, and without
MLHSICR, which is the default, it has no ancestors. -/
theorem C236_ancestors (hL : ∀ i, OlsRight (L i)) (hh : g.hsic = true) {s : Fin k} {j : Nat} {a : ℝ} (hj : ∀ r, X s j r = a) {maxNum : Nat}
    (hm : 0 < maxNum) (fuel : Nat) {M : Rcd.Anc} {B : Fin k → Nat → Nat → Option ℝ} (hf : fit L sf g n maxNum fuel X = some (M, B)) :
    (∀ x, j ∉ M x) ∧ (g.mlhsicr = false → M j = ∅) := by
  have hind : ∀ v w : ∀ i, Fin (N i) → ℝ, (∃ a', v s = (fun _ => a') ∨ w s = fun _ => a') → isIndependent L sf g v w = false := by
    rintro v w ⟨a', h⟩
    unfold isIndependent fisherP fisherStat
    rw [if_pos hh, if_pos ⟨s, hsicP_constant _ _ h⟩]
    rfl
  have hM : Rcd.extractAncestors (testsA L sf g n X) n maxNum fuel = some M := by
    unfold fit at hf
    split at hf
    · cases hf
    · rename_i M0 hM
      simp only [Option.some.injEq, Prod.mk.injEq] at hf
      rw [hM, hf.1]
  constructor
  · intro x hx
    obtain ⟨U, H, -, -, -, -, hjU, hne, -, -, -, hi, -⟩ := Rcd.C25_ancestors_justified hm hM x j hx
    change isIndependentOfResid L sf g (fun i => without (L i) n (X i) H) x _ = true at hi
    have hjl : j ∈ U.filter (fun y => decide (y ≠ x)) := List.mem_filter.2 ⟨hjU, decide_eq_true hne⟩
    obtain ⟨a', ha'⟩ := without_constant (n := n) (hL s) hj H
    unfold isIndependentOfResid at hi
    split at hi
    · rename_i h
      have := List.all_eq_true.1 h j hjl
      rw [hind _ _ ⟨a', Or.inr ha'⟩] at this
      cases this
    · split at hi
      · cases hi
      · have := List.all_eq_true.1 hi j hjl
        rw [hind _ _ ⟨a', Or.inr ha'⟩] at this
        cases this
  · intro hml
    refine Finset.eq_empty_of_forall_notMem fun x hx => ?_
    obtain ⟨U, H, -, -, -, -, hxU, hne, -, -, -, hi, -⟩ := Rcd.C25_ancestors_justified hm hM j x hx
    change isIndependentOfResid L sf g (fun i => without (L i) n (X i) H) j _ = true at hi
    have hxl : x ∈ U.filter (fun y => decide (y ≠ j)) := List.mem_filter.2 ⟨hxU, decide_eq_true hne⟩
    obtain ⟨a', ha'⟩ := without_constant (n := n) (hL s) hj H
    unfold isIndependentOfResid at hi
    split at hi
    · rename_i h
      have := List.all_eq_true.1 h x hxl
      rw [hind _ _ ⟨0, Or.inl (resid_constant (hL s) (fun r => congrFun ha' r) _)⟩] at this
      cases this
    · rw [if_pos (Or.inr hml)] at hi
      cases hi

/-! ### The hypotheses are met -/

/-- `fit` returns a result if it may search long enough. -/
theorem fit_exists (n : Nat) {maxNum fuel : Nat} (hm : 0 < maxNum) (hfuel : n * n * maxNum + maxNum ≤ fuel) :
    ∃ M B, fit L sf g n maxNum fuel X = some (M, B) := by
  obtain ⟨M, hM, _⟩ := Rcd.C25_ancestors_terminate (testsA L sf g n X) n (maxNum := maxNum) hm
  unfold fit
  rw [hM fuel hfuel]
  exact ⟨_, _, rfl⟩

/-- C235, units: two data sets, the second with the temperature in Fahrenheit and the height with reversed sign. -/
example (R : FCorr.Routines) (gsf : ℝ → ℝ → ℝ → ℝ) (pf : ℝ → ℝ) (a b d : ℝ) : ∃ (l : Lib 6) (M : Rcd.Anc)
    (B B' : Fin 2 → Nat → Nat → Option ℝ), l.gammaSf = gsf ∧ l.R = R ∧ l.pearsonSf = pf ∧
    fit (fun _ : Fin 2 => l) sf ⟨a, b, d, false, true, 1 / 2⟩ 2 2 40 (fun _ => squares) = some (M, B) ∧
    fit (fun _ : Fin 2 => l) sf ⟨a, b, d, false, true, 1 / 2⟩ 2 2 40
      (fun i j r => (if i = 0 then 1 else if j = 0 then 9 / 5 else -1) * squares j r + if i = 0 then 0 else if j = 0 then 32 else 7) =
      some (M, B') ∧ B' 0 1 0 = B 0 1 0 ∧ B' 1 1 0 = (B 1 1 0).map (fun x => x * (-5 / 9)) := by
  obtain ⟨l, hl, hS, h1, h2, h3⟩ := exists_lib (N := 6) R gsf pf
  obtain ⟨M, B, hB⟩ := fit_exists (L := fun _ : Fin 2 => l) (sf := sf) (g := ⟨a, b, d, false, true, 1 / 2⟩) (X := fun _ => squares) 2
    (maxNum := 2) (fuel := 40) (by omega) (by omega)
  obtain ⟨B', hB', hc⟩ := C235_units (fun _ => by norm_num) (fun _ => hl) (fun _ => hS) rfl
    (c := fun i j => if i = 0 then 1 else if j = 0 then 9 / 5 else -1) (o := fun i j => if i = 0 then 0 else if j = 0 then 32 else 7)
    (fun i j => by split_ifs <;> norm_num)
    (X' := fun i j r => (if i = 0 then 1 else if j = 0 then 9 / 5 else -1) * squares j r + if i = 0 then 0 else if j = 0 then 32 else 7)
    (fun i j r => rfl) (fun _ => squares_independent) 2 40 hB
  refine ⟨l, M, B, B', h1, h2, h3, hB, hB', ?_, ?_⟩
  · rw [hc 0 1 0]
    norm_num
  · rw [hc 1 1 0]
    norm_num

/-- C235, order: two data sets exchanged, of six rows each, also with all rows reversed. -/
example (R : FCorr.Routines) (gsf : ℝ → ℝ → ℝ → ℝ) (pf : ℝ → ℝ) (a b d : ℝ) : ∃ (l : Lib 6) (M : Rcd.Anc)
    (B : Fin 2 → Nat → Nat → Option ℝ), l.gammaSf = gsf ∧ l.R = R ∧ l.pearsonSf = pf ∧
    fit (fun _ : Fin 2 => l) sf ⟨a, b, d, false, true, 1 / 2⟩ 2 2 40 (fun i => if i = 0 then squares else fun j r => 2 * squares j r) =
      some (M, B) ∧
    fit (fun _ : Fin 2 => l) sf ⟨a, b, d, false, true, 1 / 2⟩ 2 2 40
      (fun i j r => if Equiv.swap (0 : Fin 2) 1 i = 0 then squares j (Fin.rev r) else 2 * squares j (Fin.rev r)) =
      some (M, fun i => B (Equiv.swap 0 1 i)) := by
  obtain ⟨l, hl, hS, h1, h2, h3, _⟩ := exists_lib_rows (N := 6) R gsf pf
  obtain ⟨M, B, hB⟩ := fit_exists (L := fun _ : Fin 2 => l) (sf := sf) (g := ⟨a, b, d, false, true, 1 / 2⟩)
    (X := fun i => if i = 0 then squares else fun j r => 2 * squares j r) 2 (maxNum := 2) (fuel := 40) (by omega) (by omega)
  refine ⟨l, M, B, h1, h2, h3, hB, ?_⟩
  have e1 := C235_order_of_data_sets (L := fun _ : Fin 2 => l) (sf := sf) (g := ⟨a, b, d, false, true, 1 / 2⟩) (n := 2) rfl (Equiv.swap 0 1) 2 40
    (X := fun i j r => if i = 0 then squares j (Fin.rev r) else 2 * squares j (Fin.rev r))
  have hind : ∀ i : Fin 2, ColumnsIndependent 2 (if i = 0 then squares else fun j r => 2 * squares j r) := fun i => by
    split_ifs
    · exact squares_independent
    · intro z e h
      have := squares_independent z (fun j => 2 * e j) fun r => by
        rw [← h r]
        exact sum_congr rfl fun j _ => by ring
      intro j hj
      have := this j hj
      linarith
  have e2 := C235_rows_partial (L := fun _ : Fin 2 => l) (sf := sf) (g := ⟨a, b, d, false, true, 1 / 2⟩) (n := 2) (fun _ => hl) (fun _ => hS) rfl rfl
    (X := fun i => if i = 0 then squares else fun j r => 2 * squares j r) hind 2 40 (σ := fun _ => Fin.revPerm)
    (fun i r => by have := r.isLt; have := (Fin.revPerm r).isLt; omega)
  have e3 : (fun (i : Fin 2) (j : Nat) (r : Fin 6) => (if i = 0 then squares else fun j r => 2 * squares j r) j (Fin.revPerm r)) =
      fun i j r => if i = 0 then squares j (Fin.rev r) else 2 * squares j (Fin.rev r) := by
    funext i j r
    split_ifs <;> rfl
  rw [e3] at e2
  rw [e1, e2, hB]
  rfl

/-- C236, a constant variable: in the second of two data sets the first variable is always 3. -/
example (R : FCorr.Routines) (gsf : ℝ → ℝ → ℝ → ℝ) (pf : ℝ → ℝ) : ∃ (l : Lib 6) (M : Rcd.Anc) (B : Fin 2 → Nat → Nat → Option ℝ),
    l.gammaSf = gsf ∧ l.pearsonSf = pf ∧
    fit (fun _ : Fin 2 => l) sf g 2 2 40 (fun i => if i = 0 then squares else fun j r => if j = 0 then 3 else squares j r) = some (M, B) ∧
    B 0 1 0 = some 0 := by
  obtain ⟨l, hl, _, h1, h2, h3⟩ := exists_lib (N := 6) R gsf pf
  obtain ⟨M, B, hB⟩ := fit_exists (L := fun _ : Fin 2 => l) (sf := sf) (g := g)
    (X := fun i => if i = 0 then squares else fun j r => if j = 0 then 3 else squares j r) 2 (maxNum := 2) (fuel := 40) (by omega) (by omega)
  exact ⟨l, M, B, h1, h3, hB, (C236_constant (fun _ => hl) (s := 1) (j := 0) (a := 3) (fun r => rfl) 2 40 hB 0 1).2⟩

/-- C236, ancestors: the same data with HSIC and without MLHSICR. -/
example (R : FCorr.Routines) (gsf : ℝ → ℝ → ℝ → ℝ) (pf : ℝ → ℝ) (h0 : g.hsic = true) (h' : g.mlhsicr = false) :
    ∃ (l : Lib 6) (M : Rcd.Anc) (B : Fin 2 → Nat → Nat → Option ℝ), l.gammaSf = gsf ∧ l.pearsonSf = pf ∧
    fit (fun _ : Fin 2 => l) sf g 2 2 40 (fun i => if i = 0 then squares else fun j r => if j = 0 then 3 else squares j r) = some (M, B) ∧
    M 0 = ∅ ∧ 0 ∉ M 1 := by
  obtain ⟨l, hl, _, h1, h2, h3⟩ := exists_lib (N := 6) R gsf pf
  obtain ⟨M, B, hB⟩ := fit_exists (L := fun _ : Fin 2 => l) (sf := sf) (g := g)
    (X := fun i => if i = 0 then squares else fun j r => if j = 0 then 3 else squares j r) 2 (maxNum := 2) (fuel := 40) (by omega) (by omega)
  have := C236_ancestors (fun _ => hl) h0 (s := 1) (j := 0) (a := 3) (fun r => rfl) (by omega) 40 hB
  exact ⟨l, M, B, h1, h3, hB, this.2 h', this.1 1⟩

end Verif.GroupRcd
