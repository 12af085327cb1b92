import Verif.Proofs.LassoRows
import Verif.Props.ParceColumns

/-!
# The order of the rows (C222)
-/
set_option linter.unusedSectionVars false
set_option autoImplicit false
namespace Verif.Pairwise
open Finset

variable {N : Nat} {lin : Lin N} {lars : Lars N} {cols : List (Fin N → ℝ)} {y : Fin N → ℝ}

/-! ### Routines with all assumed properties exist -/

/-- There are a least squares routine and a path with all the properties assumed: the path has the breaks 0 and least squares. -/
theorem exists_rows (N : Nat) : ∃ (lin : Lin N) (lars : Lars N), RightRegression lin ∧ RightPath lars ∧
    ∀ cols, IndependentCols cols → ∀ d y, IgnoresRows lars (multiplied d cols) y := by
  classical
  obtain ⟨lin, -, hlin, -⟩ := exists_oracles N
  let z : Lin N := fun cols y k => if cols.getD k 0 = 0 then 0 else lin cols y k
  have hz : ∀ cols y, ∃ b0, SolvesRegression cols y b0 (z cols y) := by
    intro cols y
    obtain ⟨b0, h⟩ := hlin cols y
    have e : unexplained cols y b0 (z cols y) = unexplained cols y b0 (lin cols y) := by
      funext r
      unfold unexplained
      congr 1
      refine sum_congr rfl fun k _ => ?_
      by_cases h0 : cols.getD k 0 = 0
      · rw [h0]; simp
      · simp only [z]
        rw [if_neg h0]
    exact ⟨b0, by unfold SolvesRegression; rw [e]; exact h⟩
  have key : ∀ cols y, (∀ x ∈ cols, ∑ r, x r = 0) → ∑ r, y r = 0 → SolvesRegression cols y 0 (z cols y) := by
    intro cols y hc hy
    by_cases hN : N = 0
    · subst hN
      exact ⟨by simp, fun k _ => by simp⟩
    · obtain ⟨b0, h⟩ := hz cols y
      rwa [intercept_zero hN hy hc h] at h
  refine ⟨lin, fun cols y => [fun _ => 0, z cols y], hlin, ⟨fun cols y => ⟨_, _, rfl, fun _ _ => rfl⟩,
    fun cols y hc hy => ⟨_, by simp, key cols y hc hy⟩, fun x y hx hy v hv => ?_⟩, ?_⟩
  · simp only [List.mem_cons, List.not_mem_nil, or_false] at hv
    rcases hv with rfl | rfl
    · exact Or.inl rfl
    · exact Or.inr (key [x] y (by simpa using hx) hy)
  · intro cols hi d y σ
    refine .cons (fun _ _ => rfl) (.cons (fun k hk => ?_) .nil)
    have hml : (multiplied d cols).length = cols.length := by simp [multiplied]
    have hmg : ∀ k, k < cols.length → ∀ r, (multiplied d cols).getD k 0 r = cols.getD k 0 r * d k := fun k hk r => by
      unfold multiplied
      have : (List.range cols.length).getD k 0 = k := by rw [getD_of_lt (by simpa using hk), List.getElem_range]
      rw [list_getD_map _ _ (by simpa using hk) 0 0, this]
    rw [hml] at hk
    have h00 : (inRows σ (multiplied d cols)).getD k 0 = 0 ↔ (multiplied d cols).getD k 0 = 0 := by
      constructor
      · intro h
        funext r
        have := congrFun h (σ.symm r)
        rw [inRows_get, Equiv.apply_symm_apply] at this
        exact this
      · intro h
        funext r
        rw [inRows_get, h]
        rfl
    simp only [z]
    by_cases h0 : (multiplied d cols).getD k 0 = 0
    · rw [if_pos h0, if_pos (h00.2 h0)]
    · rw [if_neg h0, if_neg (fun h => h0 (h00.1 h))]
      obtain ⟨b0, h1⟩ := hlin (multiplied d cols) y
      obtain ⟨b1, h2⟩ := hlin (inRows σ (multiplied d cols)) fun r => y (σ r)
      refine multiplied_unique (d := d) (independent_rows σ hi) (by rw [inRows_length, hml, inRows_length]) (fun k hk r => ?_) h2
        (solves_rows σ h1) (by rw [inRows_length]; exact hk) (fun h => h0 (h00.1 h))
      rw [inRows_length] at hk
      rw [inRows_get, inRows_get, hmg k hk]

/-! ### DirectLiNGAM -/

/-- **C222, DirectLiNGAM.** `fit` on the same rows in another order raises the same exception or returns the same causal order and the same
matrix, if the path routine of the Lasso ignores the order of the rows. -/
theorem C222_direct (cfg : Direct.Config) (hlin : RightRegression lin)
    (hlars : ∀ cols, IndependentCols cols → ∀ d y, IgnoresRows lars (multiplied d cols) y) {n : Nat} {X : Nat → Fin N → ℝ} (hid : Identified n X)
    (σ : Equiv.Perm (Fin N)) : fitLasso cfg lin lars n (fun j r => X j (σ r)) = fitLasso cfg lin lars n X := by
  have ho : fitOrder cfg n (fun j r => X j (σ r)) = fitOrder cfg n X :=
    C141_rows cfg n X one_ne_zero fun r => by
      rw [Finset.card_eq_one]
      refine ⟨σ.symm r, ?_⟩
      ext q
      simp [Equiv.eq_symm_apply]
  unfold fitLasso
  rw [ho]
  cases hf : fitOrder cfg n X with
  | error e => rfl
  | ok order =>
    simp only
    split
    · rfl
    · congr 2
      have hperm := fitOrder_perm hf
      have hlt : ∀ q ∈ order, q < n := fun q hq => List.mem_range.1 (hperm.mem_iff.1 hq)
      funext i j
      have := estimateAdj_scale (pk := cfg.pk) (lasso := fun ps t p => predict lin lars X ps t (ps.idxOf p))
        (lasso' := fun ps t p => predict lin lars (fun j r => X j (σ r)) ps t (ps.idxOf p))
        (k := fun _ _ => (1 : ℝ)) (hperm.nodup_iff.2 List.nodup_range) (fun ps t p hnd hsub ht htp hp => by
          have hi := independent_of_identified hid hnd fun q hq => hlt q (hsub q hq)
          have hN : N ≠ 0 := by
            rintro rfl
            have := hi 0 (fun _ => 1) (fun r => r.elim0) (ps.idxOf p) (by simpa using List.idxOf_lt_length_of_mem hp)
            norm_num at this
          rw [mul_one]
          exact predict_rows hlin σ X hi (fun d => hlars _ (Var.zscores_independent hN hi) d _) (List.idxOf_lt_length_of_mem hp)) i j
      rw [this, mul_one]

/-- The hypotheses are met. -/
example (cfg : Direct.Config) (σ : Equiv.Perm (Fin 4)) : ∃ (lin : Lin 4) (lars : Lars 4), RightRegression lin ∧ RightPath lars ∧
    fitLasso cfg lin lars 3 (fun j r => lassoData j (σ r)) = fitLasso cfg lin lars 3 lassoData := by
  obtain ⟨lin, lars, h1, h2, h3⟩ := exists_rows 4
  exact ⟨lin, lars, h1, h2, C222_direct cfg h1 h3 lassoData_identified σ⟩

end Verif.Pairwise

namespace Verif.ParceData
open Finset RcdData

variable {N : Nat} {L : Lib N} {X : Nat → Fin N → ℝ} {n : Nat}

/-! ### BottomUpParceLiNGAM -/

/-- The permutation keeps the first 100 rows among themselves. -/
theorem hsicPair_rows_front (v w : Fin N → ℝ) {σ : Equiv.Perm (Fin N)} (hσ : ∀ i : Fin N, i.val < 100 ↔ (σ i).val < 100) :
    hsicPair L (fun r => v (σ r)) (fun r => w (σ r)) = hsicPair L v w := by
  unfold hsicPair
  have := Hsic.C115_hsic_row_order_partial L.gammaSf (Mlhsicr.col v) (Mlhsicr.col w) σ hσ
  rw [← this]
  rfl

theorem centre_rows (σ : Equiv.Perm (Fin N)) : centre (fun j r => X j (σ r)) = fun j r => centre X j (σ r) := by
  funext j r
  unfold centre
  rw [mean_rows]

theorem findExo_hsic {c c' : Parce.Cfg ℝ} (h : c.fc = false) (h' : c'.fc = false) (hs : c'.single = c.single) (hh : c'.hsic = c.hsic) :
    Parce.findExo c' = Parce.findExo c := by
  have e : ∀ Uc, Parce.exoStep c' Uc = Parce.exoStep c Uc := fun Uc => by
    funext st j
    simp [Parce.exoStep, h, h', hh]
  funext Uc U
  unfold Parce.findExo
  simp only [e, hs]

/-- With HSIC the F-correlations play no role. -/
theorem searchOrder_hsic {c c' : Parce.Cfg ℝ} (hp : c'.pk = c.pk) (h : c.fc = false) (h' : c'.fc = false) (hs : c'.single = c.single)
    (hh : c'.hsic = c.hsic) (thresh : ℝ) : ∀ (fuel : Nat) (K U : List Nat) (po : List (Nat × Nat)),
      Parce.searchOrder c' thresh fuel K U po = Parce.searchOrder c thresh fuel K U po
  | 0, _, _, _ => rfl
  | fuel + 1, K, U, po => by
    have hc : Parce.searchCandidate c' po U = Parce.searchCandidate c po U := by
      unfold Parce.searchCandidate
      rw [hp]
    have hr : Parce.isReject c' thresh = Parce.isReject c thresh := by
      funext e
      simp [Parce.isReject, h, h']
    unfold Parce.searchOrder
    simp only [findExo_hsic h h' hs hh, searchOrder_hsic hp h h' hs hh thresh fuel, hc, hr, hp]

theorem fit_hsic {c c' : Parce.Cfg ℝ} (hp : c'.pk = c.pk) (ha : c'.alpha = c.alpha) (h : c.fc = false) (h' : c'.fc = false)
    (hs : c'.single = c.single) (hh : c'.hsic = c.hsic) (lasso : Direct.Lasso ℝ) (fuel : Nat) :
    Parce.fit c' lasso n fuel = Parce.fit c lasso n fuel := by
  have ho : Parce.priorOrders c' n = Parce.priorOrders c n := by
    unfold Parce.priorOrders
    rw [hp]
  unfold Parce.fit
  simp only [searchOrder_hsic hp h h' hs hh, ho, ha, hp]

theorem hsic_rows (hL : OlsRight L) (chi2 : Nat → ℝ → ℝ) {σ : Equiv.Perm (Fin N)} (hσ : ∀ i : Fin N, i.val < 100 ↔ (σ i).val < 100)
    (l : List Nat) (x : Nat) : fisherHsic L chi2 (l.map (centre fun j r => X j (σ r))) (resid L (centre fun j r => X j (σ r)) x l) =
      fisherHsic L chi2 (l.map (centre X)) (resid L (centre X) x l) := by
  rw [centre_rows]
  exact fisherHsic_map chi2 l fun j => by
    rw [resid_rows hL]
    exact hsicPair_rows_front _ _ hσ

/-- **C222, BottomUpParceLiNGAM with HSIC.** `fit` on the same rows in another order raises the same exception or returns the same causal
order, the same unresolved variables and the same matrix, if the path routine of the Lasso ignores the order of the rows and the first
100 rows, from which the kernel width is estimated, are the same. -/
theorem C222_parce_partial (hL : OlsRight L) {lin : Pairwise.Lin N} (hlin : RightRegression lin) {lars : Pairwise.Lars N}
    (hlars : ∀ cols, IndependentCols cols → ∀ d y, IgnoresRows lars (multiplied d cols) y) (chi2 : Nat → ℝ → ℝ) (pk : Option Direct.PK)
    (alpha indCorr : ℝ) (hn : n ≠ 0) (fuel : Nat) (hX : Identified n X)
    {σ : Equiv.Perm (Fin N)} (hσ : ∀ i : Fin N, i.val < 100 ↔ (σ i).val < 100) :
    (∀ e, fit L lin lars chi2 pk false alpha indCorr n fuel X = some (.error e) →
      fit L lin lars chi2 pk false alpha indCorr n fuel (fun j r => X j (σ r)) = some (.error e)) ∧
    ∀ order B, fit L lin lars chi2 pk false alpha indCorr n fuel X = some (.ok (order, B)) →
      ∃ B', fit L lin lars chi2 pk false alpha indCorr n fuel (fun j r => X j (σ r)) = some (.ok (order, B')) ∧ ∀ i j, i < n → B' i j = B i j := by
  have hfit : ∀ lasso : Direct.Lasso ℝ, Parce.fit (cfgOf L chi2 pk false alpha indCorr fun j r => X j (σ r)) lasso n fuel =
      Parce.fit (cfgOf L chi2 pk false alpha indCorr X) lasso n fuel := fun lasso =>
    fit_hsic (by unfold cfgOf; rfl) (by unfold cfgOf; rfl) (by unfold cfgOf; rfl) (by unfold cfgOf; rfl)
      (by unfold cfgOf; simp only [hsic_rows hL chi2 hσ, Bool.false_eq_true, if_false])
      (by unfold cfgOf; simp only [hsic_rows hL chi2 hσ]) lasso fuel
  have hN : N ≠ 0 := by
    rintro rfl
    have := hX (fun _ => 1) 0 (fun r => r.elim0) 0 (by omega)
    norm_num at this
  constructor
  · intro e he
    unfold fit at he ⊢
    rw [hfit]
    unfold Parce.fit at he ⊢
    split at he
    · exact he
    · split at he
      · rename_i hn1
        rw [if_pos hn1]
        exact he
      · rename_i hn1
        rw [if_neg hn1]
        split at he
        · cases he
        · exact he
        · cases he
  · intro order B hf
    obtain ⟨ho, hb⟩ := Parce.fit_order hn hf
    have hok := Parce.fit_ok hf
    refine ⟨Parce.adjacency pk (fun ps t p => Pairwise.predict lin lars (centre fun j r => X j (σ r)) ps t (ps.idxOf p)) order, ?_, ?_⟩
    · unfold fit at hf ⊢
      rw [hfit]
      unfold Parce.fit at hf ⊢
      split at hf
      · cases hf
      · split at hf
        · cases hf
        · rename_i hn1
          rw [if_neg hn1]
          split at hf
          · cases hf
          · cases hf
          · rename_i K hs
            simp only [Option.some.injEq, Except.ok.injEq, Prod.mk.injEq] at hf ⊢
            obtain ⟨rfl, rfl⟩ := hf
            exact ⟨rfl, rfl⟩
    · obtain ⟨po, _, _, _, _, rfl⟩ := hok
      intro i j hi
      rcases List.mem_append.1 ((ho.2 i).2 hi) with hib | hir
      · rw [Parce.adjacency_block _ _ hb ho.1 hib, Parce.adjacency_block _ _ hb ho.1 hib]
      · obtain ⟨u, v, huv⟩ := List.append_of_mem hir
        rw [Parce.adjacency_rest _ _ hb ho.1 huv, Parce.adjacency_rest _ _ hb ho.1 huv]
        show some (if j ∈ Direct.predictors pk (order.block ++ u) i then _ else _) =
          some (if j ∈ Direct.predictors pk (order.block ++ u) i then _ else _)
        have hsub : (Direct.predictors pk (order.block ++ u) i).Sublist order.flat := by
          have h1 : (order.block ++ u).Sublist order.flat := by
            unfold Parce.Order.flat
            rw [huv]
            exact (List.Sublist.refl _).append (List.sublist_append_left u _)
          unfold Direct.predictors
          split
          · exact h1
          · exact List.filter_sublist.trans h1
        split
        · rename_i hj
          have hi := Pairwise.independent_of_identified (identified_centre hX) (hsub.nodup ho.1) fun q hq => (ho.2 q).1 (hsub.subset hq)
          rw [centre_rows]
          exact congrArg some (Pairwise.predict_rows hlin σ (centre X) hi (fun d => hlars _ (Var.zscores_independent hN hi) d _)
            (List.idxOf_lt_length_of_mem hj))
        · rfl

/-- The hypotheses are met: six rows of two columns. -/
example (R : FCorr.Routines) (sf : ℝ → ℝ → ℝ → ℝ) (pf : ℝ → ℝ) (chi2 : Nat → ℝ → ℝ) (alpha indCorr : ℝ) (σ : Equiv.Perm (Fin 6)) :
    ∃ (L : Lib 6) (lin : Pairwise.Lin 6) (lars : Pairwise.Lars 6) (order : Parce.Order) (B B' : Nat → Nat → Option ℝ),
      L.gammaSf = sf ∧ L.R = R ∧ fit L lin lars chi2 none false alpha indCorr 2 2 squares = some (.ok (order, B)) ∧
      fit L lin lars chi2 none false alpha indCorr 2 2 (fun j r => squares j (σ r)) = some (.ok (order, B')) ∧ B' 1 0 = B 1 0 := by
  obtain ⟨L, hL, _, h1, h2, _⟩ := exists_lib (N := 6) R sf pf
  obtain ⟨lin, lars, hlin, _, hlars⟩ := Pairwise.exists_rows 6
  obtain ⟨order, B, hf⟩ := Parce.C32_no_error (cfgOf L chi2 none false alpha indCorr squares) rfl
    (fun ps t p => Pairwise.predict lin lars (centre squares) ps t (ps.idxOf p)) 2 le_rfl
  have hid : Identified 2 squares := fun b b0 hb j hj =>
    squares_independent (-b0) b (fun r => by have := hb r; linarith) j hj
  obtain ⟨B', hB', hc⟩ := (C222_parce_partial hL hlin hlars chi2 none alpha indCorr (n := 2) (by norm_num) 2 hid (σ := σ)
    (fun i => by have := i.isLt; have := (σ i).isLt; omega)).2 order B hf
  exact ⟨L, lin, lars, order, B, B', h1, h2, hf, hB', hc 1 0 (by norm_num)⟩

end Verif.ParceData

namespace Verif.RcdData
open Finset
open Verif.ParceData (resid_rows mean_rows)

variable {N : Nat} {L : Lib N} {X : Nat → Fin N → ℝ} {n : Nat}

/-! ### RCD -/

/-- The p-value of `shapiro` does not depend on the order of the rows. -/
def ShapiroRows (L : Lib N) : Prop := ∀ (v : Fin N → ℝ) (σ : Equiv.Perm (Fin N)), L.shapiro (fun r => v (σ r)) = L.shapiro v

theorem without_rows (hL : OlsRight L) (σ : Equiv.Perm (Fin N)) (H : Finset Nat) :
    without L n (fun j r => X j (σ r)) H = fun x r => without L n X H x (σ r) := by
  funext x
  unfold without
  split
  · rfl
  · exact resid_rows hL X σ x _

theorem codev_rows (v w : Fin N → ℝ) (σ : Equiv.Perm (Fin N)) : codev (fun r => v (σ r)) (fun r => w (σ r)) = codev v w := by
  unfold codev
  rw [mean_rows, mean_rows]
  exact Equiv.sum_comp σ fun r => (v r - mean v) * (w r - mean w)

theorem isCorrelated_rows (g : Cfg) (v w : Fin N → ℝ) (σ : Equiv.Perm (Fin N)) :
    isCorrelated L g (fun r => v (σ r)) (fun r => w (σ r)) = isCorrelated L g v w := by
  unfold isCorrelated pearsonP
  rw [codev_rows, codev_rows, codev_rows]

theorem isIndependent_rows {g : Cfg} (hg : g.hsic = true) (v w : Fin N → ℝ) {σ : Equiv.Perm (Fin N)}
    (hσ : ∀ i : Fin N, i.val < 100 ↔ (σ i).val < 100) :
    isIndependent L g (fun r => v (σ r)) (fun r => w (σ r)) = isIndependent L g v w := by
  unfold isIndependent
  rw [if_pos hg, if_pos hg]
  have := Hsic.C115_hsic_row_order_partial L.gammaSf (Mlhsicr.col v) (Mlhsicr.col w) σ hσ
  rw [← this]
  rfl

theorem tests_rows (hL : OlsRight L) (hS : ShapiroRows L) {g : Cfg} (hg : g.mlhsicr = false) (hh : g.hsic = true) {σ : Equiv.Perm (Fin N)}
    (hσ : ∀ i : Fin N, i.val < 100 ↔ (σ i).val < 100) : tests L g n (fun j r => X j (σ r)) = tests L g n X := by
  unfold tests
  congr 1
  · funext H x
    rw [without_rows hL]
    beta_reduce
    rw [hS]
  · funext A a B b
    rw [without_rows hL, without_rows hL]
    exact isCorrelated_rows g _ _ σ
  · funext H x l
    rw [without_rows hL]
    have e : ∀ y, isIndependent L g (resid L (fun x r => without L n X H x (σ r)) x l) (fun r => without L n X H y (σ r)) =
        isIndependent L g (resid L (without L n X H) x l) (without L n X H y) := fun y => by
      rw [resid_rows hL]
      exact isIndependent_rows hh _ _ hσ
    unfold isIndependentOfResid
    simp only [e, hg, or_true, if_true]

/-- The coefficients of two least squares fits on independent columns are the same. -/
theorem fit_unique (hX : ColumnsIndependent n X) {ps : List Nat} (hps : ps.Nodup) (hlt : ∀ j ∈ ps, j < n) {y : Fin N → ℝ} {w w' : Fin ps.length → ℝ}
    (h : LeastSquaresFit (cols X ps) y w) (h' : LeastSquaresFit (cols X ps) y w') : w' = w := by
  obtain ⟨h0, h1⟩ := residOf_normal h
  obtain ⟨h0', h1'⟩ := residOf_normal h'
  have hr := residOf_unique h0 h1 h0' h1'
  let D : Nat → ℝ := fun j => if hj : ps.idxOf j < ps.length then w' ⟨ps.idxOf j, hj⟩ - w ⟨ps.idxOf j, hj⟩ else 0
  have hD : ∀ k : Fin ps.length, D (ps.get k) = w' k - w k := fun k => by
    have hk := idxOf_get hps k
    have hlt' : ps.idxOf (ps.get k) < ps.length := hk ▸ k.2
    show (if hj : _ then _ else _) = _
    rw [dif_pos hlt']
    have : (⟨ps.idxOf (ps.get k), hlt'⟩ : Fin ps.length) = k := Fin.ext hk
    rw [this]
  have hz : ∀ j, j ∉ ps → D j = 0 := fun j hj => by
    show (if hj : _ then _ else _) = _
    rw [dif_neg]
    rw [List.idxOf_lt_length_iff]
    exact hj
  have hsum : ∀ r, ∑ j ∈ range n, D j * X j r = ∑ k : Fin ps.length, D (ps.get k) * X (ps.get k) r := fun r => by
    have : ∑ k : Fin ps.length, D (ps.get k) * X (ps.get k) r = (ps.map (fun j => D j * X j r)).sum :=
      Fin.sum_univ_fun_getElem ps (fun j => D j * X j r)
    rw [this, ← List.sum_toFinset _ hps]
    symm
    apply sum_subset
    · intro j hj
      exact mem_range.2 (hlt j (List.mem_toFinset.1 hj))
    · intro j _ hj
      rw [hz j (fun hm => hj (List.mem_toFinset.2 hm)), zero_mul]
  have hDz := hX (∑ k : Fin ps.length, (w' k - w k) * mean (cols X ps k)) D fun r => by
    rw [hsum r]
    have e3 := congrFun hr r
    unfold residOf at e3
    simp only [hD, sub_mul, sum_sub_distrib]
    have e4 : ∑ k, w' k * cols X ps k r - ∑ k, w k * cols X ps k r = ∑ k, w' k * mean (cols X ps k) - ∑ k, w k * mean (cols X ps k) := by linarith
    exact e4
  funext k
  have := hDz (ps.get k) (hlt _ (List.get_mem ps k))
  rw [hD] at this
  linarith

theorem coef_rows (hL : OlsRight L) (hX : ColumnsIndependent n X) (σ : Equiv.Perm (Fin N)) {ps : List Nat} (hps : ps.Nodup)
    (hlt : ∀ j ∈ ps, j < n) (i j : Nat) : coef L (fun j r => X j (σ r)) ps i j = coef L X ps i j := by
  have h : LeastSquaresFit (cols X ps) (X i) (L.ols ps.length (cols (fun j r => X j (σ r)) ps) (fun r => X i (σ r))) := by
    obtain ⟨b, hb⟩ := hL ps.length (cols (fun j r => X j (σ r)) ps) (fun r => X i (σ r))
    refine ⟨b, fun b' w' => ?_⟩
    have e : ∀ (b : ℝ) (w : Fin ps.length → ℝ), ∑ r, (X i (σ r) - b - ∑ k, w k * cols (fun j r => X j (σ r)) ps k r) ^ 2 =
        ∑ r, (X i r - b - ∑ k, w k * cols X ps k r) ^ 2 := fun b w =>
      Equiv.sum_comp σ (fun r => (X i r - b - ∑ k, w k * cols X ps k r) ^ 2)
    rw [← e, ← e]
    exact hb b' w'
  unfold coef
  rw [fit_unique hX hps hlt (hL _ _ _) h]

/-- **C222, RCD with HSIC and without MLHSICR, which is the default.** `fit` on the same rows in another order returns the same ancestors and
the same matrix, if the p-value of `shapiro` does not depend on the order of the rows and the first 100 rows, from which the kernel width
is estimated, are the same. -/
theorem C222_rcd_partial (hL : OlsRight L) (hS : ShapiroRows L) {g : Cfg} (hg : g.mlhsicr = false) (hh : g.hsic = true) (hX : ColumnsIndependent n X)
    (maxNum fuel : Nat) {σ : Equiv.Perm (Fin N)} (hσ : ∀ i : Fin N, i.val < 100 ↔ (σ i).val < 100) :
    fit L g n maxNum fuel (fun j r => X j (σ r)) = fit L g n maxNum fuel X := by
  unfold fit Rcd.fit
  rw [tests_rows hL hS hg hh hσ]
  cases Rcd.extractAncestors (tests L g n X) n maxNum fuel with
  | none => rfl
  | some M =>
    simp only
    congr 2
    funext i j
    unfold Rcd.adjacency
    split
    · split
      · rfl
      · split
        · rw [coef_rows hL hX σ (List.nodup_range.filter _) (fun j hj => List.mem_range.1 (List.mem_filter.1 hj).1)]
        · rfl
    · rfl

theorem exists_lib_rows (R : FCorr.Routines) (sf : ℝ → ℝ → ℝ → ℝ) (pf : ℝ → ℝ) : ∃ L : Lib N, OlsRight L ∧ ShapiroRows L ∧
    L.gammaSf = sf ∧ L.R = R ∧ L.pearsonSf = pf ∧ ∀ v, L.shapiro v = 0 := by
  choose w h using fun (q : Nat) (Z : Fin q → Fin N → ℝ) (y : Fin N → ℝ) => exists_fit Z y
  exact ⟨⟨w, fun _ => 0, pf, sf, R, fun _ _ x => x⟩, h, fun _ _ => rfl, rfl, rfl, rfl, fun _ => rfl⟩

/-- The hypotheses are met: six rows of two columns. -/
example (R : FCorr.Routines) (sf : ℝ → ℝ → ℝ → ℝ) (pf : ℝ → ℝ) (a b d : ℝ) (σ : Equiv.Perm (Fin 6)) : ∃ (L : Lib 6) (M : Rcd.Anc)
    (B : Nat → Nat → Option ℝ), L.gammaSf = sf ∧ L.R = R ∧ L.pearsonSf = pf ∧
    fit L ⟨a, b, d, false, true, 1 / 2⟩ 2 2 40 squares = some (M, B) ∧
    fit L ⟨a, b, d, false, true, 1 / 2⟩ 2 2 40 (fun j r => squares j (σ r)) = some (M, B) := by
  obtain ⟨L, hL, hS, h1, h2, h3, _⟩ := exists_lib_rows (N := 6) R sf pf
  obtain ⟨M, hM, _⟩ := Rcd.C25_ancestors_terminate (tests L ⟨a, b, d, false, true, 1 / 2⟩ 2 squares) 2 (maxNum := 2) (by omega)
  have hM := hM 40 (by omega)
  have hf : ∃ B, fit L ⟨a, b, d, false, true, 1 / 2⟩ 2 2 40 squares = some (M, B) := by
    unfold fit Rcd.fit
    rw [hM]
    exact ⟨_, rfl⟩
  obtain ⟨B, hB⟩ := hf
  exact ⟨L, M, B, h1, h2, h3, hB, (C222_rcd_partial hL hS rfl rfl squares_independent 2 40
    (fun i => by have := i.isLt; have := (σ i).isLt; omega)).trans hB⟩

end Verif.RcdData
