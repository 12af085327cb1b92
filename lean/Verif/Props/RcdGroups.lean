import Verif.Proofs.RcdGroups
import Verif.Props.RcdPopulation
import Verif.Model.MultiGroup

/-!
# MultiGroupRCD with perfect tests (C185, C186)

Several populations over the same variables, no hidden causes, tests that are right about all populations together.
The populations may have different graphs as long as their effects have a common order (`CommonOrder`).
-/
set_option linter.unusedSectionVars false
set_option autoImplicit false
namespace Verif.MultiGroup
open Finset Rcd

/-- C185: `fit` on several data sets finishes, `ancestors_list_` contains exactly the variables with an effect in at
least one population, and every adjacency matrix is the true matrix of its population, without NaN. -/
theorem C185_groups_recovered {n : Nat} {ps : List Pop} (ho : CommonOrder n ps) {c : RcdCfg} {ds : List RcdData}
    (ht : PooledTests n ps (rcdTests c ds)) (hcoef : List.Forall₂ (fun d g => PerfectCoef n n g.σ g.X d.coef) ds ps)
    {maxNum : Nat} (hm : maxNum = 1 ∨ maxNum = 2) :
    ∃ M Bs, (∀ fuel, n * n * maxNum + maxNum ≤ fuel → rcdFit c ds n maxNum fuel = some (M, Bs)) ∧
      (∀ i j, j ∈ M i ↔ Affects n ps j i) ∧
      List.Forall₂ (fun B' g => ∀ i j, i < n → j < n → B' i j = some (g.B i j)) Bs ps := by
  have F := pooled_facts ho ht
  obtain ⟨M, hM, _⟩ := C25_ancestors_terminate (rcdTests c ds) n (maxNum := maxNum) (by omega)
  have hex : ExactR (Affects n ps) M :=
    loop_exactR F (by omega) (by omega) (good_empty _ n maxNum)
      (Or.inl ⟨rfl, fun i j h => absurd h (by simp), fun _ _ _ _ _ h => absurd h (by simp)⟩) (hM _ le_rfl)
  refine ⟨M, ds.map (fun g => adjacency g.coef n (extractParents (rcdTests c ds) n M)
    (extractConfounded (rcdTests c ds) n (extractParents (rcdTests c ds) n M))), ?_, hex, ?_⟩
  · intro fuel hfu
    unfold rcdFit
    rw [hM fuel hfu]
  · rw [List.forall₂_map_left_iff]
    have hmem : ∀ (l : List Pop) (l' : List RcdData), (∀ g ∈ l, g ∈ ps) →
        List.Forall₂ (fun d g => PerfectCoef n n g.σ g.X d.coef) l' l →
        List.Forall₂ (fun d g => ∀ i j, i < n → j < n →
          adjacency d.coef n (extractParents (rcdTests c ds) n M)
            (extractConfounded (rcdTests c ds) n (extractParents (rcdTests c ds) n M)) i j = some (g.B i j)) l' l := by
      intro l l' hl h
      induction h with
      | nil => exact .nil
      | cons hd _ ih =>
        refine .cons (fun i j hi hj => ?_) (ih fun g hg => hl g (by simp [hg]))
        exact pooled_adjacency ho ht hex (hl _ (by simp)) hd hi hj
    exact hmem ps ds (fun _ h => h) hcoef

/-- C185: populations with the same acyclic ancestor relation in which no total effect cancels have a common order, and
the effects are the ancestors. -/
theorem C185_same_ancestors {n : Nat} {ps : List Pop} {g0 : Pop} (hg0 : g0 ∈ ps) (hv : ∀ g ∈ ps, g.Valid n)
    (hac : Acyclic (Edge n g0.B 0)) (hsame : ∀ g ∈ ps, ∀ i j, TrueAncestor n g.B j i ↔ TrueAncestor n g0.B j i)
    (hf : ∀ g ∈ ps, ∀ i j, TrueAncestor n g.B j i → g.X i j ≠ 0) :
    CommonOrder n ps ∧ ∀ i j, Affects n ps j i ↔ TrueAncestor n g0.B j i := by
  have hacg : ∀ g ∈ ps, Acyclic (Edge n g.B 0) := fun g hg i hi => hac i ((hsame g hg i i).1 hi)
  have hiff : ∀ i j, Affects n ps j i ↔ TrueAncestor n g0.B j i := by
    intro i j
    constructor
    · rintro ⟨hj, hi, hne, g, hg, hX⟩
      rcases source_ancestor (hv g hg).1 (hacg g hg) hi hj hX with h | h
      · exact absurd h hne
      · exact (hsame g hg i j).1 h
    · intro h
      exact ⟨h.lt_left, h.lt_right, h.ne hac, g0, hg0, hf g0 hg0 i j h⟩
  refine ⟨⟨hv, fun g hg i j h => (hiff i j).2 ((hsame g hg i j).1 h), ?_⟩, hiff⟩
  intro a b c h1 h2
  exact (hiff c a).2 (((hiff b a).1 h1).trans ((hiff c b).1 h2))

/-! ### Tests that are right exist -/

/-- p-values of one population: 0 where the null hypothesis is false, 1 where it is true. -/
def popData (n : Nat) (g : Pop) (coef : Coef) : RcdData where
  shapiro := fun _ _ => 0
  pearson := fun A a B b => if (popTests n n g.σ g.X).corr A a B b then 0 else 1
  ols := fun H x l _ => if (popTests n n g.σ g.X).indep H x l then 1 else 0
  mlhsicr := fun _ _ _ _ => 0
  coef := coef

/-- HSIC, all levels 1/100, and a survival function that is 0 at infinity and 1 elsewhere. -/
def popCfg : RcdCfg := ⟨true, 1 / 100, 1 / 100, 1 / 100, 1 / 2, false, ⟨fun _ => 0, fun _ s => if s = none then 0 else 1⟩⟩

theorem fisher_pop (ps : List ℚ) : fisherP popCfg.F ps = if 0 ∈ ps then 0 else 1 := by
  unfold fisherP popCfg
  by_cases h : (0 : ℚ) ∈ ps
  · have : ps.any (fun p => decide (p = 0)) = true := List.any_eq_true.2 ⟨0, h, by simp⟩
    simp [this, h]
  · have : ps.any (fun p => decide (p = 0)) = false := by
      rw [List.any_eq_false]
      intro x hx h0
      simp only [decide_eq_true_eq] at h0
      exact h (h0 ▸ hx)
    simp [this, h]

/-- C185: for any populations there are data for which the pooled tests are right and the regressions exact. -/
theorem pooledTests_exist {n : Nat} {ps : List Pop} (hne : ps ≠ []) (hv : ∀ g ∈ ps, g.Valid n) :
    ∃ ds, PooledTests n ps (rcdTests popCfg ds) ∧
      List.Forall₂ (fun d g => PerfectCoef n n g.σ g.X d.coef) ds ps := by
  classical
  have hco : ∀ g : Pop, ∃ coef : Coef, g ∈ ps → PerfectCoef n n g.σ g.X coef := by
    intro g
    by_cases hg : g ∈ ps
    · obtain ⟨coef, h⟩ := perfectCoef_exists (hv g hg).2 n g.X
      exact ⟨coef, fun _ => h⟩
    · exact ⟨fun _ _ _ => 0, fun h => absurd h hg⟩
  choose coef hcoef using hco
  refine ⟨ps.map (fun g => popData n g (coef g)), ⟨?_, ?_, ?_⟩, ?_⟩
  · intro H x _ _ _
    obtain ⟨g, l, rfl⟩ := List.exists_cons_of_ne_nil hne
    simp only [rcdTests, List.map_map, fisher_pop]
    rw [if_pos (by simp [popData])]
    have : ¬ popCfg.shapiroAlpha < 0 := by unfold popCfg; norm_num
    simp [this]
  · intro P a Q b hP hQ ha hb
    simp only [rcdTests, List.map_map, fisher_pop, decide_eq_true_eq]
    have hlev : ∀ p : Prop, [Decidable p] → ((if p then (0 : ℚ) else 1) < popCfg.corAlpha ↔ p) := by
      intro p _
      unfold popCfg
      split
      · rename_i h; exact ⟨fun _ => h, fun _ => by norm_num⟩
      · rename_i h; exact ⟨fun hc => absurd hc (by norm_num), fun hc => absurd hc h⟩
    rw [hlev]
    simp only [List.mem_map, Function.comp_apply, popData, ite_eq_left_iff, one_ne_zero, imp_false, Bool.not_eq_true,
      Bool.not_eq_false]
    refine exists_congr fun g => and_congr_right fun hg => ?_
    exact (popTests_perfect (hv g hg).2 n g.X).corr P a Q b hP hQ ha hb
  · intro H x l hH hx hl
    have hlev : ∀ p : Prop, [Decidable p] → (popCfg.indAlpha < (if p then (0 : ℚ) else 1) ↔ ¬ p) := by
      intro p _
      unfold popCfg
      split
      · rename_i h; exact ⟨fun hc => absurd hc (by norm_num), fun hc => absurd h hc⟩
      · rename_i h; exact ⟨fun _ => h, fun _ => by norm_num⟩
    have hrw : ∀ g ∈ ps, ((popTests n n g.σ g.X).indep H x l = true ↔
        ∃ y r, (∀ u, u = x ∨ u ∈ l → IsResidual n g.σ g.X H (g.X u) (y u)) ∧ IsResidual n g.σ y l.toFinset (y x) r ∧
        ∀ u ∈ l, ShareNoSource n r (y u)) := fun g hg =>
      (popTests_perfect (hv g hg).2 n g.X).indep H x l hH hx hl
    have hone : ∀ y, rcdIndependent popCfg
        ((ps.map (fun g => popData n g (coef g))).map (fun g => g.ols H x l y)) = true ↔
        ∀ g ∈ ps, (popTests n n g.σ g.X).indep H x l = true := by
      intro y
      unfold rcdIndependent
      rw [if_pos (show popCfg.hsic = true from rfl), decide_eq_true_eq, fisher_pop, hlev]
      simp only [List.map_map, List.mem_map, Function.comp_apply, popData, not_exists, not_and]
      refine forall_congr' fun g => imp_congr_right fun _ => ?_
      cases (popTests n n g.σ g.X).indep H x l <;> simp
    have hmain : (rcdTests popCfg (ps.map (fun g => popData n g (coef g)))).indep H x l = true ↔
        ∀ g ∈ ps, (popTests n n g.σ g.X).indep H x l = true := by
      simp only [rcdTests]
      rw [show popCfg.useMlhsicr = false from rfl, Bool.and_false, Bool.false_and, Bool.or_false, List.all_eq_true]
      cases l with
      | nil =>
        refine ⟨fun _ g hg => ?_, fun _ y hy => absurd hy (by simp)⟩
        rw [hrw g hg]
        choose y hy using fun u => exists_residual (hv g hg).2 g.X H (g.X u)
        obtain ⟨r, hr⟩ := exists_residual (hv g hg).2 y [].toFinset (y x)
        exact ⟨y, r, fun u _ => hy u, hr, fun u hu => absurd hu (by simp)⟩
      | cons u l =>
        constructor
        · intro h; exact (hone u).1 (h u (by simp))
        · intro h y _; exact (hone y).2 h
    rw [hmain]
    exact forall₂_congr hrw
  · rw [List.forall₂_map_left_iff, List.forall₂_same]
    exact fun g hg => hcoef g hg

/-! ### A concrete case -/

/-- `0 → 1 → 2` and `0 → 2` with a total effect of 0 on 2 that cancels. -/
def canc : Pop := ⟨weights [(1, 0, 1), (2, 1, 1), (2, 0, -1)], rows [[1], [1, 1], [0, 1, 1]], fun _ => 1⟩

/-- `0 → 1` and `0 → 2` only. -/
def fork : Pop := ⟨weights [(1, 0, 2), (2, 0, 3)], rows [[1], [2, 1], [3, 0, 1]], fun _ => 1⟩

theorem canc_valid : canc.Valid 3 := ⟨⟨le_rfl, by decide +kernel⟩, fun _ _ => one_pos⟩
theorem fork_valid : fork.Valid 3 := ⟨⟨le_rfl, by decide +kernel⟩, fun _ _ => one_pos⟩

theorem two_affects (i j : Nat) : Affects 3 [canc, fork] j i ↔ i < 3 ∧ j < i := by
  constructor
  · rintro ⟨hj, hi, hne, g, hg, hX⟩
    refine ⟨hi, ?_⟩
    have h1 : ∀ i, i < 3 → ∀ j, j < 3 → j ≠ i → canc.X i j ≠ 0 → j < i := by decide +kernel
    have h2 : ∀ i, i < 3 → ∀ j, j < 3 → j ≠ i → fork.X i j ≠ 0 → j < i := by decide +kernel
    simp only [List.mem_cons, List.not_mem_nil, or_false] at hg
    rcases hg with rfl | rfl
    · exact h1 i hi j hj hne hX
    · exact h2 i hi j hj hne hX
  · rintro ⟨hi, hj⟩
    have h : ∀ i, i < 3 → ∀ j, j < 3 → j < i → canc.X i j ≠ 0 ∨ fork.X i j ≠ 0 := by decide +kernel
    refine ⟨by omega, hi, by omega, ?_⟩
    rcases h i hi j (by omega) hj with h | h
    · exact ⟨canc, by simp, h⟩
    · exact ⟨fork, by simp, h⟩

theorem lt_of_anc {n : Nat} {B : Nat → Nat → ℚ} (h : ∀ i, i < n → ∀ j, j < n → B i j ≠ 0 → j < i) {a b : Nat}
    (hab : TrueAncestor n B a b) : a < b := by
  induction hab with
  | single h' => exact h _ h'.2.1 _ h'.1 (abs_pos.1 h'.2.2)
  | tail _ h' ih => exact ih.trans (h _ h'.2.1 _ h'.1 (abs_pos.1 h'.2.2))

theorem two_order : CommonOrder 3 [canc, fork] where
  valid := by
    intro g hg
    simp only [List.mem_cons, List.not_mem_nil, or_false] at hg
    rcases hg with rfl | rfl
    · exact canc_valid
    · exact fork_valid
  anc := by
    intro g hg i j h
    rw [two_affects]
    simp only [List.mem_cons, List.not_mem_nil, or_false] at hg
    refine ⟨h.lt_right, ?_⟩
    rcases hg with rfl | rfl
    · exact lt_of_anc (by decide +kernel) h
    · exact lt_of_anc (by decide +kernel) h
  trans := by
    intro a b c h1 h2
    rw [two_affects] at *
    exact ⟨h2.1, h1.2.trans h2.2⟩

/-- C185: the first population alone is not recovered, because an effect cancels (1 is not recorded as an ancestor of 2);
together with the second population both matrices are exact. -/
theorem C185_pooling_recovers_cancelled_effect :
    (extractAncestors (popTests 3 3 canc.σ canc.X) 3 2 20).map (fun M => M 2) = some ∅ ∧
      PerfectTests 3 3 canc.σ canc.X (popTests 3 3 canc.σ canc.X) ∧ TrueAncestor 3 canc.B 1 2 ∧
      ∃ ds M B1 B2, rcdFit popCfg ds 3 2 20 = some (M, [B1, B2]) ∧ (∀ i j, j ∈ M i ↔ i < 3 ∧ j < i) ∧
        (∀ i j, i < 3 → j < 3 → B1 i j = some (canc.B i j)) ∧ ∀ i j, i < 3 → j < 3 → B2 i j = some (fork.B i j) := by
  refine ⟨by decide +kernel, popTests_perfect (fun _ _ => one_pos) 3 canc.X,
    .single ⟨by omega, by omega, by decide +kernel⟩, ?_⟩
  obtain ⟨ds, ht, hcoef⟩ := pooledTests_exist (n := 3) (ps := [canc, fork]) (by simp) two_order.valid
  obtain ⟨M, Bs, hfit, hM, hB⟩ := C185_groups_recovered two_order ht hcoef (maxNum := 2) (Or.inr rfl)
  cases hB with
  | cons h1 hB =>
    cases hB with
    | cons h2 hB =>
      cases hB
      exact ⟨ds, M, _, _, hfit 20 (by omega), fun i j => (hM i j).trans (two_affects i j), h1, h2⟩

/-- C185: two populations with the same ancestors and different weights. -/
example : ∃ (ps : List Pop) (g0 : Pop), g0 ∈ ps ∧ ps.length = 2 ∧ (∀ g ∈ ps, g.Valid 2) ∧ Acyclic (Edge 2 g0.B 0) ∧
    (∀ g ∈ ps, ∀ i j, TrueAncestor 2 g.B j i ↔ TrueAncestor 2 g0.B j i) ∧
    ∀ g ∈ ps, ∀ i j, TrueAncestor 2 g.B j i → g.X i j ≠ 0 := by
  let g (w : ℚ) : Pop := ⟨weights [(1, 0, w)], rows [[1], [w, 1]], fun _ => 1⟩
  have key : ∀ w : ℚ, w ≠ 0 → ∀ i j, TrueAncestor 2 (g w).B j i ↔ i = 1 ∧ j = 0 := by
    intro w hw i j
    have hB : ∀ i, i < 2 → ∀ j, j < 2 → (g w).B i j ≠ 0 → j < i := by
      intro i hi j hj h
      by_contra hc
      apply h
      have : ¬ (1 = i ∧ 0 = j) := by omega
      simp [g, weights, this]
    constructor
    · intro h
      have h1 := lt_of_anc hB h
      have h2 := h.lt_right
      omega
    · rintro ⟨rfl, rfl⟩
      refine .single ⟨by omega, by omega, ?_⟩
      have : (g w).B 1 0 = w := by simp [g, weights]
      rw [this]
      exact abs_pos.2 hw
  refine ⟨[g 1, g 5], g 1, by simp, rfl, ?_, ?_, ?_, ?_⟩
  · intro x hx
    simp only [List.mem_cons, List.not_mem_nil, or_false] at hx
    rcases hx with rfl | rfl
    · exact ⟨⟨le_rfl, by decide +kernel⟩, fun _ _ => one_pos⟩
    · exact ⟨⟨le_rfl, by decide +kernel⟩, fun _ _ => one_pos⟩
  · exact acyclic_of_lt (by decide +kernel)
  · intro x hx i j
    simp only [List.mem_cons, List.not_mem_nil, or_false] at hx
    rcases hx with rfl | rfl
    · rfl
    · rw [key 5 (by norm_num), key 1 (by norm_num)]
  · intro x hx i j h
    simp only [List.mem_cons, List.not_mem_nil, or_false] at hx
    rcases hx with rfl | rfl
    · obtain ⟨rfl, rfl⟩ := (key 1 (by norm_num) i j).1 h
      decide +kernel
    · obtain ⟨rfl, rfl⟩ := (key 5 (by norm_num) i j).1 h
      decide +kernel

/-! ### F-correlation -/

/-- Statistics of one population with F-correlation 0 where residuals are independent and 1 where they are not. -/
def popDataF (n : Nat) (g : Pop) (coef : Coef) : RcdData :=
  { popData n g coef with ols := fun H x l _ => if (popTests n n g.σ g.X).indep H x l then 0 else 1 }

/-- `independence='fcorr'`, `ind_corr = 0.5`. -/
def popCfgF : RcdCfg := { popCfg with hsic := false }

/-- C186 (partial): with F-correlation residuals are reported as independent exactly when they are below the threshold in
all data sets, provided the last data set is never the only one below. Missing: the other cases, where it fails. -/
theorem C186_fcorr_partial (c : RcdCfg) (hc : c.hsic = false) (vals : List ℚ) (hne : vals ≠ [])
    (hlast : vals.getLast hne < c.indCorr → ∀ v ∈ vals, v < c.indCorr) :
    rcdIndependent c vals = true ↔ ∀ v ∈ vals, v < c.indCorr := by
  unfold rcdIndependent
  rw [if_neg (by rw [hc]; simp), decide_eq_true_eq, List.getLast?_eq_some_getLast hne, Option.getD_some]
  exact ⟨hlast, fun h => h _ (List.getLast_mem hne)⟩

/-- Variable 0 causes variable 1. -/
def cause : Pop := ⟨weights [(1, 0, 1)], rows [[1], [1, 1]], fun _ => 1⟩

/-- No effects. -/
def apart : Pop := ⟨fun _ _ => 0, rows [[1], [0, 1]], fun _ => 1⟩

theorem cause_order : CommonOrder 2 [cause, apart] := by
  have h1 : ∀ i, i < 2 → ∀ j, j < 2 → cause.B i j ≠ 0 → j < i := by decide +kernel
  have h2 : ∀ i, i < 2 → ∀ j, j < 2 → apart.B i j ≠ 0 → j < i := by decide +kernel
  have hX : ∀ g ∈ [cause, apart], ∀ i, i < 2 → ∀ j, j < 2 → j ≠ i → g.X i j ≠ 0 → j < i := by
    intro g hg
    simp only [List.mem_cons, List.not_mem_nil, or_false] at hg
    rcases hg with rfl | rfl <;> decide +kernel
  have hA : Affects 2 [cause, apart] 0 1 := ⟨by omega, by omega, by omega, cause, by simp, by decide +kernel⟩
  refine ⟨?_, ?_, ?_⟩
  · intro g hg
    simp only [List.mem_cons, List.not_mem_nil, or_false] at hg
    rcases hg with rfl | rfl
    · exact ⟨⟨le_rfl, by decide +kernel⟩, fun _ _ => one_pos⟩
    · exact ⟨⟨le_rfl, by decide +kernel⟩, fun _ _ => one_pos⟩
  · intro g hg i j h
    have hlt : j < i := by
      simp only [List.mem_cons, List.not_mem_nil, or_false] at hg
      rcases hg with rfl | rfl
      · exact lt_of_anc h1 h
      · exact lt_of_anc h2 h
    have := h.lt_right
    obtain rfl : i = 1 := by omega
    obtain rfl : j = 0 := by omega
    exact hA
  · rintro a b c ⟨ha, hb, hab, g, hg, hg'⟩ ⟨_, hc, hbc, g', hg1, hg2⟩
    have := hX g hg b hb a ha hab hg'
    have := hX g' hg1 c hc b hb hbc hg2
    omega

/-- C186 (violated): 0 causes 1 in the first population and every statistic is right. With F-correlation only the data
set given last is looked at: 0 is not recorded as a cause of 1 and the first matrix has NaN in place of the effect. With
the two data sets exchanged the effect is found. -/
theorem C186_fcorr_loses_cause : CommonOrder 2 [cause, apart] ∧ Affects 2 [cause, apart] 0 1 ∧
    (rcdFit popCfgF [popDataF 2 cause (fun _ _ _ => 1), popDataF 2 apart (fun _ _ _ => 0)] 2 2 20).map
      (fun r => (r.1 1, r.2.map (fun B => B 1 0))) = some (∅, [none, none]) ∧
    (rcdFit popCfgF [popDataF 2 apart (fun _ _ _ => 0), popDataF 2 cause (fun _ _ _ => 1)] 2 2 20).map
      (fun r => (r.1 1, r.2.map (fun B => B 1 0))) = some ({0}, [some 0, some 1]) := by
  refine ⟨cause_order, ⟨by omega, by omega, by omega, cause, by simp, by decide +kernel⟩, ?_, ?_⟩ <;> decide +kernel

/-- C186: values of three data sets, the last one largest. -/
example : rcdIndependent popCfgF [1 / 10, 2 / 10, 3 / 10] = true ∧
    ([1 / 10, 2 / 10, 3 / 10] : List ℚ).getLast (by simp) < popCfgF.indCorr := by decide +kernel

end Verif.MultiGroup
