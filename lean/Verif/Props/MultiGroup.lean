import Verif.Model.MultiGroup
import Verif.Proofs.Numpy
import Verif.Props.DirectLingam
import Verif.Props.Rcd
import Verif.Props.Camuv
import Mathlib.Algebra.Order.BigOperators.Group.List
import Mathlib.Algebra.BigOperators.Group.List.Lemmas

/-! Properties of the multi-group methods. -/
set_option autoImplicit false
set_option linter.unusedSectionVars false
namespace Verif.MultiGroup

variable {K : Type} [Field K]

/-! ### C48: order of the data sets -/

theorem groupScore_perm {gs gs' : List (Data K)} (h : gs.Perm gs') : groupScore gs = groupScore gs' := by
  funext A U Uc Vj i
  unfold groupScore
  rw [h.any_eq, (h.map Data.size).sum_eq]
  congr 2
  rw [(h.map _).sum_eq]

/-- **C48 (DirectLiNGAM).** Permuting the data sets does not change the causal order, and permutes the adjacency
matrices in the same way (each data set keeps its own matrix). -/
theorem C48_direct (pk : Option Direct.PK) (soft : Bool) {gs gs' : List (Data K)} (h : gs.Perm gs') (n : Nat) :
    fitOrder pk soft gs n = fitOrder pk soft gs' n ∧
    ∀ o Bs, fit pk soft gs n = .ok (o, Bs) → ∃ F : Data K → (Nat → Nat → K),
      Bs = gs.map F ∧ fit pk soft gs' n = .ok (o, gs'.map F) := by
  have h1 : fitOrder pk soft gs n = fitOrder pk soft gs' n := by
    unfold fitOrder; rw [groupScore_perm h]
  refine ⟨h1, fun o Bs hf => ?_⟩
  unfold fit at hf ⊢
  rw [← h1]
  cases ho : fitOrder pk soft gs n with
  | error e => rw [ho] at hf; cases hf
  | ok o' =>
    rw [ho] at hf
    cases hf
    exact ⟨fun g => Direct.estimateAdj pk g.lasso o, rfl, rfl⟩

theorem fisherP_perm (F : Fisher) {ps qs : List ℚ} (h : ps.Perm qs) : fisherP F ps = fisherP F qs := by
  unfold fisherP
  rw [h.length_eq, h.any_eq, (h.map _).sum_eq]

theorem maxCorr_perm {ps qs : List ℚ} (h : ps.Perm qs) : maxCorr ps = maxCorr qs := by
  unfold maxCorr
  refine h.foldl_eq' (fun x _ y _ z => ?_) 0
  by_cases h1 : z < x
  · by_cases h2 : z < y
    · simp only [h1, h2, if_true]
      by_cases h3 : x < y
      · simp [h3, not_lt.2 (le_of_lt h3)]
      · by_cases h4 : y < x
        · simp [h3, h4]
        · simp [le_antisymm (not_lt.1 h4) (not_lt.1 h3)]
    · have h3 : ¬ x < y := fun h => h2 (lt_trans h1 h)
      simp [h1, h2, h3]
  · by_cases h2 : z < y
    · have h3 : ¬ y < x := fun h => h1 (lt_trans h2 h)
      simp [h1, h2, h3]
    · simp [h1, h2]

theorem rcdTests_perm (c : RcdCfg) (hc : c.hsic = true) {gs gs' : List RcdData} (h : gs.Perm gs') :
    rcdTests c gs = rcdTests c gs' := by
  have hi : ∀ f : RcdData → ℚ, rcdIndependent c (gs.map f) = rcdIndependent c (gs'.map f) := by
    intro f
    unfold rcdIndependent
    rw [hc, if_pos rfl, if_pos rfl, fisherP_perm c.F (h.map f)]
  unfold rcdTests
  congr 1
  · funext H x; rw [fisherP_perm c.F (h.map _)]
  · funext A a B b; rw [fisherP_perm c.F (h.map _)]
  · funext H x l; simp only [hi]

/-- **C48 (RCD, partial).** With the HSIC measure, permuting the data sets changes neither the ancestors nor the
matrix of each data set.  Missing: `independence="fcorr"`, where it is false (`C48_rcd_fcorr_depends_on_order`). -/
theorem C48_rcd_partial (c : RcdCfg) (hc : c.hsic = true) {gs gs' : List RcdData} (h : gs.Perm gs')
    (n maxNum fuel : Nat) (M : Rcd.Anc) (Bs : List (Nat → Nat → Option ℚ))
    (hf : rcdFit c gs n maxNum fuel = some (M, Bs)) : ∃ F : RcdData → (Nat → Nat → Option ℚ),
      Bs = gs.map F ∧ rcdFit c gs' n maxNum fuel = some (M, gs'.map F) := by
  unfold rcdFit at hf ⊢
  rw [← rcdTests_perm c hc h]
  cases hM : Rcd.extractAncestors (rcdTests c gs) n maxNum fuel with
  | none => rw [hM] at hf; cases hf
  | some M' =>
    rw [hM] at hf
    cases hf
    exact ⟨fun g => Rcd.adjacency g.coef n (Rcd.extractParents (rcdTests c gs) n M)
      (Rcd.extractConfounded (rcdTests c gs) n (Rcd.extractParents (rcdTests c gs) n M)), rfl, rfl⟩

/-- **C48 (CAM-UV).** Permuting the data sets does not change the result, for both measures. -/
theorem C48_camuv (F : Fisher) (hsic : Bool) (alpha indCorr : ℚ) (prior : Option (List (Nat × Nat)))
    (iter : List Nat → List Nat) {gs gs' : List CamData} (h : gs.Perm gs') (d maxnum fuel : Nat) :
    Camuv.fit (camCfg F hsic alpha indCorr prior iter gs) d maxnum fuel =
      Camuv.fit (camCfg F hsic alpha indCorr prior iter gs') d maxnum fuel := by
  have : camCfg F hsic alpha indCorr prior iter gs = camCfg F hsic alpha indCorr prior iter gs' := by
    unfold camCfg
    congr 1
    funext a A l
    rw [fisherP_perm F (h.map _), maxCorr_perm (h.map _)]
  rw [this]

/-- The maximum that CAM-UV compares is really the maximum of the correlations (and 0). -/
theorem maxCorr_spec (vals : List ℚ) : 0 ≤ maxCorr vals ∧ (∀ v ∈ vals, v ≤ maxCorr vals) ∧
    (maxCorr vals = 0 ∨ maxCorr vals ∈ vals) := by
  have gen : ∀ (l : List ℚ) (a : ℚ), a ≤ l.foldl (fun m v => if m < v then v else m) a ∧
      (∀ v ∈ l, v ≤ l.foldl (fun m v => if m < v then v else m) a) ∧
      (l.foldl (fun m v => if m < v then v else m) a = a ∨ l.foldl (fun m v => if m < v then v else m) a ∈ l) := by
    intro l
    induction l with
    | nil => intro a; simp
    | cons x l ih =>
      intro a
      rw [List.foldl_cons]
      obtain ⟨h1, h2, h3⟩ := ih (if a < x then x else a)
      have ha : a ≤ (if a < x then x else a) := by
        by_cases h : a < x
        · rw [if_pos h]; exact le_of_lt h
        · rw [if_neg h]
      have hx : x ≤ (if a < x then x else a) := by
        by_cases h : a < x
        · rw [if_pos h]
        · rw [if_neg h]; exact not_lt.1 h
      refine ⟨le_trans ha h1, ?_, ?_⟩
      · intro v hv
        rcases List.mem_cons.1 hv with rfl | hv
        · exact le_trans hx h1
        · exact h2 v hv
      · rcases h3 with h3 | h3
        · by_cases h : a < x
          · rw [if_pos h] at h3 ⊢; right; rw [h3]; simp
          · rw [if_neg h] at h3 ⊢; left; exact h3
        · right; exact List.mem_cons_of_mem _ h3
  exact gen vals 0

/-- Two data sets that differ only in the F-correlation of the residual of variable 1 on variable 0. -/
def wRcd (v : ℚ) : RcdData := ⟨fun _ _ => 0, fun _ _ _ _ => 0, fun _ x _ _ => if x = 1 then v else 1, fun _ _ _ _ => 1,
  fun _ _ _ => 1⟩
/-- The measure is the F-correlation with limit 1/2. -/
def wCfg : RcdCfg := ⟨false, 1 / 100, 1 / 100, 1 / 100, 1 / 2, false, ⟨fun x => x, fun _ s => if s = none then 0 else 1⟩⟩

/-- **C48 is violated for RCD with `fcorr`**: swapping two data sets changes the ancestors. -/
theorem C48_rcd_fcorr_depends_on_order :
    (rcdFit wCfg [wRcd (9 / 10), wRcd (1 / 10)] 2 2 10).map (fun r => decide (0 ∈ r.1 1)) = some true ∧
    (rcdFit wCfg [wRcd (1 / 10), wRcd (9 / 10)] 2 2 10).map (fun r => decide (0 ∈ r.1 1)) = some false := by
  decide +kernel

/-- Only the last data set counts: with `fcorr`, the independence decision is the one of the last data set alone. -/
theorem C48_rcd_fcorr_last (c : RcdCfg) (hc : c.hsic = false) (gs : List RcdData) (g : RcdData) (f : RcdData → ℚ) :
    rcdIndependent c ((gs ++ [g]).map f) = rcdIndependent c [f g] := by
  unfold rcdIndependent
  rw [hc, List.map_append, List.map_cons, List.map_nil, List.getLast?_append, List.getLast?_singleton]
  rfl

/-! ### C89: agreement -/

theorem candidates_nodup (cfg : Direct.Config) (po : List (Nat × Nat)) {U : List Nat} (h : U.Nodup) :
    (Direct.searchCandidate cfg po U).1.Nodup := by
  unfold Direct.searchCandidate
  cases cfg.pk with
  | none => exact h
  | some pk =>
    simp only []
    split
    · split
      · exact h.filter _
      · exact h
    · simp only []
      split
      · exact h.filter _
      · exact h.filter _

theorem loop_head {cfg : Direct.Config} {s : Direct.Score} : ∀ {r : Nat} {A U : List Nat} {po : List (Nat × Nat)}
    {o : List Nat}, Direct.orderLoop cfg s r A U po = .ok o → ∃ t, o = A ++ t
  | 0, A, U, po, o, h => by
    unfold Direct.orderLoop at h; cases h; exact ⟨[], by simp⟩
  | r + 1, A, U, po, o, h => by
    unfold Direct.orderLoop at h
    cases hs : Direct.searchOrder cfg s po A U with
    | none => rw [hs] at h; cases h
    | some m =>
      rw [hs] at h
      obtain ⟨t, ht⟩ := loop_head h
      exact ⟨m :: t, by rw [ht]; simp⟩

theorem firstBest_group {gs : List (Data K)} (hne : gs ≠ []) (hsize : ∀ g ∈ gs, 0 < g.size) (A U Uc Vj : List Nat)
    (p : Nat) (h : ∀ g ∈ gs, FirstBest (Uc.map (single g A U Uc Vj)) p) :
    FirstBest (Uc.map (groupScore gs A U Uc Vj)) p := by
  have hp : p < Uc.length := by
    obtain ⟨g, hg⟩ := List.exists_mem_of_ne_nil gs hne
    by_contra hc
    rcases h g hg with ⟨h1, _⟩ | ⟨m, h1, _⟩ <;>
    · rw [List.getElem?_eq_none (by simpa using hc)] at h1; cases h1
  have hget : ∀ (f : Nat → Option ℚ) (j : Nat) (hj : j < Uc.length), (Uc.map f)[j]? = some (f Uc[j]) := by
    intro f j hj
    rw [List.getElem?_map, List.getElem?_eq_getElem hj]; rfl
  have hnone : ∀ g : Data K, ∀ i, single g A U Uc Vj i = none ↔ g.M A U Uc Vj i = none := by
    intro g i; simp [single]
  by_cases hA : ∃ g ∈ gs, g.M A U Uc Vj Uc[p] = none
  · left
    obtain ⟨g, hg, hgn⟩ := hA
    constructor
    · rw [hget _ _ hp]
      unfold groupScore
      rw [if_pos (List.any_eq_true.2 ⟨g, hg, by rw [hgn]; rfl⟩)]
    · intro j hj
      rw [hget _ _ (by omega)]
      unfold groupScore
      rw [if_neg]
      · exact ⟨_, rfl⟩
      · rw [List.any_eq_true]
        rintro ⟨g', hg', hn⟩
        have hn' : single g' A U Uc Vj Uc[j] = none := (hnone g' _).2 (by simpa using hn)
        rcases h g' hg' with ⟨_, h2⟩ | ⟨m, _, h2⟩
        · obtain ⟨w, hw⟩ := h2 j hj
          rw [hget _ _ (by omega), hn'] at hw; cases hw
        · obtain ⟨w, hw, _⟩ := h2 j _ (hget _ _ (by omega))
          rw [hn'] at hw; cases hw
  · right
    push Not at hA
    have hB : ∀ g ∈ gs, ∃ x, g.M A U Uc Vj Uc[p] = some x ∧ ∀ j (hj : j < Uc.length),
        ∃ y, g.M A U Uc Vj Uc[j] = some y ∧ x ≤ y ∧ (j < p → x < y) := by
      intro g hg
      rcases h g hg with ⟨h1, _⟩ | ⟨m, h1, h2⟩
      · rw [hget _ _ hp, Option.some.injEq, hnone] at h1
        exact absurd h1 (hA g hg)
      · rw [hget _ _ hp] at h1
        cases hx : g.M A U Uc Vj Uc[p] with
        | none => exact absurd hx (hA g hg)
        | some x =>
          have hm : m = -x := by simpa [single, hx] using h1.symm
          refine ⟨x, rfl, fun j hj => ?_⟩
          obtain ⟨w, hw, hle, hlt⟩ := h2 j _ (hget _ _ hj)
          cases hy : g.M A U Uc Vj Uc[j] with
          | none => simp [single, hy] at hw
          | some y =>
            have hwy : w = -y := by simpa [single, hy] using hw.symm
            subst hwy hm
            exact ⟨y, rfl, by linarith, fun h => by linarith [hlt h]⟩
    have htot : (0 : ℚ) < ((gs.map Data.size).sum : ℚ) := by
      obtain ⟨g, hg⟩ := List.exists_mem_of_ne_nil gs hne
      have : g.size ≤ (gs.map Data.size).sum := List.single_le_sum (fun _ _ => Nat.zero_le _) _ (List.mem_map_of_mem hg)
      exact_mod_cast lt_of_lt_of_le (hsize g hg) this
    have hval : ∀ j (hj : j < Uc.length), groupScore gs A U Uc Vj Uc[j] = some (-((gs.map (fun g =>
        ((g.M A U Uc Vj Uc[j]).getD 0) * ((g.size : ℚ) / ((gs.map Data.size).sum : ℚ)))).sum)) := by
      intro j hj
      unfold groupScore
      rw [if_neg]
      rw [List.any_eq_true]
      rintro ⟨g, hg, hn⟩
      obtain ⟨x, _, h2⟩ := hB g hg
      obtain ⟨y, hy, _⟩ := h2 j hj
      rw [hy] at hn; cases hn
    refine ⟨_, by rw [hget _ _ hp, hval p hp], ?_⟩
    intro j x hx
    have hj : j < Uc.length := by
      by_contra hc
      rw [List.getElem?_eq_none (by simpa using hc)] at hx; cases hx
    rw [hget _ _ hj, hval j hj, Option.some.injEq] at hx
    refine ⟨_, hx.symm, ?_, ?_⟩
    · apply neg_le_neg
      apply List.sum_le_sum
      intro g hg
      obtain ⟨x, hx1, h2⟩ := hB g hg
      obtain ⟨y, hy, hle, _⟩ := h2 j hj
      rw [hx1, hy]
      exact mul_le_mul_of_nonneg_right hle (le_of_lt (div_pos (by exact_mod_cast hsize g hg) htot))
    · intro hjp
      apply neg_lt_neg
      apply List.sum_lt_sum_of_ne_nil hne
      intro g hg
      obtain ⟨x, hx1, h2⟩ := hB g hg
      obtain ⟨y, hy, _, hlt⟩ := h2 j hj
      rw [hx1, hy]
      exact mul_lt_mul_of_pos_right (hlt hjp) (div_pos (by exact_mod_cast hsize g hg) htot)

theorem search_agree {pk : Option Direct.PK} {soft : Bool} {gs : List (Data K)} (hne : gs ≠ [])
    (hsize : ∀ g ∈ gs, 0 < g.size) {po : List (Nat × Nat)} {A U : List Nat} (hU : U.Nodup) {m : Nat}
    (h : ∀ g ∈ gs, Direct.searchOrder ⟨pk, soft, .pwling⟩ (single g) po A U = some m) :
    Direct.searchOrder ⟨pk, soft, .pwling⟩ (groupScore gs) po A U = some m := by
  have hnd := candidates_nodup ⟨pk, soft, .pwling⟩ po hU
  unfold Direct.searchOrder at h ⊢
  simp only [] at h ⊢
  generalize Direct.searchCandidate ⟨pk, soft, .pwling⟩ po U = UV at h hnd ⊢
  obtain ⟨Uc, Vj⟩ := UV
  simp only [] at h hnd ⊢
  obtain ⟨g0, hg0⟩ := List.exists_mem_of_ne_nil gs hne
  match Uc, h, hnd with
  | [c], h, _ => exact h g0 hg0
  | [], h, _ => have := h g0 hg0; simp [argmax] at this
  | a :: b :: l, h, hnd =>
    simp only [] at h ⊢
    have hp : ∀ g ∈ gs, ∃ p, argmax ((a :: b :: l).map (single g A U (a :: b :: l) Vj)) = some p ∧
        (a :: b :: l)[p]? = some m := by
      intro g hg
      exact Option.bind_eq_some_iff.1 (h g hg)
    obtain ⟨p, _, hpm⟩ := hp g0 hg0
    have hall : ∀ g ∈ gs, FirstBest ((a :: b :: l).map (single g A U (a :: b :: l) Vj)) p := by
      intro g hg
      obtain ⟨q, hq, hqm⟩ := hp g hg
      have hqp : q = p := by
        have hql : q < (a :: b :: l).length := by
          by_contra hc; rw [List.getElem?_eq_none (by omega)] at hqm; cases hqm
        exact (List.getElem?_inj hql hnd).1 (hqm.trans hpm.symm)
      rw [← hqp]
      exact argmax_firstBest hq
    rw [argmax_of_firstBest (firstBest_group hne hsize A U _ Vj p hall)]
    exact hpm

theorem loop_agree {pk : Option Direct.PK} {soft : Bool} {gs : List (Data K)} (hne : gs ≠ [])
    (hsize : ∀ g ∈ gs, 0 < g.size) : ∀ {r : Nat} {A U : List Nat} {po : List (Nat × Nat)} {o : List Nat}, U.Nodup →
    (∀ g ∈ gs, Direct.orderLoop ⟨pk, soft, .pwling⟩ (single g) r A U po = .ok o) →
    Direct.orderLoop ⟨pk, soft, .pwling⟩ (groupScore gs) r A U po = .ok o
  | 0, A, U, po, o, _, h => by
    obtain ⟨g0, hg0⟩ := List.exists_mem_of_ne_nil gs hne
    exact h g0 hg0
  | r + 1, A, U, po, o, hU, h => by
    obtain ⟨g0, hg0⟩ := List.exists_mem_of_ne_nil gs hne
    have hstep : ∀ g ∈ gs, ∃ m t, Direct.searchOrder ⟨pk, soft, .pwling⟩ (single g) po A U = some m ∧ o = A ++ m :: t := by
      intro g hg
      have := h g hg
      unfold Direct.orderLoop at this
      cases hs : Direct.searchOrder ⟨pk, soft, .pwling⟩ (single g) po A U with
      | none => rw [hs] at this; cases this
      | some m =>
        rw [hs] at this
        obtain ⟨t, ht⟩ := loop_head this
        exact ⟨m, t, rfl, by rw [ht]; simp⟩
    obtain ⟨m, t, hs, ho⟩ := hstep g0 hg0
    have hall : ∀ g ∈ gs, Direct.searchOrder ⟨pk, soft, .pwling⟩ (single g) po A U = some m := by
      intro g hg
      obtain ⟨m', t', hs', ho'⟩ := hstep g hg
      rw [ho] at ho'
      have := List.append_cancel_left ho'
      rw [List.cons.injEq] at this
      rw [hs', this.1]
    unfold Direct.orderLoop
    rw [search_agree hne hsize hU hall]
    simp only []
    refine loop_agree hne hsize (hU.filter _) (fun g hg => ?_)
    have := h g hg
    unfold Direct.orderLoop at this
    rw [hall g hg] at this
    exact this

/-- **C89.** If every data set taken alone gives the same causal order, the joint fit gives that order; with or
without prior knowledge, and also when statistics are NaN. -/
theorem C89_agreement (pk : Option Direct.PK) (soft : Bool) (gs : List (Data K)) (hne : gs ≠ [])
    (hsize : ∀ g ∈ gs, 0 < g.size) (n : Nat) (o : List Nat)
    (h : ∀ g ∈ gs, Direct.fitOrder ⟨pk, soft, .pwling⟩ (single g) n = .ok o) : fitOrder pk soft gs n = .ok o := by
  unfold fitOrder
  unfold Direct.fitOrder at h ⊢
  cases pk with
  | none => exact loop_agree hne hsize List.nodup_range h
  | some pk =>
    simp only [] at h ⊢
    by_cases hs : soft = true
    · simp only [hs, if_true] at h ⊢
      exact loop_agree hne hsize List.nodup_range h
    · simp only [hs] at h ⊢
      cases he : Direct.extractPartialOrders n pk with
      | error e =>
        obtain ⟨g0, hg0⟩ := List.exists_mem_of_ne_nil gs hne
        have := h g0 hg0
        rw [he] at this
        simp at this
      | ok po =>
        rw [he] at h
        simp only [Bool.false_eq_true, if_false] at h ⊢
        exact loop_agree hne hsize List.nodup_range h

/-- A data set that prefers larger indices, with weight `w`. -/
def wData (s : Nat) (w : ℚ) : Data ℚ := ⟨s, fun _ _ _ _ i => some (w / (i + 1)), fun _ _ _ => 1⟩

example : (∀ g ∈ [wData 3 1, wData 5 2], (Direct.fitOrder ⟨none, false, .pwling⟩ (single g) 3).toOption = some [2, 1, 0]) ∧
    (fitOrder none false [wData 3 1, wData 5 2] 3).toOption = some [2, 1, 0] := by decide +kernel

/-- **C89 (structure).** Every accepted joint fit gives a permutation, one matrix for each data set, and every matrix
has edges only from earlier to later variables of the common order. -/
theorem C89_common_order (pk : Option Direct.PK) (soft : Bool) (gs : List (Data K)) (n : Nat) (o : List Nat)
    (Bs : List (Nat → Nat → K)) (h : fit pk soft gs n = .ok (o, Bs)) :
    IsOrder n o ∧ Bs.length = gs.length ∧ ∀ B ∈ Bs, ∀ r c, B r c ≠ 0 → Before o c r := by
  unfold fit at h
  cases ho : fitOrder pk soft gs n with
  | error e => rw [ho] at h; cases h
  | ok o' =>
    rw [ho] at h
    cases h
    refine ⟨Direct.fitOrder_isOrder ho, by simp, ?_⟩
    intro B hB r c hne
    obtain ⟨g, _, rfl⟩ := List.mem_map.1 hB
    exact Direct.estimateAdj_before hne

/-! ### C90: evidence -/

/-- **C90 (partial).** Combined p-values grow with every single p-value (logarithm increasing on positive numbers,
survival function decreasing and 0 at infinity): so a decision for independence by HSIC cannot be lost when the
p-values of some data sets increase.  Missing: `fcorr` in RCD (`C48_rcd_fcorr_last`), where only the last data set
counts. -/
theorem C90_monotone_partial (F : Fisher) (hlg : ∀ a b, 0 < a → a ≤ b → F.lg a ≤ F.lg b)
    (hsf : ∀ k a b, a ≤ b → F.sf k (some b) ≤ F.sf k (some a)) (hinf : ∀ k a, F.sf k none ≤ F.sf k a)
    (ps qs : List ℚ) (hps : ∀ p ∈ ps, 0 ≤ p) (h : List.Forall₂ (fun p q => p ≤ q) ps qs) :
    fisherP F ps ≤ fisherP F qs := by
  unfold fisherP
  rw [h.length_eq]
  by_cases hz : ps.any (fun p => decide (p = 0)) = true
  · rw [if_pos hz]
    exact hinf _ _
  · rw [if_neg hz]
    have hpos : ∀ p ∈ ps, 0 < p := by
      intro p hp
      refine lt_of_le_of_ne (hps p hp) (fun h0 => hz (List.any_eq_true.2 ⟨p, hp, by simp [h0.symm]⟩))
    have hqz : ¬ qs.any (fun p => decide (p = 0)) = true := by
      intro hany
      obtain ⟨q, hq, hq0⟩ := List.any_eq_true.1 hany
      simp only [decide_eq_true_eq] at hq0
      subst hq0
      clear hz hps hany
      induction h with
      | nil => cases hq
      | cons hab _ ih =>
        rcases List.mem_cons.1 hq with rfl | hq
        · exact absurd (lt_of_lt_of_le (hpos _ (by simp)) hab) (lt_irrefl _)
        · exact ih (fun p hp => hpos p (List.mem_cons_of_mem _ hp)) hq
    rw [if_neg hqz]
    apply hsf
    clear hz hqz hps
    induction h with
    | nil => simp
    | cons hab _ ih =>
      simp only [List.map_cons, List.sum_cons]
      have := hlg _ _ (hpos _ (by simp)) hab
      have := ih (fun p hp => hpos p (by simp [hp]))
      linarith

example : List.Forall₂ (fun p q : ℚ => p ≤ q) [1 / 10, 1 / 5] [1 / 5, 1 / 2] := by
  refine .cons (by norm_num) (.cons (by norm_num) .nil)

/-- Specification of Fisher's method: `q` is the probability that a chi-square variable with two degrees of freedom for
each p-value exceeds `-2 Σ log p` (infinite if some p-value is 0). -/
def Combined (F : Fisher) (ps : List ℚ) (q : ℚ) : Prop :=
  ((∃ p ∈ ps, p = 0) ∧ q = F.sf (2 * ps.length) none) ∨
  ((∀ p ∈ ps, p ≠ 0) ∧ q = F.sf (2 * ps.length) (some (-2 * (ps.map F.lg).sum)))

theorem combined_iff (F : Fisher) (ps : List ℚ) (q : ℚ) : Combined F ps q ↔ fisherP F ps = q := by
  have hs : (ps.map (fun p => -2 * F.lg p)).sum = -2 * (ps.map F.lg).sum := by
    induction ps with
    | nil => simp
    | cons a l ih => simp only [List.map_cons, List.sum_cons, ih]; ring
  unfold Combined fisherP
  rw [hs]
  by_cases hz : ps.any (fun p => decide (p = 0)) = true
  · rw [if_pos hz]
    obtain ⟨p, hp, h0⟩ := List.any_eq_true.1 hz
    simp only [decide_eq_true_eq] at h0
    constructor
    · rintro (⟨_, h⟩ | ⟨h, _⟩)
      · exact h.symm
      · exact absurd h0 (h p hp)
    · intro h
      exact Or.inl ⟨⟨p, hp, h0⟩, h.symm⟩
  · rw [if_neg hz]
    have hn : ∀ p ∈ ps, p ≠ 0 := fun p hp h0 => hz (List.any_eq_true.2 ⟨p, hp, by simp [h0]⟩)
    constructor
    · rintro (⟨⟨p, hp, h0⟩, _⟩ | ⟨_, h⟩)
      · exact absurd h0 (hn p hp)
      · exact h.symm
    · intro h
      exact Or.inr ⟨hn, h.symm⟩

/-- **C90 (decisions).** With HSIC, all decisions of the joint RCD are the documented comparisons of the combined
p-values of all data sets: non-Gaussian if not above `shapiro_alpha`, correlated if below `cor_alpha`, independent of the
residual if above `ind_alpha` for every explanatory variable, where for two or more of them the kernel regression may
take the place of least squares if `MLHSICR` is set. -/
theorem C90_rcd_decisions (c : RcdCfg) (hc : c.hsic = true) (gs : List RcdData) :
    (∀ H x, (rcdTests c gs).nonGauss H x = true ↔ ∀ q, Combined c.F (gs.map (fun g => g.shapiro H x)) q → q ≤ c.shapiroAlpha) ∧
    (∀ A a B b, (rcdTests c gs).corr A a B b = true ↔
      ∀ q, Combined c.F (gs.map (fun g => g.pearson A a B b)) q → q < c.corAlpha) ∧
    (∀ H x l, (rcdTests c gs).indep H x l = true ↔
      (∀ y ∈ l, ∀ q, Combined c.F (gs.map (fun g => g.ols H x l y)) q → c.indAlpha < q) ∨
      (c.useMlhsicr = true ∧ l.length ≠ 1 ∧
        ∀ y ∈ l, ∀ q, Combined c.F (gs.map (fun g => g.mlhsicr H x l y)) q → c.indAlpha < q)) := by
  have h1 : ∀ vals : List ℚ, rcdIndependent c vals = true ↔ ∀ q, Combined c.F vals q → c.indAlpha < q := by
    intro vals
    unfold rcdIndependent
    rw [hc, if_pos rfl]
    simp only [combined_iff, decide_eq_true_eq, forall_eq']
  refine ⟨?_, ?_, ?_⟩
  · intro H x
    simp only [rcdTests, combined_iff, forall_eq', Bool.not_eq_true', decide_eq_false_iff_not, not_lt]
  · intro A a B b
    simp only [rcdTests, combined_iff, forall_eq', decide_eq_true_eq]
  · intro H x l
    simp only [rcdTests, Bool.or_eq_true, Bool.and_eq_true, List.all_eq_true, decide_eq_true_eq, h1]
    constructor
    · rintro (h | ⟨⟨h2, h3⟩, h4⟩)
      · exact Or.inl h
      · exact Or.inr ⟨h3, h2, h4⟩
    · rintro (h | ⟨h2, h3, h4⟩)
      · exact Or.inl h
      · exact Or.inr ⟨⟨h3, h2⟩, h4⟩

/-- **C90 (CAM-UV decisions).** Two residuals count as independent if the combined p-value is above `alpha` (HSIC), or if
the F-correlation of every data set is below `ind_corr` (F-correlation, with a positive limit). -/
theorem C90_camuv_decisions (F : Fisher) (hsic : Bool) (alpha indCorr : ℚ) (hpos : 0 < indCorr)
    (prior : Option (List (Nat × Nat))) (iter : List Nat → List Nat) (gs : List CamData) (a : Nat) (A : Finset Nat)
    (l : List (Nat × Finset Nat)) :
    Camuv.isInd (camCfg F hsic alpha indCorr prior iter gs) ((camCfg F hsic alpha indCorr prior iter gs).val a A l) = true ↔
      if hsic = true then ∀ q, Combined F (gs.map (fun g => g a A l)) q → alpha < q else ∀ g ∈ gs, g a A l < indCorr := by
  cases hsic with
  | true => simp only [camCfg, Camuv.isInd, Camuv.isIndBy, if_true, combined_iff, forall_eq', decide_eq_true_eq]
  | false =>
    simp only [camCfg, Camuv.isInd, Camuv.isIndBy, Bool.false_eq_true, if_false, decide_eq_true_eq]
    obtain ⟨_, h2, h3⟩ := maxCorr_spec (gs.map (fun g => g a A l))
    constructor
    · intro h g hg
      exact lt_of_le_of_lt (h2 _ (List.mem_map.2 ⟨g, hg, rfl⟩)) h
    · intro h
      rcases h3 with h3 | h3
      · rw [h3]; exact hpos
      · obtain ⟨g, hg, he⟩ := List.mem_map.1 h3
        rw [← he]
        exact h g hg

/-- Two data sets with p-values 1/2 and 1/4, survival function `1 / (1 + s)`, four degrees of freedom. -/
example : Combined ⟨fun x => x - 1, fun d s => match s with | none => 0 | some s => d / (4 * (1 + s))⟩ [1 / 2, 1 / 4] (2 / 7) := by
  right
  norm_num

/-! ### C91: effects of confounded variables -/

/-- Which entries of the joint matrices are NaN does not depend on the data set. -/
theorem rcd_nan_common (c : RcdCfg) (gs : List RcdData) (n maxNum fuel : Nat) (M : Rcd.Anc)
    (Bs : List (Nat → Nat → Option ℚ)) (h : rcdFit c gs n maxNum fuel = some (M, Bs)) (B B' : Nat → Nat → Option ℚ)
    (hB : B ∈ Bs) (hB' : B' ∈ Bs) (i j : Nat) : (B i j).isNone = (B' i j).isNone := by
  unfold rcdFit at h
  cases hM : Rcd.extractAncestors (rcdTests c gs) n maxNum fuel with
  | none => rw [hM] at h; cases h
  | some M' =>
    rw [hM] at h
    cases h
    obtain ⟨g, _, rfl⟩ := List.mem_map.1 hB
    obtain ⟨g', _, rfl⟩ := List.mem_map.1 hB'
    unfold Rcd.adjacency
    split
    · split
      · rfl
      · split <;> rfl
    · rfl

/-- **C91 is violated**: for a source that shares a latent confounder with some variable, `estimate_total_effect2`
returns an empty list, and `bootstrap` records the effect 0 for every data set (single-group RCD records NaN). -/
theorem C91_confounded_recorded_zero (tot : (Nat → Nat → Option ℚ) → Nat → Nat → Option ℚ) (c : RcdCfg)
    (gs : List RcdData) (n maxNum fuel : Nat) (M : Rcd.Anc) (Bs : List (Nat → Nat → Option ℚ))
    (h : rcdFit c gs n maxNum fuel = some (M, Bs)) (src dst j : Nat) (hj : j < n) (B : Nat → Nat → Option ℚ)
    (hB : B ∈ Bs) (hnan : B src j = none) :
    rcdTotals tot n src dst Bs = [] ∧ ∀ i, rcdRecorded tot n src dst Bs i = some 0 := by
  have h0 : rcdTotals tot n src dst Bs = [] := by
    cases Bs with
    | nil => rfl
    | cons B0 Bs =>
      have : B0 src j = none := by
        have := rcd_nan_common c gs n maxNum fuel M _ h B0 B (by simp) hB src j
        rw [hnan] at this
        simpa using this
      unfold rcdTotals
      rw [if_pos]
      rw [List.any_eq_true]
      exact ⟨j, List.mem_range.2 hj, by rw [this]; rfl⟩
  refine ⟨h0, fun i => ?_⟩
  unfold rcdRecorded
  rw [h0]
  rfl

/-- **C91 (partial).** For a source without latent confounders there is one effect for each data set, each computed
from the matrix of that data set.  Missing: confounded sources, where 0 is recorded. -/
theorem C91_unconfounded_partial (tot : (Nat → Nat → Option ℚ) → Nat → Nat → Option ℚ) (n src dst : Nat)
    (Bs : List (Nat → Nat → Option ℚ)) (h : ∀ B ∈ Bs, ∀ j, j < n → B src j ≠ none) :
    rcdTotals tot n src dst Bs = Bs.map (fun B => tot B src dst) ∧
    ∀ i (hi : i < Bs.length), rcdRecorded tot n src dst Bs i = tot Bs[i] src dst := by
  have h0 : rcdTotals tot n src dst Bs = Bs.map (fun B => tot B src dst) := by
    induction Bs with
    | nil => rfl
    | cons B Bs ih =>
      unfold rcdTotals
      rw [if_neg, ih (fun B' hB' => h B' (by simp [hB'])), List.map_cons]
      rw [List.any_eq_true]
      rintro ⟨j, hj, hn⟩
      have := h B (by simp) j (List.mem_range.1 hj)
      cases hx : B src j with
      | none => exact this hx
      | some x => rw [hx] at hn; cases hn
  refine ⟨h0, fun i hi => ?_⟩
  unfold rcdRecorded
  rw [h0, List.getElem?_map, List.getElem?_eq_getElem hi]
  rfl

/-- A joint fit with a confounded pair: the matrices are NaN at (0, 1) and the effect of 0 on 1 is recorded as 0. -/
def wConf : RcdData := ⟨fun _ _ => 0, fun _ _ _ _ => 0, fun _ _ _ _ => 1, fun _ _ _ _ => 1, fun _ _ _ => 1⟩

example : (rcdFit wCfg [wConf, wConf] 2 2 10).map (fun r => (r.2.map (fun B => B 0 1),
    rcdRecorded (fun _ _ _ => some 7) 2 0 1 r.2 1)) = some ([none, none], some 0) := by decide +kernel

end Verif.MultiGroup
