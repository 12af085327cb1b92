import Verif.Props.Parce
import Verif.Props.Resit
import Verif.Props.Rcd
import Verif.Props.Camuv
import Verif.Model.RcdData
import Mathlib.Tactic.Linarith
import Mathlib.Tactic.NormNum

/-!
# What the significance levels do (C234)

The levels `alpha`, `ind_corr`, `cor_alpha`, `ind_alpha` and `shapiro_alpha` of BottomUpParceLiNGAM, RESIT, RCD and
CAM-UV, for arbitrary data (through the values of the tests).
-/
set_option linter.unusedSectionVars false
set_option autoImplicit false

namespace Verif.Parce
open Direct (PK Part)

variable {𝕜 : Type} [Field 𝕜] [LinearOrder 𝕜]
variable {F : Type} [Field F]

/-- The same model object and data with other levels. -/
def withLevels (c : Cfg 𝕜) (alpha indCorr : 𝕜) : Cfg 𝕜 := { c with alpha := alpha, indCorr := indCorr }

theorem findExo_levels (c : Cfg 𝕜) (a r : 𝕜) (Uc U : List Nat) : findExo (withLevels c a r) Uc U = findExo c Uc U := rfl

theorem search_levels {c : Cfg 𝕜} {thresh thresh' a' r' : 𝕜}
    (hm : ∀ e, isReject c thresh e = true → isReject (withLevels c a' r') thresh' e = true) :
    ∀ (fuel : Nat) (K U : List Nat) (po : List (Nat × Nat)) (K' K'' : List Nat), 2 ≤ U.length →
    searchOrder c thresh fuel K U po = some (.ok K') →
    searchOrder (withLevels c a' r') thresh' fuel K U po = some (.ok K'') → ∃ l, K' = l ++ K''
  | 0, _, _, _, _, _, _, h, _ => by simp [searchOrder] at h
  | fuel + 1, K, U, po, K', K'', hU, h, h' => by
    obtain ⟨l, hl⟩ := search_suffix (fuel + 1) K U po K' hU h
    rw [searchOrder] at h h'
    have e1 : searchCandidate (withLevels c a' r') po U = searchCandidate c po U := rfl
    have e2 : (withLevels c a' r').pk = c.pk := rfl
    simp only [e1, e2, findExo_levels] at h'
    by_cases hr' : isReject (withLevels c a' r') thresh' (findExo c (searchCandidate c po U) U).2 = true
    · rw [if_pos hr'] at h'
      simp only [Option.some.injEq, Except.ok.injEq] at h'
      exact ⟨l, by rw [← h']; exact hl⟩
    · have hr : ¬ isReject c thresh (findExo c (searchCandidate c po U) U).2 = true := fun hc => hr' (hm _ hc)
      rw [if_neg hr'] at h'
      rw [if_neg hr] at h
      cases hd : dropEq U (fun x => x) (findExo c (searchCandidate c po U) U).1 with
      | error e => rw [hd] at h; cases h
      | ok U' =>
        rw [hd] at h h'
        simp only at h h'
        cases hp : (if c.pk.isSome = true then dropEq po Prod.snd (findExo c (searchCandidate c po U) U).1 else .ok po) with
        | error e => rw [hp] at h; cases h
        | ok po' =>
          rw [hp] at h h'
          simp only at h h'
          by_cases hl : U'.length ≤ 1
          · rw [if_pos hl] at h h'
            rw [h] at h'
            cases h'
            exact ⟨[], rfl⟩
          · rw [if_neg hl] at h h'
            exact search_levels hm fuel _ _ _ _ _ (by omega) h h'

/-- Stricter levels: a larger `alpha` and a smaller `ind_corr`. -/
theorem reject_levels [IsStrictOrderedRing 𝕜] (c : Cfg 𝕜) {a' r' : 𝕜} (ha : c.alpha ≤ a') (hr : r' ≤ c.indCorr) {n : Nat} (hn : 2 ≤ n)
    (e : WithTop 𝕜) (h : isReject c (c.alpha / ((n : 𝕜) - 1)) e = true) :
    isReject (withLevels c a' r') (a' / ((n : 𝕜) - 1)) e = true := by
  have hpos : (0 : 𝕜) < (n : 𝕜) - 1 := by
    have : (2 : 𝕜) ≤ n := by exact_mod_cast hn
    linarith
  have hle : c.alpha / ((n : 𝕜) - 1) ≤ a' / ((n : 𝕜) - 1) := div_le_div_of_nonneg_right ha hpos.le
  unfold isReject at h ⊢
  have e1 : (withLevels c a' r').fc = c.fc := rfl
  have e2 : (withLevels c a' r').indCorr = r' := rfl
  rw [e1, e2]
  cases hf : c.fc with
  | true =>
    rw [hf] at h
    simp only [if_true, decide_eq_true_eq] at h ⊢
    exact (WithTop.coe_le_coe.2 hr).trans h
  | false =>
    rw [hf] at h
    simp only [Bool.false_eq_true, if_false, decide_eq_true_eq] at h ⊢
    exact h.trans_le (WithTop.coe_le_coe.2 hle)

theorem predictors_of_perm (pk : Option PK) {l l' : List Nat} (t : Nat) (h : l.Perm l') :
    (Direct.predictors pk l t).Perm (Direct.predictors pk l' t) := by
  unfold Direct.predictors
  split
  · exact h
  · exact h.filter _

/-- C234: BottomUpParceLiNGAM with stricter levels (a larger `alpha`, a smaller `ind_corr`) resolves fewer variables:
those it resolves are the last ones of those resolved with the looser levels, in the same order; every variable left
unresolved by the looser levels is left unresolved by the stricter ones; and a variable resolved by both has the same
row, for a regression that does not depend on the order of the predictors. -/
theorem C234_parce_nested [IsStrictOrderedRing 𝕜] {c : Cfg 𝕜} {a' r' : 𝕜} (ha : c.alpha ≤ a') (hr : r' ≤ c.indCorr) {lasso : Direct.Lasso F}
    (hl : ∀ (ps ps' : List Nat) (t p : Nat), ps.Perm ps' → lasso ps t p = lasso ps' t p) {n fuel : Nat} (hn : 2 ≤ n)
    {o o' : Order} {B B' : Nat → Nat → Option F} (h : fit c lasso n fuel = some (.ok (o, B)))
    (h' : fit (withLevels c a' r') lasso n fuel = some (.ok (o', B'))) :
    o'.rest.IsSuffix o.rest ∧ (∀ i ∈ o.block, i ∈ o'.block) ∧ ∀ i ∈ o'.rest, ∀ j, B i j = B' i j := by
  obtain ⟨h1, h2⟩ := fit_order (by omega) h
  obtain ⟨h1', h2'⟩ := fit_order (by omega) h'
  obtain ⟨po, hpo, _, hs, _, rfl⟩ := fit_ok h
  obtain ⟨po', hpo', _, hs', _, rfl⟩ := fit_ok h'
  have : po' = po := by
    have e : priorOrders (withLevels c a' r') n = priorOrders c n := rfl
    rw [e, hpo] at hpo'
    cases hpo'; rfl
  subst this
  obtain ⟨l, hl'⟩ := search_levels (fun e => reject_levels c ha hr hn e) fuel [] (List.range n) po' o.rest o'.rest
    (by simpa using hn) hs hs'
  refine ⟨⟨l, hl'.symm⟩, ?_, ?_⟩
  · intro i hi
    have hlt : i < n := (h1.2 i).1 (List.mem_append.2 (Or.inl hi))
    rcases List.mem_append.1 ((h1'.2 i).2 hlt) with hb | hb
    · exact hb
    · exact absurd rfl ((List.nodup_append.1 h1.1).2.2 i hi i (by rw [hl']; simp [hb]))
  · intro i hi j
    obtain ⟨x, y, hxy⟩ := List.append_of_mem hi
    have hperm : (o.block ++ (l ++ x)).Perm (o'.block ++ x) := by
      have hp : (o.block ++ (l ++ x) ++ i :: y).Perm (o'.block ++ x ++ i :: y) := by
        have e1 : o.block ++ (l ++ x) ++ i :: y = o.flat := by
          unfold Order.flat; rw [hl', hxy]; simp [List.append_assoc]
        have e2 : o'.block ++ x ++ i :: y = o'.flat := by
          unfold Order.flat; rw [hxy]; simp [List.append_assoc]
        rw [e1, e2]
        exact (List.perm_ext_iff_of_nodup h1.1 h1'.1).2 (fun k => by rw [h1.2 k, h1'.2 k])
      exact (List.perm_append_right_iff _).1 hp
    rw [adjacency_rest c.pk lasso h2 h1.1 (a := l ++ x) (b := y) (by rw [hl', hxy]; simp) j,
      adjacency_rest (withLevels c a' r').pk lasso h2' h1'.1 hxy j]
    have hpp := predictors_of_perm c.pk i hperm
    have e : (withLevels c a' r').pk = c.pk := rfl
    rw [e]
    congr 1
    rw [if_congr hpp.mem_iff (hl _ _ i j hpp) rfl]

/-- C234: without prior knowledge, a level of 0 for HSIC resolves every variable, whatever the data: no p-value is below 0. -/
theorem C234_parce_zero [IsStrictOrderedRing 𝕜] {c : Cfg 𝕜} (hfc : c.fc = false) (h0 : c.alpha = 0) (hp : ∀ U j, 0 ≤ c.single U j)
    (hp' : ∀ U j, 0 ≤ (c.hsic U j).2) {lasso : Direct.Lasso F} {n fuel : Nat} (hn : 2 ≤ n) {o : Order}
    {B : Nat → Nat → Option F} (h : fit c lasso n fuel = some (.ok (o, B))) : o.block = [] := by
  obtain ⟨po, _, _, hs, hb, _⟩ := fit_ok h
  rw [h0, zero_div] at hs
  have hrej : ∀ Uc U, isReject c 0 (findExo c Uc U).2 = false := by
    intro Uc U
    unfold isReject
    rw [hfc]
    simp only [Bool.false_eq_true, if_false, decide_eq_false_iff_not, not_lt]
    rcases findExo_cases c Uc U with ⟨x, e, _, hf, hB⟩ | ⟨hf, _, _⟩
    · rw [hf]
      refine WithTop.coe_le_coe.2 ?_
      rcases hB with ⟨_, rfl⟩ | ⟨_, rfl, _⟩
      · exact hp _ _
      · unfold eval; rw [hfc]; exact hp' _ _
    · rw [hf]; exact le_top
  have key : ∀ (fuel : Nat) (K U : List Nat) (po : List (Nat × Nat)) (K' : List Nat), 2 ≤ U.length →
      searchOrder c 0 fuel K U po = some (.ok K') → ∀ i ∈ K ++ U, i ∈ K' := by
    intro fuel
    induction fuel with
    | zero => intro K U po K' _ h; simp [searchOrder] at h
    | succ fuel ih =>
      intro K U po K' hU h i hi
      rcases search_cases hU h with ⟨hr, _⟩ | ⟨x, e, hx, _, _, hh⟩ | ⟨_, _, _, rfl⟩
      · rw [hrej] at hr; cases hr
      · have hi' : i ∈ (x :: K) ++ U.filter (fun i => decide (i ≠ x)) := by
          simp only [List.mem_append, List.mem_cons, List.mem_filter, decide_eq_true_eq] at hi ⊢
          tauto
        rcases hh with ⟨_, rfl⟩ | ⟨hl, hs⟩
        · rw [List.mem_append] at hi' ⊢; exact hi'.symm
        · exact ih _ _ _ _ (by omega) hs i hi'
      · rw [List.mem_append] at hi ⊢; exact hi.symm
  have hall := key fuel [] (List.range n) po o.rest (by simpa using hn) hs
  have hnil : (List.range n).filter (fun i => decide (i ∉ o.rest)) = [] := by
    rw [List.filter_eq_nil_iff]
    intro i hi
    simp only [decide_eq_true_eq, not_not]
    exact hall i (by simpa using hi)
  rw [hb]
  simp only [hnil, List.length_nil]
  rfl

/-- C234: with the F-correlation and `ind_corr = 0` (which the constructor accepts) nothing is resolved, whatever the
data. -/
theorem C234_parce_fcorr_zero {c : Cfg 𝕜} (hfc : c.fc = true) (h0 : c.indCorr = 0) (hp : ∀ U j, 0 ≤ c.single U j)
    (hp' : ∀ U j, 0 ≤ c.fcorr U j) {lasso : Direct.Lasso F} {n fuel : Nat} (hn : 2 ≤ n) {o : Order}
    {B : Nat → Nat → Option F} (h : fit c lasso n fuel = some (.ok (o, B))) : o.rest = [] ∧ o.block = List.range n := by
  obtain ⟨po, _, _, hs, hb, _⟩ := fit_ok h
  have hrest : o.rest = [] := by
    cases fuel with
    | zero => simp [searchOrder] at hs
    | succ fuel =>
      have hrej : ∀ Uc U thresh, isReject c thresh (findExo c Uc U).2 = true := by
        intro Uc U thresh
        unfold isReject
        rw [hfc, h0]
        simp only [if_true, decide_eq_true_eq]
        rcases findExo_cases c Uc U with ⟨x, e, _, hf, hB⟩ | ⟨hf, _, _⟩
        · rw [hf]
          refine WithTop.coe_le_coe.2 ?_
          rcases hB with ⟨_, rfl⟩ | ⟨_, rfl, _⟩
          · exact hp _ _
          · unfold eval; rw [hfc]; exact hp' _ _
        · rw [hf]; exact le_top
      rw [searchOrder] at hs
      simp only [hrej, if_true, Option.some.injEq, Except.ok.injEq] at hs
      exact hs.symm
  refine ⟨hrest, ?_⟩
  rw [hb, hrest]
  simp only [List.not_mem_nil, not_false_eq_true, decide_true, List.filter_true, List.length_range]
  rw [if_pos (by omega)]

/-- Witness for `C234_parce_nested`: the fourth and third of four variables pass a test at level 3/10, the others only
one at level 0. -/
def levelsWitness (alpha : ℚ) : Cfg ℚ where
  pk := none
  fc := false
  alpha := alpha
  indCorr := 0
  single := fun _ _ => 1 / 2
  hsic := fun U j => if j = 3 then (0, 1) else if j = 2 then (1, 1 / 2) else if U.length = 2 ∧ j = 1 then (2, 1 / 20) else (3, 0)
  fcorr := fun _ _ => 0

example : (fit (levelsWitness (1 / 10)) (fun _ _ _ => (1 : ℚ)) 4 4).map
      (fun r => match r with | .ok (o, _) => (o.block, o.rest) | .error _ => ([], [])) = some ([], [0, 1, 2, 3]) ∧
    (fit (withLevels (levelsWitness (1 / 10)) (3 / 10) 0) (fun _ _ _ => (1 : ℚ)) 4 4).map
      (fun r => match r with | .ok (o, _) => (o.block, o.rest) | .error _ => ([], [])) = some ([0, 1], [2, 3]) := by
  decide +kernel

example : (fit (levelsWitness 0) (fun _ _ _ => (1 : ℚ)) 4 4).map
      (fun r => match r with | .ok (o, _) => (o.block, o.rest) | .error _ => ([], [])) = some ([], [0, 1, 2, 3]) ∧
    (fit { levelsWitness 0 with fc := true } (fun _ _ _ => (1 : ℚ)) 4 4).map
      (fun r => match r with | .ok (o, _) => (o.block, o.rest) | .error _ => ([], [])) = some ([0, 1, 2, 3], []) := by
  decide +kernel

end Verif.Parce

namespace Verif.Resit

variable {K : Type} [Field K] [LinearOrder K]

/-- C234: the causal order found by RESIT does not depend on `alpha`. -/
theorem C234_resit_order {stat : List Nat → Nat → Option K} {pval : Nat → List Nat → Option K} {alpha alpha' : K} {n : Nat}
    {order order' : List Nat} {B B' : Nat → Nat → ℚ} (h : fit stat pval alpha n = some (order, B))
    (h' : fit stat pval alpha' n = some (order', B')) : order = order' := by
  unfold fit at h h'
  cases he : estimateOrder stat n with
  | none => rw [he] at h; cases h
  | some q =>
    rw [he] at h h'
    simp only [Option.some.injEq, Prod.mk.injEq] at h h'
    exact h.1.symm.trans h'.1

theorem prune_none {pval : Nat → List Nat → Option K} {alpha : K} {t : Nat} (hp : ∀ ps p, pval t ps = some p → p ≤ alpha) :
    ∀ (ls cur : List Nat), pruneParents pval alpha t ls cur = cur
  | [], cur => rfl
  | l :: ls, cur => by
    have ha : ∀ ps, above alpha (pval t ps) = false := by
      intro ps
      cases hv : pval t ps with
      | none => rfl
      | some p => simpa [above] using hp ps p hv
    rw [pruneParents]
    simp only [ha, Bool.false_eq_true, if_false, ite_self]
    exact prune_none hp ls cur

/-- C234: at a level that no p-value exceeds (such as 1) RESIT removes nothing: every variable gets an arrow from every
variable before it. -/
theorem C234_resit_all [IsStrictOrderedRing K] {stat : List Nat → Nat → Option K} {pval : Nat → List Nat → Option K} {alpha : K} {n : Nat}
    (hp : ∀ t ps p, pval t ps = some p → p ≤ alpha) {order : List Nat} {B : Nat → Nat → ℚ}
    (h : fit stat pval alpha n = some (order, B)) (i j : Nat) (hi : i < n) :
    B i j = 1 ↔ Before order j i := by
  obtain ⟨pi, B', h1, h2, h3⟩ := fit_spec stat pval alpha n
  rw [h1] at h
  simp only [Option.some.injEq, Prod.mk.injEq] at h
  obtain ⟨rfl, rfl⟩ := h
  obtain ⟨a, b, hq⟩ := List.append_of_mem (h2.mem_iff.2 (List.mem_range.2 hi))
  have hnd : pi.Nodup := h2.nodup_iff.2 List.nodup_range
  rw [(h3 a i b hq).2 j, prune_none (hp i)]
  have hmem : (j ∈ (if a = [] then [] else (List.range n).filter (fun x => decide (x ∈ a)))) ↔ j ∈ a := by
    by_cases ha : a = []
    · simp [ha]
    · rw [if_neg ha, List.mem_filter, decide_eq_true_eq, List.mem_range]
      refine ⟨fun h => h.2, fun h => ⟨List.mem_range.1 (h2.mem_iff.1 (by rw [hq]; simp [h])), h⟩⟩
  rw [if_congr hmem rfl rfl]
  have : (if j ∈ a then (1 : ℚ) else 0) = 1 ↔ j ∈ a := by
    by_cases hj : j ∈ a <;> simp [hj]
  rw [this]
  constructor
  · intro hj
    rw [hq]
    exact Before.of_mem_append hj (by simp)
  · rintro ⟨x, y, z, hxyz⟩
    have he : a ++ i :: b = (x ++ j :: y) ++ i :: z := by rw [← hq, hxyz]; simp
    have hnd' : (a ++ i :: b).Nodup := hq ▸ hnd
    have hia : i ∉ a := fun hm => (List.nodup_append.1 hnd').2.2 i hm i (by simp) rfl
    have hix : i ∉ x ++ j :: y := by
      rw [he] at hnd'
      exact fun hm => (List.nodup_append.1 hnd').2.2 i hm i (by simp) rfl
    have hax : a = x ++ j :: y := by
      have e1 : (a ++ i :: b).takeWhile (fun k => decide (k ≠ i)) = a := by
        rw [List.takeWhile_append_of_pos (by intro k hk; simp; rintro rfl; exact hia hk)]
        simp
      have e2 : ((x ++ j :: y) ++ i :: z).takeWhile (fun k => decide (k ≠ i)) = x ++ j :: y := by
        rw [List.takeWhile_append_of_pos (by intro k hk; simp; rintro rfl; exact hix hk)]
        simp
      rw [← e1, he, e2]
    rw [hax]
    simp

/-- Witness for `C234_resit_not_monotone`: the p-values of the third variable given fewer predictors. -/
def zigzag : Nat → List Nat → Option ℚ := fun t ps =>
  if t = 3 then (if ps = [1, 2] then some (1 / 5) else if ps = [0, 2] then some (1 / 2) else if ps = [2] then some 0 else some 0)
  else some 0

/-- C234: a larger `alpha` can remove an arrow that a smaller one keeps: what is left after a removal decides about the
next one. -/
theorem C234_resit_not_monotone : ∃ (stat : List Nat → Nat → Option ℚ) (pval : Nat → List Nat → Option ℚ)
    (alpha alpha' : ℚ) (order : List Nat) (B B' : Nat → Nat → ℚ), alpha < alpha' ∧
      fit stat pval alpha 4 = some (order, B) ∧ fit stat pval alpha' 4 = some (order, B') ∧
      B 3 1 = 1 ∧ B' 3 1 = 0 := by
  obtain ⟨o, B, h, _⟩ := C31_order_and_matrix (fun _ k => some (-(k : ℚ))) zigzag (1 / 10) 4
  obtain ⟨o', B', h', _⟩ := C31_order_and_matrix (fun _ k => some (-(k : ℚ))) zigzag (3 / 10) 4
  have ho := C234_resit_order h h'
  subst ho
  refine ⟨_, _, _, _, o, B, B', by norm_num, h, h', ?_, ?_⟩
  · have e : (fit (fun _ k => some (-(k : ℚ))) zigzag (1 / 10) 4).map (fun r => r.2 3 1) = some 1 := by decide +kernel
    rw [h] at e
    simpa using e
  · have e : (fit (fun _ k => some (-(k : ℚ))) zigzag (3 / 10) 4).map (fun r => r.2 3 1) = some 0 := by decide +kernel
    rw [h'] at e
    simpa using e

example : (fit (fun _ k => some (-(k : ℚ))) zigzag (1 / 10) 4).map (fun r => (r.1, r.2 3 0, r.2 3 1, r.2 3 2)) =
      some ([0, 1, 2, 3], 0, 1, 1) ∧
    (fit (fun _ k => some (-(k : ℚ))) zigzag (3 / 10) 4).map (fun r => (r.1, r.2 3 0, r.2 3 1, r.2 3 2)) =
      some ([0, 1, 2, 3], 1, 0, 1) ∧
    (fit (fun _ k => some (-(k : ℚ))) zigzag 1 4).map (fun r => (r.1, r.2 3 0, r.2 3 1, r.2 3 2)) =
      some ([0, 1, 2, 3], 1, 1, 1) := by
  decide +kernel

end Verif.Resit

namespace Verif.RcdData
open Rcd (Tests extract_good)

variable {N : Nat}

/-- No ancestors at all: pairs correlated in the data are NaN, everything else is 0. -/
theorem fit_no_ancestors {t : Tests} {K : Type} [Zero K] {coef : List Nat → Nat → Nat → K} {n maxNum fuel : Nat} {M : Rcd.Anc}
    {B : Nat → Nat → Option K} (h : Rcd.fit t coef n maxNum fuel = some (M, B)) (hM : ∀ i, M i = ∅) {i j : Nat} (hi : i < n)
    (hj : j < n) : B i j = if i ≠ j ∧ t.corr ∅ (min i j) ∅ (max i j) = true then none else some 0 := by
  unfold Rcd.fit at h
  cases hE : Rcd.extractAncestors t n maxNum fuel with
  | none => rw [hE] at h; cases h
  | some M' =>
    rw [hE] at h
    simp only [Option.some.injEq, Prod.mk.injEq] at h
    obtain ⟨rfl, rfl⟩ := h
    have hP : Rcd.extractParents t n M' = fun _ => ∅ := by
      funext x
      unfold Rcd.extractParents
      rw [hM x]
      simp
    rw [hP]
    unfold Rcd.adjacency
    rw [if_pos hi]
    simp only [Finset.notMem_empty, if_false]
    refine if_congr ?_ rfl rfl
    rw [Rcd.mem_extractConfounded]
    unfold Rcd.Conf
    simp only [Finset.notMem_empty, not_false_eq_true, true_and]
    rcases lt_trichotomy i j with hlt | heq | hlt
    · rw [min_eq_left hlt.le, max_eq_right hlt.le]
      constructor
      · rintro (⟨_, _, hc⟩ | ⟨h1, _⟩)
        · exact ⟨hlt.ne, hc⟩
        · omega
      · rintro ⟨_, hc⟩; exact Or.inl ⟨hlt, hj, hc⟩
    · subst heq; simp
    · rw [min_eq_right hlt.le, max_eq_left hlt.le]
      constructor
      · rintro (⟨h1, _⟩ | ⟨_, _, hc⟩)
        · omega
        · exact ⟨hlt.ne', hc⟩
      · rintro ⟨_, hc⟩; exact Or.inr ⟨hlt, hi, hc⟩

/-- C234: RCD with `cor_alpha = 0` (which the constructor accepts) finds nothing in any data: no ancestor, no arrow, no
NaN. -/
theorem C234_rcd_correlation {L : Lib N} {c : Cfg} (hp : ∀ r, 0 ≤ L.pearsonSf r) (h0 : c.corAlpha = 0) {n maxNum fuel : Nat}
    (hm : 0 < maxNum) {X : Nat → Fin N → ℝ} {M : Rcd.Anc} {B : Nat → Nat → Option ℝ}
    (h : fit L c n maxNum fuel X = some (M, B)) : (∀ i, M i = ∅) ∧ ∀ i j, i < n → j < n → B i j = some 0 := by
  have hc : ∀ A a A' a', (tests L c n X).corr A a A' a' = false := by
    intro A a A' a'
    show isCorrelated L c _ _ = false
    unfold isCorrelated
    cases hv : pearsonP L (without L n X A a) (without L n X A' a') with
    | none => rfl
    | some p =>
      unfold pearsonP at hv
      split at hv
      · cases hv
      · simp only [Option.some.injEq] at hv
        simp only [h0, decide_eq_false_iff_not, not_lt]
        rw [← hv]; exact hp _
  have hM : ∀ i, M i = ∅ := by
    intro i
    by_contra hne
    obtain ⟨j, hj⟩ := Finset.nonempty_iff_ne_empty.2 hne
    have hE : Rcd.extractAncestors (tests L c n X) n maxNum fuel = some M := by
      unfold fit Rcd.fit at h
      cases hE : Rcd.extractAncestors (tests L c n X) n maxNum fuel with
      | none => rw [hE] at h; cases h
      | some M' => rw [hE] at h; simp only [Option.some.injEq, Prod.mk.injEq] at h; rw [h.1]
    obtain ⟨U, H, _, hlen, _, _, _, _, _, _, hcor, _⟩ := Rcd.C25_ancestors_justified hm hE i j hj
    match U, hlen with
    | a :: b :: l, _ =>
      have := hcor a b (by simp)
      rw [hc] at this
      cases this
  refine ⟨hM, fun i j hi hj => ?_⟩
  rw [fit_no_ancestors h hM hi hj, if_neg]
  rintro ⟨_, hcc⟩
  rw [hc] at hcc; cases hcc

/-- C234: RCD finds no arrow in any data when `shapiro_alpha` is below every p-value of the normality test (0, if these
are positive), or when no p-value exceeds `ind_alpha` (1 or more, with HSIC): no variable has an ancestor, and exactly
the correlated pairs are reported as confounded. -/
theorem C234_rcd_nothing {L : Lib N} {c : Cfg} {n maxNum fuel : Nat} (hm : 0 < maxNum) {X : Nat → Fin N → ℝ}
    (hx : (∀ v, c.shapiroAlpha < L.shapiro v) ∨ (c.hsic = true ∧ ∀ x k s, L.gammaSf x k s ≤ c.indAlpha))
    {M : Rcd.Anc} {B : Nat → Nat → Option ℝ} (h : fit L c n maxNum fuel X = some (M, B)) :
    (∀ i, M i = ∅) ∧ ∀ i j, i < n → j < n →
      B i j = if i ≠ j ∧ isCorrelated L c (X (min i j)) (X (max i j)) = true then none else some 0 := by
  have hM : ∀ i, M i = ∅ := by
    intro i
    by_contra hne
    obtain ⟨j, hj⟩ := Finset.nonempty_iff_ne_empty.2 hne
    have hE : Rcd.extractAncestors (tests L c n X) n maxNum fuel = some M := by
      unfold fit Rcd.fit at h
      cases hE : Rcd.extractAncestors (tests L c n X) n maxNum fuel with
      | none => rw [hE] at h; cases h
      | some M' => rw [hE] at h; simp only [Option.some.injEq, Prod.mk.injEq] at h; rw [h.1]
    obtain ⟨U, H, _, hlen, _, hiU, hjU, hji, _, hg, _, hind, _⟩ := Rcd.C25_ancestors_justified hm hE i j hj
    rcases hx with hs | ⟨hh, hs⟩
    · have := hg i hiU
      have e : (tests L c n X).nonGauss H i = !decide (c.shapiroAlpha < L.shapiro (without L n X H i)) := rfl
      rw [e, decide_eq_true (hs _)] at this
      cases this
    · have hdep : ∀ a b : Fin N → ℝ, isIndependent L c a b = false := by
        intro a b
        unfold isIndependent
        rw [hh]
        simp only [if_true]
        split
        · rename_i s p hp
          simp only [decide_eq_false_iff_not, not_lt]
          unfold Hsic.test Hsic.testWith at hp
          split at hp
          · cases hp
          · split at hp
            · simp only [Except.ok.injEq, Prod.mk.injEq] at hp
              obtain ⟨_, hp⟩ := hp
              split at hp
              · cases hp
              · simp only [Option.some.injEq] at hp
                rw [← hp]; exact hs _ _ _
            · cases hp
        · rfl
      have hmem : j ∈ U.filter (fun x => decide (x ≠ i)) := List.mem_filter.2 ⟨hjU, by simpa using hji⟩
      have hall : ∀ r : Fin N → ℝ, (U.filter (fun x => decide (x ≠ i))).all (fun y => isIndependent L c r (without L n X H y)) = false := by
        intro r
        rw [List.all_eq_false]
        exact ⟨j, hmem, by rw [hdep]; decide⟩
      have e : (tests L c n X).indep H i (U.filter (fun x => decide (x ≠ i))) =
          isIndependentOfResid L c (without L n X H) i (U.filter (fun x => decide (x ≠ i))) := rfl
      rw [e] at hind
      unfold isIndependentOfResid at hind
      rw [hall, hall] at hind
      simp at hind
  refine ⟨hM, fun i j hi hj => ?_⟩
  rw [fit_no_ancestors h hM hi hj]
  rfl

theorem fit_exists (L : Lib N) (c : Cfg) (n : Nat) {maxNum : Nat} (hm : 0 < maxNum) (X : Nat → Fin N → ℝ) :
    ∃ fuel M B, fit L c n maxNum fuel X = some (M, B) := by
  obtain ⟨M, hM, _⟩ := Rcd.C25_ancestors_terminate (tests L c n X) n hm
  exact ⟨n * n * maxNum + maxNum, M, _, by unfold fit Rcd.fit; rw [hM _ le_rfl]⟩

/-- Both hypotheses of `C234_rcd_nothing` for p-values that are at most 1, with the level 1, and `cor_alpha = 0`, in any
data. -/
example (L : Lib N) (hg : ∀ x k s, L.gammaSf x k s ≤ 1) (hp : ∀ r, 0 ≤ L.pearsonSf r) (X : Nat → Fin N → ℝ) :
    ∃ fuel M B, fit L ⟨0, 1, 1 / 100, false, true, 1 / 2⟩ 3 2 fuel X = some (M, B) ∧ M 0 = ∅ ∧ B 0 1 = some 0 := by
  obtain ⟨fuel, M, B, h⟩ := fit_exists L ⟨0, 1, 1 / 100, false, true, 1 / 2⟩ 3 (maxNum := 2) (by omega) X
  exact ⟨fuel, M, B, h, (C234_rcd_nothing (by omega) (Or.inr ⟨rfl, hg⟩) h).1 0,
    (C234_rcd_correlation hp rfl (by omega) h).2 0 1 (by omega) (by omega)⟩

end Verif.RcdData

namespace Verif.Camuv
open Rcd (Anc)

/-- Nothing is independent. -/
theorem fit_all_dependent {c : Cfg} (hiter : ∀ l, (c.iter l).Perm l) (hd : ∀ v, isInd c v = false ∨ ∀ a A l, c.val a A l ≠ v)
    {d maxnum fuel : Nat} {P : Anc} {B : Nat → Nat → Option ℚ} (h : fit c d maxnum fuel = some (P, B)) :
    (∀ i, i < d → P i = ∅) ∧ ∀ i j, i < d → j < d → B i j = if i = j then some 0 else none := by
  have hd' : ∀ a A l, isInd c (c.val a A l) = false := fun a A l => (hd _).resolve_right (fun hn => hn a A l rfl)
  have hf : findParents c d maxnum fuel = some P := by
    unfold fit at h
    cases hf : findParents c d maxnum fuel with
    | none => rw [hf] at h; cases h
    | some P' => rw [hf] at h; simp only [Option.some.injEq, Prod.mk.injEq] at h; rw [h.1]
  have hP : ∀ i, i < d → P i = ∅ := by
    intro i hi
    by_contra hne
    obtain ⟨j, hj⟩ := Finset.nonempty_iff_ne_empty.2 hne
    obtain ⟨Q, h1, h2⟩ := C28_parents_justified hiter hf
    obtain ⟨V, P0, v, _, _, _, _, _, _, _, hv, hi2, _⟩ := h2 i j ((h1 i j hi).1 hj).1
    rw [← hv, hd'] at hi2
    cases hi2
  refine ⟨hP, fun i j hi hj => ?_⟩
  obtain ⟨h1, h2, h3⟩ := C29_matrix h hi hj
  by_cases hij : i = j
  · subst hij
    rw [if_pos rfl]
    rcases h3 with h3 | h3 | h3
    · exact absurd rfl (h1.1 h3).1
    · exact h3
    · have := h2.1 h3; rw [hP i hi] at this; simp at this
  · rw [if_neg hij]
    refine h1.2 ⟨hij, by rw [hP j hj]; simp, by rw [hP i hi]; simp, hd' _ _ _, hd' _ _ _⟩

/-- Everything is independent at first sight. -/
theorem fit_all_independent {c : Cfg} (hiter : ∀ l, (c.iter l).Perm l) (hd : ∀ a b, isInd c (c.val a ∅ [(b, ∅)]) = true)
    {d maxnum fuel : Nat} {P : Anc} {B : Nat → Nat → Option ℚ} (h : fit c d maxnum fuel = some (P, B)) :
    (∀ i, i < d → P i = ∅) ∧ ∀ i j, i < d → j < d → B i j = some 0 := by
  have hf : findParents c d maxnum fuel = some P := by
    unfold fit at h
    cases hf : findParents c d maxnum fuel with
    | none => rw [hf] at h; cases h
    | some P' => rw [hf] at h; simp only [Option.some.injEq, Prod.mk.injEq] at h; rw [h.1]
  have hP : ∀ i, i < d → P i = ∅ := by
    intro i hi
    by_contra hne
    obtain ⟨j, hj⟩ := Finset.nonempty_iff_ne_empty.2 hne
    obtain ⟨P', h1, _, _, _, h5, _⟩ := C28_parents_terminate hiter d maxnum
    have hmono : findParents c d maxnum (fuel + (d * d + 1) * max 2 maxnum) = some P := by
      unfold findParents at hf ⊢
      cases hl : loop c (neighborhoods c d) d maxnum fuel 2 (fun _ => ∅) with
      | none => rw [hl] at hf; cases hf
      | some Q => rw [hl] at hf; rw [loop_up _ hl]; exact hf
    rw [h1 _ (by omega)] at hmono
    cases hmono
    have := h5 i j hj
    unfold Dependent at this
    rw [hd] at this
    cases this
  refine ⟨hP, fun i j hi hj => ?_⟩
  obtain ⟨h1, h2, h3⟩ := C29_matrix h hi hj
  rcases h3 with h3 | h3 | h3
  · have := (h1.1 h3).2.2.2.1
    unfold Dependent at this
    rw [hd] at this
    cases this
  · exact h3
  · have := h2.1 h3; rw [hP i hi] at this; simp at this

/-- C234: CAM-UV draws no arrow at either extreme.  When no value passes the test (HSIC: no p-value above `alpha`, as
for `alpha = 1`; F-correlation: none below `ind_corr`, as for `ind_corr = 0`), every pair is reported as confounded. -/
theorem C234_camuv_strict {c : Cfg} (hiter : ∀ l, (c.iter l).Perm l)
    (hx : if c.hsic = true then ∀ a A l v, c.val a A l = some v → v ≤ c.alpha
      else ∀ a A l v, c.val a A l = some v → c.indCorr ≤ v)
    {d maxnum fuel : Nat} {P : Anc} {B : Nat → Nat → Option ℚ} (h : fit c d maxnum fuel = some (P, B)) :
    (∀ i, i < d → P i = ∅) ∧ ∀ i j, i < d → j < d → B i j = if i = j then some 0 else none := by
  refine fit_all_dependent hiter (fun v => ?_) h
  by_cases hv : ∃ a A l, c.val a A l = v
  · left
    obtain ⟨a, A, l, rfl⟩ := hv
    unfold isInd isIndBy
    cases hval : c.val a A l with
    | none => rfl
    | some v =>
      cases hh : c.hsic with
      | true => rw [hh] at hx; simpa using hx a A l v hval
      | false => rw [hh] at hx; simpa using hx a A l v hval
  · right
    intro a A l he
    exact hv ⟨a, A, l, he⟩

/-- C234: When every pair passes the test (HSIC: all p-values above `alpha`, as for `alpha = 0` and positive p-values;
F-correlation: all below `ind_corr`), the matrix is zero. -/
theorem C234_camuv_loose {c : Cfg} (hiter : ∀ l, (c.iter l).Perm l)
    (hx : ∀ a b, ∃ v, c.val a ∅ [(b, ∅)] = some v ∧ if c.hsic = true then c.alpha < v else v < c.indCorr)
    {d maxnum fuel : Nat} {P : Anc} {B : Nat → Nat → Option ℚ} (h : fit c d maxnum fuel = some (P, B)) :
    (∀ i, i < d → P i = ∅) ∧ ∀ i j, i < d → j < d → B i j = some 0 := by
  refine fit_all_independent hiter (fun a b => ?_) h
  obtain ⟨v, hv, hc⟩ := hx a b
  rw [hv]
  unfold isInd isIndBy
  cases hh : c.hsic with
  | true => rw [hh] at hc; simpa using hc
  | false => rw [hh] at hc; simpa using hc

/-- Witness: all p-values are one half. -/
def halves (alpha : ℚ) : Cfg := ⟨true, alpha, 0, none, fun _ _ _ => some (1 / 2), id⟩

theorem halves_fit (alpha : ℚ) : ∃ P B, fit (halves alpha) 3 2 100 = some (P, B) := by
  obtain ⟨P, hP, _⟩ := C28_parents_terminate (c := halves alpha) (fun _ => List.Perm.refl _) 3 2
  refine ⟨P, adjacency (confoundedPairs (halves alpha) 3 (neighborhoods (halves alpha) 3) P) P, ?_⟩
  unfold fit; rw [hP 100 (by decide)]

example : ∃ P B, fit (halves 1) 3 2 100 = some (P, B) ∧ B 0 1 = none := by
  obtain ⟨P, B, h⟩ := halves_fit 1
  have hx : ∀ a A l v, (halves 1).val a A l = some v → v ≤ (halves 1).alpha := by
    intro a A l v hv
    cases hv
    show (1 / 2 : ℚ) ≤ 1
    norm_num
  exact ⟨P, B, h, (C234_camuv_strict (c := halves 1) (fun _ => List.Perm.refl _) (by rw [if_pos (show (halves 1).hsic = true from rfl)]; exact hx) h).2 0 1 (by omega) (by omega)⟩

example : ∃ P B, fit (halves 0) 3 2 100 = some (P, B) ∧ B 0 1 = some 0 := by
  obtain ⟨P, B, h⟩ := halves_fit 0
  have hx : ∀ a b, ∃ v, (halves 0).val a ∅ [(b, ∅)] = some v ∧
      if (halves 0).hsic = true then (halves 0).alpha < v else v < (halves 0).indCorr := by
    intro a b
    refine ⟨1 / 2, rfl, ?_⟩
    show (0 : ℚ) < 1 / 2
    norm_num
  exact ⟨P, B, h, (C234_camuv_loose (fun _ => List.Perm.refl _) hx h).2 0 1 (by omega) (by omega)⟩

end Verif.Camuv
