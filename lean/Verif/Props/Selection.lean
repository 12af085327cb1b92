import Verif.Proofs.Selection
import Verif.Props.Var
import Verif.Props.Varma
import Mathlib.Algebra.Order.Field.Rat

/-!
Properties of the time series models: choice of the lag order (C102), the bootstrap (C103 – C105), the pruning regression
of VARMALiNGAM (C106).
-/
set_option autoImplicit false
set_option linter.unusedSectionVars false
namespace Verif

variable {K : Type} [Field K] [LinearOrder K] [IsStrictOrderedRing K]

/-! ### C102: the lag order -/

namespace Var

/-- **C102.** With an information criterion, `fit` of a fresh `VARLiNGAM` uses a number of lags `k` between 1 and `lags`
whose criterion is defined and minimal among all of them, and the smallest such `k` if several attain the minimum. -/
theorem C102_var_selection (E : Env K) (o o' : Obj K) (X : Data K) (ha : o.arCoefs = none)
    (hc : o.useCriterion = true) (h : fit E o X = .ok o') :
    ∃ k v, 1 ≤ k ∧ k ≤ o.lags ∧ (E.var X k).crit = some v ∧
      (∀ k' w, 1 ≤ k' → k' ≤ o.lags → (E.var X k').crit = some w → v ≤ w ∧ (k' < k → v < w)) ∧
      o'.arCoefs = some (E.var X k).coefs ∧ o'.lags = (E.var X k).kAr ∧ o'.residuals = some (E.var X k).resid := by
  obtain ⟨Ms, lags, resid, Bs, h1, h2, rfl⟩ := fit_ok h
  unfold arPart at h1
  simp only [ha] at h1
  unfold estimateVar at h1
  simp only [hc, if_true] at h1
  rw [← List.foldl_map (f := fun l => E.var X (l + 1)) (g := better)] at h1
  split at h1
  · cases h1
  · rename_i f hf
    obtain ⟨i, v, h3, h4, h5⟩ := (fold_first_min VarFit.crit better
        (fun b f h => by unfold better; rw [h]) (fun f v h => by unfold better; rw [h])
        (fun f b v w h h' => by unfold better; rw [h]; simp only [h']) _).2 f hf
    simp only [Except.ok.injEq, Prod.mk.injEq] at h1
    obtain ⟨rfl, rfl, rfl⟩ := h1
    have hget : ∀ j : Nat, j < o.lags → ((List.range o.lags).map (fun l => E.var X (l + 1)))[j]? = some (E.var X (j + 1)) := by
      intro j hj
      rw [List.getElem?_map, List.getElem?_range hj]; rfl
    have hi : i < o.lags := by
      have := (List.getElem?_eq_some_iff.1 h3).1
      simpa using this
    rw [hget i hi] at h3
    injection h3 with h3
    subst h3
    refine ⟨i + 1, v, by omega, by omega, h4, ?_, rfl, rfl, rfl⟩
    intro k' w hk1 hk2 hw
    obtain ⟨j, rfl⟩ : ∃ j, k' = j + 1 := ⟨k' - 1, by omega⟩
    obtain ⟨h6, h7⟩ := h5 j _ w (hget j (by omega)) hw
    exact ⟨h6, fun hlt => h7 (by omega)⟩

/-- **C102.** If the criterion is undefined (NaN) for every number of lags, `fit` raises. -/
theorem C102_var_undefined (E : Env K) (o : Obj K) (X : Data K) (ha : o.arCoefs = none) (hc : o.useCriterion = true)
    (h : ∀ k, 1 ≤ k → k ≤ o.lags → (E.var X k).crit = none) : ∃ e, fit E o X = .error e := by
  refine ⟨.valueError, ?_⟩
  have hnone : estimateVar E o X = none := by
    unfold estimateVar
    simp only [hc, if_true]
    rw [← List.foldl_map (f := fun l => E.var X (l + 1)) (g := better)]
    refine fold_first_none VarFit.crit better (fun best f hf => by unfold better; rw [hf]) _ ?_
    intro f hf
    rw [List.mem_map] at hf
    obtain ⟨l, hl, rfl⟩ := hf
    rw [List.mem_range] at hl
    exact h (l + 1) (by omega) (by omega)
  unfold fit arPart
  simp only [ha, hnone]

/-- **C102.** Without a criterion the requested number of lags is estimated. -/
theorem C102_var_given (E : Env K) (o o' : Obj K) (X : Data K) (ha : o.arCoefs = none)
    (hc : o.useCriterion = false) (h : fit E o X = .ok o') :
    o'.arCoefs = some (E.var X o.lags).coefs ∧ o'.lags = (E.var X o.lags).kAr ∧
      o'.residuals = some (E.var X o.lags).resid := by
  obtain ⟨Ms, lags, resid, Bs, h1, h2, rfl⟩ := fit_ok h
  unfold arPart estimateVar at h1
  simp only [ha, hc, Bool.false_eq_true, if_false, Except.ok.injEq, Prod.mk.injEq] at h1
  obtain ⟨rfl, rfl, rfl⟩ := h1
  exact ⟨rfl, rfl, rfl⟩

end Var

namespace Varma

open Verif.Var (Data mm mv oneSub lagFn lagFn1)

/-- **C102.** With an information criterion, `fit` of a fresh `VARMALiNGAM` with maximal order `(P, Q)` uses an order
`(p, q) ≠ (0, 0)` with `p ≤ P`, `q ≤ Q` whose criterion is defined and minimal, the first such in the lexicographic order. -/
theorem C102_varma_selection (E : Env K) (o o' : Obj K) (X : Data K) (ha : o.ar = none ∨ o.ma = none)
    (hc : o.useCriterion = true) (h : fit E o X = .ok o') :
    ∃ p q v, p ≤ o.order.1 ∧ q ≤ o.order.2 ∧ (p, q) ≠ (0, 0) ∧ (E.varmax X (p, q)).crit = some v ∧
      (∀ p' q' w, p' ≤ o.order.1 → q' ≤ o.order.2 → (p', q') ≠ (0, 0) → (E.varmax X (p', q')).crit = some w →
        v ≤ w ∧ (p' < p ∨ (p' = p ∧ q' < q) → v < w)) ∧
      o'.ar = (E.varmax X (p, q)).phis ∧ o'.ma = (E.varmax X (p, q)).thetas ∧
      o'.order = (E.varmax X (p, q)).order ∧ o'.residuals = some (E.varmax X (p, q)).resid := by
  obtain ⟨phis, thetas, pq, resid, ms, h1, h2, rfl⟩ := fit_ok h
  unfold armaPart at h1
  split at h1
  · rename_i h3 h4
    rcases ha with ha | ha
    · rw [ha] at h3; cases h3
    · rw [ha] at h4; cases h4
  · unfold estimate at h1
    simp only [hc, if_true] at h1
    rw [← List.foldl_map (f := fun pq => E.varmax X pq) (g := better)] at h1
    split at h1
    · cases h1
    · rename_i f hf
      obtain ⟨i, v, h3, h4, h5⟩ := (fold_first_min VarmaFit.crit better
        (fun b f h => by unfold better; rw [h]) (fun f v h => by unfold better; rw [h])
        (fun f b v w h h' => by unfold better; rw [h]; simp only [h']) _).2 f hf
      simp only [Except.ok.injEq, Prod.mk.injEq] at h1
      obtain ⟨rfl, rfl, rfl, rfl⟩ := h1
      rw [List.getElem?_map, Option.map_eq_some_iff] at h3
      obtain ⟨⟨p, q⟩, h6, rfl⟩ := h3
      have hm := (mem_orders o.order (p, q)).1 (List.mem_of_getElem? h6)
      refine ⟨p, q, v, hm.1, hm.2.1, hm.2.2, h4, ?_, rfl, rfl, rfl, rfl⟩
      intro p' q' w h7 h8 h9 hw
      obtain ⟨j, hj⟩ := List.mem_iff_getElem?.1 ((mem_orders o.order (p', q')).2 ⟨h7, h8, h9⟩)
      have hj' : ((orders o.order).map (fun pq => E.varmax X pq))[j]? = some (E.varmax X (p', q')) := by
        rw [List.getElem?_map, hj]; rfl
      obtain ⟨h10, h11⟩ := h5 j _ w hj' hw
      refine ⟨h10, fun hlt => h11 ?_⟩
      obtain ⟨hjl, hjg⟩ := List.getElem?_eq_some_iff.1 hj
      obtain ⟨hil, hig⟩ := List.getElem?_eq_some_iff.1 h6
      by_contra hc
      rcases Nat.lt_or_eq_of_le (not_lt.1 hc) with hlt' | heq
      · have := List.pairwise_iff_getElem.1 (orders_pairwise o.order) i j hil hjl hlt'
        rw [hjg, hig] at this
        exact earlier_asymm this hlt
      · subst heq
        rw [hjg] at hig
        rw [Prod.mk.injEq] at hig
        omega

/-- **C102.** Without a criterion the requested order is estimated. -/
theorem C102_varma_given (E : Env K) (o o' : Obj K) (X : Data K) (ha : o.ar = none ∨ o.ma = none)
    (hc : o.useCriterion = false) (h : fit E o X = .ok o') :
    o'.ar = (E.varmax X o.order).phis ∧ o'.ma = (E.varmax X o.order).thetas ∧
      o'.order = (E.varmax X o.order).order ∧ o'.residuals = some (E.varmax X o.order).resid := by
  obtain ⟨phis, thetas, pq, resid, ms, h1, h2, rfl⟩ := fit_ok h
  unfold armaPart at h1
  split at h1
  · rename_i h3 h4
    rcases ha with ha | ha
    · rw [ha] at h3; cases h3
    · rw [ha] at h4; cases h4
  · unfold estimate at h1
    simp only [hc, Bool.false_eq_true, if_false, Except.ok.injEq, Prod.mk.injEq] at h1
    obtain ⟨rfl, rfl, rfl, rfl⟩ := h1
    exact ⟨rfl, rfl, rfl, rfl⟩

end Varma

/-! ### C103: the bootstrap treats the resamples as `fit` treats the data -/

namespace Var

/-- What `fit` reports depends on the four settings only. -/
theorem fit_settings {E : Env K} {o1 o2 o1' : Obj K} {X : Data K} (h1 : o1.arCoefs = o2.arCoefs) (h2 : o1.lags = o2.lags)
    (h3 : o1.useCriterion = o2.useCriterion) (h4 : o1.prune = o2.prune) (h : fit E o1 X = .ok o1') :
    ∃ o2', fit E o2 X = .ok o2' ∧ o2'.adjacency = o1'.adjacency ∧ o2'.causalOrder = o1'.causalOrder ∧
      o1'.useCriterion = o1.useCriterion ∧ o1'.prune = o1.prune := by
  have ha : arPart E o1 X = arPart E o2 X := by unfold arPart estimateVar; rw [h1, h2, h3]
  have hm : ∀ Ms order B0, lagMatrices E o1 X Ms order B0 = lagMatrices E o2 X Ms order B0 := by
    intro Ms order B0; unfold lagMatrices; rw [h2, h4]
  obtain ⟨Ms, lags, resid, Bs, h5, h6, rfl⟩ := fit_ok h
  refine ⟨{ o2 with arCoefs := some Ms, lags := lags, residuals := some resid,
                    causalOrder := some (E.lingam resid).1, adjacency := some Bs }, ?_, rfl, rfl, rfl, rfl⟩
  unfold fit
  rw [← ha, h5]
  simp only
  rw [← hm, h6]

/-- Every bootstrap result is the result of `fit`, with the original settings but without criterion, on some series
of the original length. -/
theorem bootLoop_rounds (E : Env K) (N : Nat) (resample : Nat → Data K → Nat → Nat → K)
    (o0 : Obj K) (fitted : List (Nat → Nat → K)) :
    ∀ (is : List Nat) (o o' : Obj K) (acc acc' : List (List (Nat → Nat → K))),
    o.useCriterion = false → o.prune = o0.prune →
    (∀ Bs ∈ acc, ∃ X' o1, X'.rows = N ∧ fit E { o0 with useCriterion := false } X' = .ok o1 ∧ o1.adjacency = some Bs) →
    bootLoop E N resample o0.arCoefs o0.lags fitted is o acc = .ok (o', acc') →
    ∀ Bs ∈ acc', ∃ X' o1, X'.rows = N ∧ fit E { o0 with useCriterion := false } X' = .ok o1 ∧ o1.adjacency = some Bs := by
  intro is
  induction is with
  | nil =>
    intro o o' acc acc' _ _ hacc h
    simp only [bootLoop] at h
    injection h with h
    obtain ⟨rfl, rfl⟩ := Prod.mk.inj h
    exact hacc
  | cons i is ih =>
    intro o o' acc acc' hu hp hacc h
    unfold bootLoop at h
    simp only at h
    split at h
    · cases h
    · rename_i o1 hf
      obtain ⟨o2, h2, h3, _, h5, h6⟩ := fit_settings
        (o1 := { o with arCoefs := o0.arCoefs, lags := o0.lags }) (o2 := { o0 with useCriterion := false }) rfl rfl hu hp hf
      refine ih o1 o' _ acc' (by rw [h5]; exact hu) (by rw [h6]; exact hp) ?_ h
      intro Bs hBs
      rcases List.mem_append.1 hBs with hB | hB
      · exact hacc Bs hB
      · rw [List.mem_singleton] at hB
        obtain ⟨Ms, lags, resid, Bs', _, _, rfl⟩ := fit_ok hf
        refine ⟨_, o2, rfl, h2, ?_⟩
        rw [h3, hB]
        rfl

/-- **C103, what happens.** Every set of matrices of the bootstrap is what `fit` gives, for the settings before the call
but with the information criterion switched off, on a series of the same length. -/
theorem C103_rounds (E : Env K) (o o' : Obj K) (X : Data K) (k : Nat) (resample : Nat → Data K → Nat → Nat → K)
    (ms : List (List (Nat → Nat → K))) (h : bootstrap E o X k resample = .ok (o', ms)) :
    o'.useCriterion = o.useCriterion ∧
    ∀ Bs ∈ ms, ∃ X' o1, X'.rows = X.rows ∧ fit E { o with useCriterion := false } X' = .ok o1 ∧ o1.adjacency = some Bs := by
  unfold bootstrap at h
  split at h
  · cases h
  · rename_i o1 hf
    split at h
    · cases h
    · rename_i o2 ms2 hb
      injection h with h
      obtain ⟨rfl, rfl⟩ := Prod.mk.inj h
      refine ⟨rfl, ?_⟩
      obtain ⟨_, _, _, _, h5, h6⟩ := fit_settings (o2 := { o with useCriterion := false }) rfl rfl rfl rfl hf
      exact bootLoop_rounds E X.rows resample o _ _ _ _ _ _ h5 h6 (by simp) hb

/-- **C103, partial.** Without an information criterion every resample is analysed exactly as `fit` analyses the data.
Missing: with a criterion, see `C103_criterion_ignored`. -/
theorem C103_same_analysis_partial (E : Env K) (o o' : Obj K) (X : Data K) (k : Nat)
    (resample : Nat → Data K → Nat → Nat → K) (ms : List (List (Nat → Nat → K))) (hc : o.useCriterion = false)
    (h : bootstrap E o X k resample = .ok (o', ms)) :
    ∀ Bs ∈ ms, ∃ X' o1, X'.rows = X.rows ∧ fit E o X' = .ok o1 ∧ o1.adjacency = some Bs := by
  intro Bs hB
  obtain ⟨X', o1, h1, h2, h3⟩ := (C103_rounds E o o' X k resample ms h).2 Bs hB
  refine ⟨X', o1, h1, ?_, h3⟩
  rw [← h2, ← hc]

/-- **C103, what happens with a criterion.** A fresh object with criterion: every bootstrap result has the matrices of a
VAR with the *maximal* number of lags. -/
theorem C103_criterion_ignored (E : Env K) (o o' : Obj K) (X : Data K) (k : Nat) (ha : o.arCoefs = none)
    (hv : ∀ X' l, (E.var X' l).coefs.length = l)
    (resample : Nat → Data K → Nat → Nat → K) (ms : List (List (Nat → Nat → K)))
    (h : bootstrap E o X k resample = .ok (o', ms)) : ∀ Bs ∈ ms, Bs.length = o.lags + 1 := by
  intro Bs hB
  obtain ⟨X', o1, h1, h2, h3⟩ := (C103_rounds E o o' X k resample ms h).2 Bs hB
  have h4 := (C102_var_given E { o with useCriterion := false } o1 X' ha rfl h2).1
  obtain ⟨Ms, lags, resid, Bs', h5, h6, rfl⟩ := fit_ok h2
  simp only [Option.some.injEq] at h3 h4
  subst h3 h4
  rw [(lagMatrices_ok h6).1, hv]

/-- **C103, a fitted object.** After a `fit`, the lagged matrices of every resample (without pruning) come from the *same*
VAR coefficients: only the instantaneous matrix is estimated again. -/
theorem C103_fitted_reuses (E : Env K) (o o' : Obj K) (X : Data K) (k : Nat) (Ms : List (Nat → Nat → K))
    (ha : o.arCoefs = some Ms) (hp : o.prune = false)
    (resample : Nat → Data K → Nat → Nat → K) (ms : List (List (Nat → Nat → K)))
    (h : bootstrap E o X k resample = .ok (o', ms)) :
    ∀ Bs ∈ ms, Bs.length = Ms.length + 1 ∧ ∀ l, 1 ≤ l → l ≤ Ms.length → ∀ i j, i < E.n →
      lagFn Bs l i j = lagFn1 Ms l i j - ∑ c ∈ Finset.range E.n, lagFn Bs 0 i c * lagFn1 Ms l c j := by
  intro Bs hB
  obtain ⟨X', o1, h1, h2, h3⟩ := (C103_rounds E o o' X k resample ms h).2 Bs hB
  obtain ⟨Ms', lags, resid, Bs', h5, h6, rfl⟩ := fit_ok h2
  obtain ⟨rfl, _, _⟩ := arPart_some (o := { o with useCriterion := false }) ha h5
  simp only [Option.some.injEq] at h3
  subst h3
  obtain ⟨h7, h8, h9⟩ := lagMatrices_ok h6
  refine ⟨h7, fun l hl1 hl2 i j hi => ?_⟩
  obtain ⟨l, rfl⟩ : ∃ m, l = m + 1 := ⟨l - 1, by omega⟩
  rw [h9 i hi l (by omega) j]
  have hp' : ({ o with useCriterion := false } : Obj K).prune = false := hp
  rw [hp']
  simp only [Bool.false_eq_true, if_false]
  have e1 : mm E.n (oneSub (E.lingam resid).2) (lagFn1 Ms' (l + 1)) i j =
      mv E.n (oneSub (E.lingam resid).2) (fun c => lagFn1 Ms' (l + 1) c j) i := rfl
  rw [e1, mv_oneSub _ _ _ hi]
  unfold mv
  congr 1
  refine Finset.sum_congr rfl fun c _ => ?_
  rw [h8 i hi c, hp']
  simp

/-- An instance with one variable: a VAR(1) fits better than a VAR(2). -/
def sel : Env ℚ where
  n := 1
  var X l := ⟨List.replicate l (fun _ _ => 1 / 2), l, ⟨X.rows - l, fun r c => X.val (r + l) c⟩, some l⟩
  lingam _ := ([0], fun _ _ => 0)
  lasso _ _ _ _ := 0

/-- `VARLiNGAM(lags=2, criterion="bic", prune=False)`. -/
def selObj : Obj ℚ := { arCoefs := none, lags := 2, useCriterion := true, prune := false }

/-- **C103, negation.** The criterion chooses one lag for the data (two matrices), the bootstrap of the same object uses two
lags (three matrices). -/
theorem C103_bootstrap_other_lags :
    (fit sel selObj wob).toOption.bind (fun o => o.adjacency.map List.length) = some 2 ∧
    (bootstrap sel selObj wob 1 drawFirst).toOption.map (fun p => p.2.map List.length) = some [3] := by
  decide +kernel

example : ∀ X' l, (sel.var X' l).coefs.length = l := fun _ l => by simp [sel]

/-! ### C104: total effects of the bootstrap -/

/-- **C104.** The array of total effects of one bootstrap round: the entry for a source at time `t` is the total effect if
the source precedes the target in the causal order and 0 otherwise; the entry for variable `s` at lag `l ≥ 1` is its
total effect, in column `s + n * l`. -/
theorem C104_totals {V : Type} (n lags : Nat) (order : List Nat) (ho : IsOrder n order) (te : Nat → Nat → Nat → V)
    (zero : V) (to_ s : Nat) (ht : to_ < n) (hs : s < n) :
    (Before order s to_ → bootTotals n lags order te zero to_ s = te s to_ 0) ∧
    (¬ Before order s to_ → bootTotals n lags order te zero to_ s = zero) ∧
    ∀ l, 1 ≤ l → l ≤ lags → bootTotals n lags order te zero to_ (s + n * l) = te s to_ l := by
  have hlen : order.length = n := by
    have := (IsOrder.perm.1 ho).length_eq
    simpa using this
  obtain ⟨i, hi⟩ := List.mem_iff_getElem?.1 (List.mem_reverse.2 ((ho.2 to_).2 ht))
  have hnl : ∀ lag, n ≤ n * (lag + 1) := fun lag => by rw [Nat.mul_succ]; omega
  refine ⟨fun hb => ?_, fun hb => ?_, fun l hl1 hl2 => ?_⟩
  · unfold bootTotals
    rcases foldl_assign (totalAssigns n lags order te) (fun _ _ => zero) to_ s with ⟨v, h1, h2⟩ | ⟨h1, h2⟩
    · rw [h2]
      obtain ⟨j, hj, h | ⟨lag, s', _, hs', h, _⟩⟩ := mem_totalAssigns.1 h1
      · exact h.2
      · have := hnl lag; omega
    · exact absurd (mem_totalAssigns.2 ⟨i, hi, Or.inl ⟨(take_iff_before ho.1 hlen hi).2 hb, rfl⟩⟩) (h1 _)
  · unfold bootTotals
    rcases foldl_assign (totalAssigns n lags order te) (fun _ _ => zero) to_ s with ⟨v, h1, h2⟩ | ⟨h1, h2⟩
    · obtain ⟨j, hj, h | ⟨lag, s', _, hs', h, _⟩⟩ := mem_totalAssigns.1 h1
      · exact absurd ((take_iff_before ho.1 hlen hj).1 h.1) hb
      · have := hnl lag; omega
    · exact h2
  · unfold bootTotals
    obtain ⟨lag, rfl⟩ : ∃ m, l = m + 1 := ⟨l - 1, by omega⟩
    rcases foldl_assign (totalAssigns n lags order te) (fun _ _ => zero) to_ (s + n * (lag + 1)) with ⟨v, h1, h2⟩ | ⟨h1, h2⟩
    · rw [h2]
      obtain ⟨j, hj, h | ⟨lag', s', _, hs', h, h'⟩⟩ := mem_totalAssigns.1 h1
      · have := (ho.2 _).1 (List.mem_of_mem_take h.1)
        have := hnl lag
        omega
      · have hn : 0 < n := by omega
        have e1 := congrArg (· / n) h
        have e2 := congrArg (· % n) h
        simp only [Nat.add_mul_div_left _ _ hn, Nat.add_mul_mod_self_left, Nat.div_eq_of_lt hs, Nat.div_eq_of_lt hs',
          Nat.mod_eq_of_lt hs, Nat.mod_eq_of_lt hs'] at e1 e2
        obtain rfl : lag = lag' := by omega
        subst e2
        exact h'
    · exact absurd (mem_totalAssigns.2 ⟨i, hi, Or.inr ⟨lag, s, by omega, hs, rfl, rfl⟩⟩) (h1 _)

/-- **C104.** With an instantaneous matrix consistent with the causal order, every entry of the array (except a variable's
effect on itself at the same time) is the value of `estimate_total_effect2`. -/
theorem C104_all_entries (n : Nat) (Bs : List (Nat → Nat → K)) (order : List Nat) (ho : IsOrder n order)
    (hB : ∀ i j, i < n → j < n → lagFn Bs 0 i j ≠ 0 → Before order j i) (to_ s : Nat) (ht : to_ < n) (hs : s < n) (l : Nat)
    (hl : l < Bs.length) (hne : ¬ (l = 0 ∧ s = to_)) :
    bootTotals n (Bs.length - 1) order (fun s t l => totalEffect2 n Bs s t l) (some (.ok (some 0))) to_ (s + n * l) =
      totalEffect2 n Bs s to_ l := by
  obtain ⟨h1, h2, h3⟩ := C104_totals n (Bs.length - 1) order ho (fun s t l => totalEffect2 n Bs s t l)
    (some (.ok (some 0))) to_ s ht hs
  rcases Nat.eq_zero_or_pos l with rfl | hl0
  · rw [Nat.mul_zero, Nat.add_zero]
    by_cases hb : Before order s to_
    · exact h1 hb
    · rw [h2 hb]
      have hE : Acyclic (Edge n (lagFn Bs 0) 0) := by
        refine acyclic_of_before ho.1 ?_
        rintro a b ⟨ha, hb, hw⟩
        exact hB b a hb ha (abs_pos.1 hw)
      have hne' : s ≠ to_ := fun h => hne ⟨rfl, h⟩
      have hn : n ≤ n * Bs.length := Nat.le_mul_of_pos_right n hl
      have hun : Acyclic (Edge (n * Bs.length) (unroll n (lagFn Bs)) 0) := unroll_acyclic le_rfl (by omega) hE
      have := C38_path_sum_partial n Bs hE s to_ 0 hs ht hl hne (by intro k hk; omega) [] List.nodup_nil ?_
      · rw [this]; rfl
      · intro p
        simp only [List.not_mem_nil, false_iff, Nat.mul_zero, Nat.zero_add]
        intro hp
        apply hb
        have key : ∀ a b, Relation.TransGen (Edge (n * Bs.length) (unroll n (lagFn Bs)) 0) a b → a < n → Before order a b := by
          intro a b hab
          have step : ∀ a b, Edge (n * Bs.length) (unroll n (lagFn Bs)) 0 a b → a < n → b < n ∧ Before order a b := by
            rintro a b ⟨_, _, hw⟩ han
            have hbn : b < n := by
              by_contra hbn
              have hb1 : 1 ≤ b / n := (Nat.one_le_div_iff (by omega)).2 (by omega)
              have : unroll n (lagFn Bs) b a = 0 := by
                unfold unroll
                rw [if_neg (by rw [Nat.div_eq_of_lt han]; omega)]
              rw [this, abs_zero] at hw
              exact lt_irrefl _ hw
            refine ⟨hbn, hB b a hbn han ?_⟩
            have : unroll n (lagFn Bs) b a = lagFn Bs 0 b a := by
              unfold unroll
              rw [Nat.div_eq_of_lt hbn, if_pos (Nat.zero_le _), Nat.div_eq_of_lt han, Nat.mod_eq_of_lt hbn,
                Nat.mod_eq_of_lt han]
            rw [← this]
            exact abs_pos.1 hw
          intro han
          have : b < n ∧ Before order a b := by
            induction hab with
            | single h => exact step _ _ h han
            | tail _ h ih =>
              obtain ⟨h5, h6⟩ := step _ _ h ih.1
              exact ⟨h5, ih.2.trans ho.1 h6⟩
          exact this.2
        obtain ⟨hp1, hp2, hp3⟩ := hp
        obtain ⟨q, rfl⟩ : ∃ q, p = s :: q := by
          cases p with
          | nil => cases hp1
          | cons x q => simp only [List.head?_cons, Option.some.injEq] at hp1; exact ⟨q, by rw [hp1]⟩
        have hmem : to_ ∈ q := by
          have := List.mem_of_getLast? hp2
          rcases List.mem_cons.1 this with h | h
          · exact absurd h.symm hne'
          · exact h
        exact key s to_ (Paths.chain_transGen hp3 to_ hmem) hs
  · exact h3 l hl0 (by omega)

example : (List.range 4).map (fun c => bootTotals 2 1 [0, 1] (fun s t l => totalEffect2 2 exB s t l)
    (some (.ok (some 0))) 1 c) = [some (.ok (some 1)), some (.ok (some 0)), some (.ok (some 0)), some (.ok (some 1))] := by
  decide +kernel

end Var

/-! ### C105: the bootstrap of VARMALiNGAM -/

namespace Varma

open Verif.Var (Data mm mv oneSub lagFn lagFn1)

/-- **C105, negation (general).** If the fitted model has no AR part or no MA part (`p = 0` or `q = 0`: `statsmodels` then
reports `None`), every bootstrap with at least one round raises. -/
theorem C105_pure_models_fail (E : Env K) (o : Obj K) (X : Data K) (k : Nat) (hk : 0 < k)
    (hN : max o.order.1 o.order.2 < X.rows)
    (hnone : ∀ o1, fit E { o with useCriterion := false } X = .ok o1 → o1.ar = none ∨ o1.ma = none)
    (resample : Nat → Data K → Nat → Nat → K) : ∃ e, bootstrap E o X k resample = .error e := by
  unfold bootstrap
  split
  · exact ⟨_, rfl⟩
  · rename_i o1 hf
    obtain ⟨m, rfl⟩ : ∃ m, k = m + 1 := ⟨k - 1, by omega⟩
    have hb : ∀ e, bootSeries E.n X.rows (max o.order.1 o.order.2) o1.ar o1.ma e = .error .typeError := by
      intro e
      unfold bootSeries
      split
      · rename_i h1 h2
        rcases hnone o1 hf with h | h
        · rw [h] at h1; cases h1
        · rw [h] at h2; cases h2
      · rw [if_pos hN]
    refine ⟨.typeError, ?_⟩
    rw [List.range_succ_eq_map]
    unfold bootLoop
    rw [hb]

/-- What `fit` reports depends on the settings only. -/
theorem fit_settings {E : Env K} {o1 o2 o1' : Obj K} {X : Data K} (h1 : o1.ar = o2.ar) (h1' : o1.ma = o2.ma)
    (h2 : o1.order = o2.order) (h3 : o1.useCriterion = o2.useCriterion) (h4 : o1.prune = o2.prune)
    (h : fit E o1 X = .ok o1') :
    ∃ o2', fit E o2 X = .ok o2' ∧ o2'.adjacency = o1'.adjacency ∧
      o1'.useCriterion = o1.useCriterion ∧ o1'.prune = o1.prune := by
  have ha : armaPart E o1 X = armaPart E o2 X := by unfold armaPart estimate; rw [h1, h1', h2, h3]
  have hm : ∀ a b c d e f, matrices E o1 X a b c d e f = matrices E o2 X a b c d e f := by
    intro a b c d e f; unfold matrices; rw [h4]
  obtain ⟨phis, thetas, pq, resid, ms, h5, h6, rfl⟩ := fit_ok h
  refine ⟨{ o2 with ar := phis, ma := thetas, order := pq, residuals := some resid,
                    causalOrder := some (E.lingam resid).1, adjacency := some ms }, ?_, rfl, rfl, rfl⟩
  unfold fit
  rw [← ha, h5]
  simp only
  rw [← hm, h6]

/-- `VARMAX` reports the order it was asked for. -/
def ReportsOrder (E : Env K) : Prop := ∀ X pq, (E.varmax X pq).order = pq

theorem fit_order {E : Env K} {o o' : Obj K} {X : Data K} (hE : ReportsOrder E) (hc : o.useCriterion = false)
    (h : fit E o X = .ok o') : o'.order = o.order := by
  obtain ⟨phis, thetas, pq, resid, ms, h1, h2, rfl⟩ := fit_ok h
  unfold armaPart at h1
  split at h1
  · simp only [Except.ok.injEq, Prod.mk.injEq] at h1
    exact h1.2.2.1.symm
  · unfold estimate at h1
    simp only [hc, Bool.false_eq_true, if_false, Except.ok.injEq, Prod.mk.injEq] at h1
    rw [← h1.2.2.1]
    exact hE _ _

theorem bootLoop_rounds (E : Env K) (hE : ReportsOrder E) (N start : Nat) (resample : Nat → Data K → Nat → Nat → K)
    (o0 : Obj K) (far fma : Option (List (Nat → Nat → K))) :
    ∀ (is : List Nat) (o o' : Obj K) (acc acc' : List (List (Nat → Nat → K) × List (Nat → Nat → K))),
    o.useCriterion = false → o.prune = o0.prune → o.order = o0.order →
    (∀ Bs ∈ acc, ∃ X' o1, X'.rows = N ∧ fit E { o0 with useCriterion := false } X' = .ok o1 ∧ o1.adjacency = some Bs) →
    bootLoop E N start resample o0.ar o0.ma far fma is o acc = .ok (o', acc') →
    acc'.length = acc.length + is.length ∧
    ∀ Bs ∈ acc', ∃ X' o1, X'.rows = N ∧ fit E { o0 with useCriterion := false } X' = .ok o1 ∧ o1.adjacency = some Bs := by
  intro is
  induction is with
  | nil =>
    intro o o' acc acc' _ _ _ hacc h
    simp only [bootLoop] at h
    injection h with h
    obtain ⟨rfl, rfl⟩ := Prod.mk.inj h
    exact ⟨by simp, hacc⟩
  | cons i is ih =>
    intro o o' acc acc' hu hp ho hacc h
    unfold bootLoop at h
    split at h
    · cases h
    · rename_i X' hX
      have hrows : X'.rows = N := by
        unfold bootSeries at hX
        split at hX
        · injection hX with hX; rw [← hX]
        · split at hX
          · cases hX
          · injection hX with hX; rw [← hX]
      split at h
      · cases h
      · rename_i o1 hf
        obtain ⟨o2, h2, h3, h5, h6⟩ := fit_settings
          (o1 := { o with ar := o0.ar, ma := o0.ma }) (o2 := { o0 with useCriterion := false }) rfl rfl ho hu hp hf
        have h7 := fit_order (o := { o with ar := o0.ar, ma := o0.ma }) hE hu hf
        obtain ⟨h8, h9⟩ := ih o1 o' _ acc' (by rw [h5]; exact hu) (by rw [h6]; exact hp) (by rw [h7]; exact ho) (by
          intro Bs hBs
          rcases List.mem_append.1 hBs with hB | hB
          · exact hacc Bs hB
          · rw [List.mem_singleton] at hB
            obtain ⟨_, _, _, _, ms, _, _, rfl⟩ := fit_ok hf
            refine ⟨X', o2, hrows, h2, ?_⟩
            rw [h3, hB]
            rfl) h
        refine ⟨?_, h9⟩
        rw [h8]
        simp
        omega

/-- **C103, VARMALiNGAM.** Every set of matrices of the bootstrap is what `fit` gives, for the settings before the call but
with the information criterion switched off, on a series of the same length; the criterion setting itself is kept. -/
theorem C103_varma_rounds (E : Env K) (hE : ReportsOrder E) (o o' : Obj K) (X : Data K) (k : Nat)
    (resample : Nat → Data K → Nat → Nat → K) (ms : List (List (Nat → Nat → K) × List (Nat → Nat → K)))
    (h : bootstrap E o X k resample = .ok (o', ms)) :
    o'.useCriterion = o.useCriterion ∧ ms.length = k ∧
    ∀ Bs ∈ ms, ∃ X' o1, X'.rows = X.rows ∧ fit E { o with useCriterion := false } X' = .ok o1 ∧ o1.adjacency = some Bs := by
  unfold bootstrap at h
  split at h
  · cases h
  · rename_i o1 hf
    split at h
    · cases h
    · rename_i o2 ms2 hb
      injection h with h
      obtain ⟨rfl, rfl⟩ := Prod.mk.inj h
      obtain ⟨_, _, _, h5, h6⟩ := fit_settings (o2 := { o with useCriterion := false }) rfl rfl rfl rfl rfl hf
      have h7 := fit_order (o := { o with useCriterion := false }) hE rfl hf
      obtain ⟨h8, h9⟩ := bootLoop_rounds E hE X.rows _ resample o _ _ _ _ _ _ _ h5 h6 h7 (by simp) hb
      exact ⟨rfl, by simpa using h8, h9⟩

/-- **C105, partial.** If the fits on all series of this length succeed and the fitted model has an AR and an MA part,
the bootstrap succeeds.  Missing: pure AR and pure MA models (`C105_pure_models_fail`). -/
theorem C105_succeeds_partial (E : Env K) (o : Obj K) (X : Data K) (k : Nat)
    (hfit : ∀ (o0 : Obj K) X', X'.rows = X.rows → o0.useCriterion = false → o0.prune = o.prune →
      o0.ar = o.ar → o0.ma = o.ma → ∃ o1, fit E o0 X' = .ok o1)
    (hsome : ∀ o1, fit E { o with useCriterion := false } X = .ok o1 → o1.ar ≠ none ∧ o1.ma ≠ none)
    (resample : Nat → Data K → Nat → Nat → K) :
    ∃ o' ms, bootstrap E o X k resample = .ok (o', ms) ∧ ms.length = k := by
  obtain ⟨o1, hf⟩ := hfit { o with useCriterion := false } X rfl rfl rfl rfl rfl
  obtain ⟨hs1, hs2⟩ := hsome o1 hf
  obtain ⟨phis, hphi⟩ := Option.ne_none_iff_exists'.1 hs1
  obtain ⟨thetas, hth⟩ := Option.ne_none_iff_exists'.1 hs2
  have hset : ∀ (o0 o0' : Obj K) (X' : Data K), fit E o0 X' = .ok o0' →
      o0'.useCriterion = o0.useCriterion ∧ o0'.prune = o0.prune := by
    intro o0 o0' X' h
    obtain ⟨_, _, _, h5, h6⟩ := fit_settings (o2 := o0) rfl rfl rfl rfl rfl h
    exact ⟨h5, h6⟩
  have loop : ∀ (is : List Nat) (o2 : Obj K) (acc : List (List (Nat → Nat → K) × List (Nat → Nat → K))),
      o2.useCriterion = false → o2.prune = o.prune →
      ∃ o' ms, bootLoop E X.rows (max o.order.1 o.order.2) resample o.ar o.ma o1.ar o1.ma is o2 acc = .ok (o', ms) ∧
        ms.length = acc.length + is.length := by
    intro is
    induction is with
    | nil => intro o2 acc _ _; exact ⟨o2, acc, rfl, by simp⟩
    | cons i is ih =>
      intro o2 acc hu hp
      unfold bootLoop
      have hb : ∀ e, bootSeries E.n X.rows (max o.order.1 o.order.2) o1.ar o1.ma e =
          .ok ⟨X.rows, generate E.n (max o.order.1 o.order.2) phis thetas e X.rows⟩ := by
        intro e; unfold bootSeries; rw [hphi, hth]
      rw [hb]
      simp only
      obtain ⟨o3, h3⟩ := hfit { o2 with ar := o.ar, ma := o.ma }
        ⟨X.rows, generate E.n (max o.order.1 o.order.2) phis thetas
          (resample i (o2.residuals.getD ⟨0, fun _ _ => 0⟩)) X.rows⟩ rfl hu hp rfl rfl
      rw [h3]
      simp only
      obtain ⟨h4, h5⟩ := hset _ _ _ h3
      obtain ⟨o', ms, h6, h7⟩ := ih o3 (acc ++ [o3.adjacency.getD ([], [])]) (by rw [h4]; exact hu) (by rw [h5]; exact hp)
      refine ⟨o', ms, h6, ?_⟩
      rw [h7]
      simp
      omega
  obtain ⟨h4, h5⟩ := hset _ _ _ hf
  obtain ⟨o', ms, h6, h7⟩ := loop (List.range k) o1 [] h4 h5
  refine ⟨{ o' with useCriterion := o.useCriterion }, ms, ?_, by simpa using h7⟩
  unfold bootstrap
  rw [hf]
  simp only
  rw [h6]

/-- One variable, AR(1) without MA part. -/
def pureAr : Env ℚ where
  n := 1
  varmax X pq := ⟨some [fun _ _ => 1 / 2], none, pq, X, some 0⟩
  lingam _ := ([0], fun _ _ => 0)
  lasso _ _ _ _ _ := 1
  noise _ _ _ := 0

/-- `VARMALiNGAM(order=(1, 0), criterion=None)`. -/
def pureObj : Obj ℚ := { ar := none, ma := none, order := (1, 0), useCriterion := false, prune := true }

/-- C105: `fit` succeeds for order `(1, 0)`, `bootstrap` does not; both succeed for order `(1, 1)`. -/
example : (fit pureAr pureObj exX).toOption.isSome = true ∧
    (bootstrap pureAr pureObj exX 1 (fun _ R t c => R.val t c)).toOption.isSome = false ∧
    (bootstrap exEnv exObj exX 2 (fun _ R t c => R.val t c)).toOption.map (fun r => r.2.length) = some 2 := by
  decide +kernel

/-- A criterion that is undefined for order `(0, 1)` and smallest for `(1, 0)` and `(1, 1)`. -/
def critEnv : Env ℚ where
  n := 1
  varmax X pq := ⟨some (List.replicate pq.1 (fun _ _ => 1 / 2)), some (List.replicate pq.2 (fun _ _ => 1 / 3)), pq, X,
    if pq = (0, 1) then none else some (if pq.1 = 1 then 2 else 5)⟩
  lingam _ := ([0], fun _ _ => 0)
  lasso _ _ _ _ _ := 1
  noise _ _ _ := 0

/-- C102: with maximal order `(2, 1)` the first minimum, `(1, 0)`, is used. -/
example : (fit critEnv { ar := none, ma := none, order := (2, 1), useCriterion := true, prune := false } exX).toOption.map
    (fun o => o.order) = some (1, 0) := by
  decide +kernel

/-! ### C106: the pruning regression of VARMALiNGAM -/

/-- The columns of the regression data. -/
theorem joined_columns (n p : Nat) (X R : Data K) (psi0 : Nat → Nat → K) (t j : Nat) (hj : j < n) (ht : t < X.rows)
    (hR : R.rows = X.rows) :
    (∀ k, k ≤ p → k ≤ t → joined n p X (disturbances n psi0 R) t (n * k + j) = X.val (t - k) j) ∧
    (∀ k, k + 1 ≤ t → joined n p X (disturbances n psi0 R) t (n * (1 + p + k) + j) =
      R.val (t - (k + 1)) j - ∑ c ∈ Finset.range n, psi0 j c * R.val (t - (k + 1)) c) := by
  have hn : 0 < n := by omega
  constructor
  · intro k hk hkt
    unfold joined
    rw [Nat.mul_add_div hn, Nat.div_eq_of_lt hj, Nat.add_zero, if_pos (by omega), Nat.mul_add_mod, Nat.mod_eq_of_lt hj,
      Nat.mod_eq_of_lt (by omega : k < X.rows), show t + X.rows - k = t - k + X.rows by omega, Nat.add_mod_right,
      Nat.mod_eq_of_lt (by omega)]
  · intro k hkt
    unfold joined
    rw [Nat.mul_add_div hn, Nat.div_eq_of_lt hj, Nat.add_zero, if_neg (by omega), Nat.mul_add_mod, Nat.mod_eq_of_lt hj]
    have e1 : 1 + p + k - p = k + 1 := by omega
    rw [e1]
    show mv n (oneSub psi0) (R.val ((t + R.rows - (k + 1) % R.rows) % R.rows)) j = _
    rw [Nat.mod_eq_of_lt (by omega : k + 1 < R.rows), show t + R.rows - (k + 1) = t - (k + 1) + R.rows by omega,
      Nat.add_mod_right, Nat.mod_eq_of_lt (by omega), Var.mv_oneSub _ _ _ hj]
    rfl

/-- **C106, partial.** With pruning, row `i` of the reported matrices holds the coefficients of one adaptive lasso regression of
`x_i(t)` (column `i` of the regression data) on the listed columns: entry `j` of `psi_k` belongs to column `n k + j`, entry
`j` of `omega_{k+1}` to column `n (1 + p + k) + j`.  All lagged columns are used, and at time `t` exactly the
predecessors of `i`.  Column `n k + j` (`k ≤ p`) of the data is `x_j(t-k)`, and column `n (1 + p + k) + j` the structural
disturbance `u_j(t-k-1) - Σ_c B_{jc} u_c(t-k-1)`, where `B` is the matrix LiNGAM found for the residuals `u`.
Missing: the first rows, which wrap around (`C106_wraps_around`). -/
theorem C106_pruning_regression_partial (E : Env K) (o o' : Obj K) (X : Data K) (hp : o.prune = true)
    (hL : ∀ R, IsOrder E.n (E.lingam R).1) (h : fit E o X = .ok o') :
    ∃ order psis omegas R D, o'.causalOrder = some order ∧ o'.adjacency = some (psis, omegas) ∧ o'.residuals = some R ∧
      psis.length = 1 + o'.order.1 ∧ omegas.length = o'.order.2 ∧
      (R.rows = X.rows → ∀ t j, t < X.rows → j < E.n →
        (∀ k, k ≤ o'.order.1 → k ≤ t → D t (E.n * k + j) = X.val (t - k) j) ∧
        (∀ k, k + 1 ≤ t → D t (E.n * (1 + o'.order.1 + k) + j) =
          R.val (t - (k + 1)) j - ∑ c ∈ Finset.range E.n, (E.lingam R).2 j c * R.val (t - (k + 1)) c)) ∧
      ∀ i, i < E.n → ∃ cols : List Nat, cols.Nodup ∧
        (∀ c, c ∈ cols ↔ c < E.n * (1 + o'.order.1 + o'.order.2) ∧ (c < E.n → Before order c i)) ∧
        (∀ k j, k < 1 + o'.order.1 → j < E.n → lagFn psis k i j =
          if E.n * k + j ∈ cols then
            E.lasso X.rows D cols i (cols.idxOf (E.n * k + j))
          else 0) ∧
        (∀ k j, k < o'.order.2 → j < E.n → lagFn omegas k i j =
          E.lasso X.rows D cols i
            (cols.idxOf (E.n * (1 + o'.order.1 + k) + j))) := by
  obtain ⟨phis, thetas, pq, resid, ⟨psis, omegas⟩, _, h2, rfl⟩ := fit_ok h
  have ho := hL resid
  unfold matrices at h2
  split at h2
  · cases h2
  · unfold pruning at h2
    split at h2
    · cases h2
    · simp only [Except.ok.injEq, Prod.mk.injEq] at h2
      obtain ⟨rfl, rfl⟩ := h2
      refine ⟨_, _, _, resid, joined E.n pq.1 X (disturbances E.n (E.lingam resid).2 resid), rfl, rfl, rfl, by simp, by simp,
        fun hR t j ht hj => joined_columns E.n pq.1 X resid _ t j hj ht hR, fun i hi => ?_⟩
      have him : i ∈ (E.lingam resid).1 := (ho.2 i).2 hi
      have hsplit := List.take_append_drop ((E.lingam resid).1.idxOf i) (E.lingam resid).1
      have hidx : (E.lingam resid).1.idxOf i < (E.lingam resid).1.length := List.idxOf_lt_length_of_mem him
      have hdrop : i ∈ (E.lingam resid).1.drop ((E.lingam resid).1.idxOf i) := by
        rw [List.drop_eq_getElem_cons hidx, List.getElem_idxOf]
        simp
      have hhead : (E.lingam resid).1.drop ((E.lingam resid).1.idxOf i) =
          i :: (E.lingam resid).1.drop ((E.lingam resid).1.idxOf i + 1) := by
        rw [List.drop_eq_getElem_cons hidx, List.getElem_idxOf]
      have hmem : ∀ c, c ∈ predictors E.n pq.1 pq.2 (E.lingam resid).1 ((E.lingam resid).1.idxOf i) ↔
          c < E.n * (1 + pq.1 + pq.2) ∧ (c < E.n → Before (E.lingam resid).1 c i) := by
        intro c
        unfold predictors
        rw [List.mem_filter, List.mem_range, decide_eq_true_eq]
        refine and_congr_right fun _ => ?_
        constructor
        · intro hnd hc
          have hcm : c ∈ (E.lingam resid).1 := (ho.2 c).2 hc
          rw [← hsplit, List.mem_append] at hcm
          have := Before.of_mem_append (hcm.resolve_right hnd) hdrop
          rwa [hsplit] at this
        · intro hb hcd
          have hc : c < E.n := (ho.2 c).1 (List.mem_of_mem_drop hcd)
          have hbc := hb hc
          rw [hhead] at hcd
          rcases List.mem_cons.1 hcd with rfl | hcd
          · exact Before.irrefl ho.1 _ hbc
          · obtain ⟨s, t, hst⟩ := List.append_of_mem hcd
            have hic : Before (E.lingam resid).1 i c :=
              ⟨(E.lingam resid).1.take ((E.lingam resid).1.idxOf i), s, t, by
                conv_lhs => rw [← hsplit, hhead, hst]⟩
            exact Before.irrefl ho.1 _ (hic.trans ho.1 hbc)
      refine ⟨predictors E.n pq.1 pq.2 (E.lingam resid).1 ((E.lingam resid).1.idxOf i),
        List.Nodup.filter _ List.nodup_range, hmem, ?_, ?_⟩
      · intro k j hk hj
        unfold lagFn
        rw [List.getD_eq_getElem?_getD, List.getElem?_map, List.getElem?_range hk]
        show psiOmega E.n pq.1 pq.2 E.lasso X _ _ i (E.n * k + j) = _
        exact psiOmega_row ho.1 him _
      · intro k j hk hj
        have hk : k < pq.2 := hk
        unfold lagFn
        rw [List.getD_eq_getElem?_getD, List.getElem?_map, List.getElem?_range hk]
        show psiOmega E.n pq.1 pq.2 E.lasso X _ _ i (E.n * (1 + pq.1 + k) + j) = _
        rw [psiOmega_row ho.1 him, if_pos]
        rw [hmem]
        have h1 : E.n * (1 + pq.1 + k + 1) ≤ E.n * (1 + pq.1 + pq.2) := Nat.mul_le_mul_left _ (by omega)
        have h2 : E.n * 1 ≤ E.n * (1 + pq.1 + k) := Nat.mul_le_mul_left _ (by omega)
        rw [Nat.mul_succ] at h1
        exact ⟨by omega, fun h => absurd h (by omega)⟩

/-- **C106, negation (general).** For `t < k` the column for "`x_j`, `k` steps earlier" holds the value at time `T + t - k`,
in the future of `t`. -/
theorem C106_wraps_around (n p : Nat) (X ee : Data K) (t k j : Nat) (hj : j < n) (hk : t < k) (hkp : k ≤ p)
    (hk' : k < X.rows) : joined n p X ee t (n * k + j) = X.val (X.rows + t - k) j ∧ t < X.rows + t - k := by
  have hn : 0 < n := by omega
  refine ⟨?_, by omega⟩
  unfold joined
  rw [Nat.mul_add_div hn, Nat.div_eq_of_lt hj, Nat.add_zero, if_pos (by omega), Nat.mul_add_mod, Nat.mod_eq_of_lt hj,
    Nat.mod_eq_of_lt hk', Nat.mod_eq_of_lt (by omega)]
  congr 1
  omega

example : (fit exEnv exObj exX).toOption.isSome = true ∧ exObj.prune = true := by decide +kernel
example : ∀ R, IsOrder exEnv.n (exEnv.lingam R).1 := fun R =>
  ⟨List.nodup_singleton 0, fun i => by show i ∈ [0] ↔ i < 1; simp⟩

end Varma

end Verif
