import Verif.Proofs.ParceColumns
import Verif.Props.ParceUnits
import Verif.Props.VarColumns

/-!
# BottomUpParceLiNGAM and the order of the columns (C221)
-/
set_option linter.unusedSectionVars false
set_option autoImplicit false
namespace Verif.Parce

variable {𝕜 : Type} [Field 𝕜] [LinearOrder 𝕜] {F : Type} [Field F] {n : Nat} {π : Nat → Nat} {c c' : Cfg 𝕜}

/-- **C221, for any tests and regressions that follow the columns.** With the columns in another order `fit` raises the same exception, or
it returns the same order of the same variables, the same block of unresolved variables and the same matrix, if no two candidates tie. -/
theorem C221_fit_partial (hπ : Rearranges n π) (hF : FollowsColumns n π c c') (hT : NoTies n c) {lasso lasso' : Direct.Lasso F}
    (hL : RegressionFollows n π lasso lasso') (hn : n ≠ 0) (fuel : Nat) :
    (∀ e, fit c lasso n fuel = some (.error e) → fit c' lasso' n fuel = some (.error e)) ∧
    ∀ o B, fit c lasso n fuel = some (.ok (o, B)) → ∃ o' B', fit c' lasso' n fuel = some (.ok (o', B')) ∧
      o'.rest.map π = o.rest ∧ (o'.block.map π).Perm o.block ∧ ∀ i j, i < n → j < n → B' i j = B (π i) (π j) := by
  obtain ⟨hp1, hp2⟩ := priorOrders_reordered hπ hF
  have key : ∀ po po', PoOk n c po → GroupData.PoReordered n π po po' → n ≠ 1 →
      searchOrder c (c.alpha / ((n : 𝕜) - 1)) fuel [] (List.range n) po =
        (searchOrder c' (c'.alpha / ((n : 𝕜) - 1)) fuel [] (List.range n) po').map (Except.map (List.map π)) := fun po po' hok hpo h1 => by
    rw [hF.alpha]
    exact search_reordered hπ hF hT _ fuel [] (List.range n) (List.range n) po po' (List.Sublist.refl _) (List.Sublist.refl _) hπ hpo
      (fun a _ b _ => hok a b) (by simp; omega)
  constructor
  · intro e he
    unfold fit at he ⊢
    cases hpo : priorOrders c n with
    | error e0 =>
      rw [hpo] at he
      rw [hp1 e0 hpo]
      exact he
    | ok po =>
      obtain ⟨po', hpo', hre, hok⟩ := hp2 po hpo
      rw [hpo] at he
      rw [hpo']
      simp only at he ⊢
      by_cases h1 : n = 1
      · rw [if_pos h1] at he ⊢
        exact he
      · rw [if_neg h1] at he ⊢
        rw [key po po' hok hre h1] at he
        cases hs : searchOrder c' (c'.alpha / ((n : 𝕜) - 1)) fuel [] (List.range n) po' with
        | none => rw [hs] at he; cases he
        | some r =>
          rw [hs] at he
          cases r with
          | error e1 => exact he
          | ok K => cases he
  · intro o B hf
    obtain ⟨ho, hb⟩ := fit_order hn hf
    obtain ⟨po, hpo, h1, hs, hbl, rfl⟩ := fit_ok hf
    obtain ⟨po', hpo', hre, hok⟩ := hp2 po hpo
    rw [key po po' hok hre h1] at hs
    cases hs' : searchOrder c' (c'.alpha / ((n : 𝕜) - 1)) fuel [] (List.range n) po' with
    | none => rw [hs'] at hs; cases hs
    | some r =>
      cases r with
      | error e => rw [hs'] at hs; cases hs
      | ok K' =>
        have hr : K'.map π = o.rest := by
          rw [hs'] at hs
          simpa [Except.map] using hs
        have hfit : ∃ o', fit c' lasso' n fuel = some (.ok (o', adjacency c'.pk lasso' o')) ∧ o'.rest = K' := by
          unfold fit
          rw [hpo']
          simp only
          rw [if_neg h1, hs']
          exact ⟨_, rfl, rfl⟩
        obtain ⟨o', hf', rfl⟩ := hfit
        obtain ⟨ho', hb'⟩ := fit_order hn hf'
        have hblock : (o'.block.map π).Perm o.block := by
          refine (List.perm_ext_iff_of_nodup ?_ (List.nodup_append.1 ho.1).1).2 fun i => ?_
          · exact ((List.nodup_append.1 ho'.1).1).map_on fun a ha b hb => inj_of_rearranges hπ
              ((ho'.2 a).1 (List.mem_append_left _ ha)) ((ho'.2 b).1 (List.mem_append_left _ hb))
          · rw [List.mem_map]
            constructor
            · rintro ⟨a, ha, rfl⟩
              have han := (ho'.2 a).1 (List.mem_append_left _ ha)
              rcases List.mem_append.1 ((ho.2 (π a)).2 (lt_of_rearranges hπ han)) with h | h
              · exact h
              · rw [← hr] at h
                obtain ⟨b, hb, e⟩ := List.mem_map.1 h
                have := inj_of_rearranges hπ ((ho'.2 b).1 (List.mem_append_right _ hb)) han e
                exact absurd rfl ((List.nodup_append.1 ho'.1).2.2 a ha a (this ▸ hb))
            · intro hi
              obtain ⟨a, ha, rfl⟩ := surj_of_rearranges hπ ((ho.2 i).1 (List.mem_append_left _ hi))
              rcases List.mem_append.1 ((ho'.2 a).2 ha) with h | h
              · exact ⟨a, h, rfl⟩
              · exact absurd rfl ((List.nodup_append.1 ho.1).2.2 _ hi _ (hr ▸ List.mem_map_of_mem h))
        refine ⟨o', _, hf', hr, hblock, fun i j hi hj => ?_⟩
        rw [hF.pk]
        exact adjacency_reordered hπ hL ho hb ho' hb' hr hblock hi hj

/-- The hypotheses are met: three variables, of which the one with the smallest number in the original order is always the best candidate. -/
example : ∃ o' B', fit (K := ℚ) (F := ℚ) ⟨none, false, 0, 0, fun _ _ => 1, fun _ j => (((((j + 1) % 3 : Nat) : ℚ)), 1), fun _ _ => 0⟩
      (fun _ t p => ((t + 1) % 3 : Nat) * 10 + ((p + 1) % 3 : Nat)) 3 3 = some (.ok (o', B')) ∧ o'.rest = [1, 0, 2] ∧ o'.block = [] ∧ B' 2 1 = some 2 := by
  let c : Cfg ℚ := ⟨none, false, 0, 0, fun _ _ => 1, fun _ j => (((j : Nat) : ℚ), 1), fun _ _ => 0⟩
  have h : ∃ o B, fit (F := ℚ) c (fun _ t p => t * 10 + p) 3 3 = some (.ok (o, B)) ∧ o.rest = [2, 1, 0] ∧ o.block = [] ∧ B 0 2 = some 2 := by
    obtain ⟨o, B, hf⟩ := C32_no_error (F := ℚ) c rfl (fun _ t p => t * 10 + p) 3 (by norm_num)
    have hd : (match fit (F := ℚ) c (fun _ t p => t * 10 + p) 3 3 with
        | some (.ok (o, B)) => (o.rest, o.block, B 0 2)
        | _ => ([], [], none)) = ([2, 1, 0], [], some 2) := by decide +kernel
    rw [hf] at hd
    simp only [Prod.mk.injEq] at hd
    exact ⟨o, B, hf, hd⟩
  obtain ⟨o, B, hf, h1, h2, h3⟩ := h
  have hπ : Rearranges 3 (fun j => (j + 1) % 3) := by unfold Rearranges; decide +kernel
  obtain ⟨o', B', hf', a1, a2, a3⟩ := (C221_fit_partial (F := ℚ) (c := c)
    (c' := ⟨none, false, 0, 0, fun _ _ => 1, fun _ j => (((((j + 1) % 3 : Nat) : ℚ)), 1), fun _ _ => 0⟩)
    hπ ⟨rfl, rfl, rfl, rfl, fun _ _ _ _ _ _ _ => rfl, fun _ _ _ _ _ _ _ => rfl, fun _ _ _ _ _ _ _ => rfl⟩
    (fun V _ _ i _ j _ hij => ⟨fun h => (by cases h), fun _ e => hij (by
      have e : (((i : Nat) : ℚ) : WithTop ℚ) = (((j : Nat) : ℚ) : WithTop ℚ) := e
      exact_mod_cast e)⟩)
    (lasso := fun _ t p => t * 10 + p) (lasso' := fun _ t p => ((t + 1) % 3 : Nat) * 10 + ((p + 1) % 3 : Nat))
    (fun _ _ _ _ _ _ _ _ _ => rfl) (by norm_num) 3).2 o B hf
  have hb : o'.block = [] := by
    rw [h2] at a2
    simpa using a2
  refine ⟨o', B', hf', ?_, hb, by rw [a3 2 1 (by norm_num) (by norm_num)]; exact h3⟩
  have ho := (fit_order (by norm_num) hf').1
  have hlt : ∀ i ∈ o'.rest, i < 3 := fun i hi => (ho.2 i).1 (List.mem_append_right _ hi)
  have hinv : ∀ l : List Nat, (∀ i ∈ l, i < 3) → (l.map fun j => (j + 1) % 3).map (fun j => (j + 2) % 3) = l := fun l hl => by
    rw [List.map_map]
    refine (List.map_congr_left fun i hi => ?_).trans (List.map_id _)
    have := hl i hi
    simp only [Function.comp_apply, id_eq]
    omega
  rw [← hinv o'.rest hlt, a1, h1]
  rfl

/-- With equal values the first column is taken for the sink. -/
theorem tie_order {c : Cfg ℝ} (hpk : c.pk = none) (hfc : c.fc = false) (ha : c.alpha = 0) {s p : ℝ} (hp : 0 ≤ p)
    (h0 : c.hsic [0, 1] 0 = (((s : ℝ) : WithTop ℝ), p)) (h1 : c.hsic [0, 1] 1 = (((s : ℝ) : WithTop ℝ), p)) (lasso : Direct.Lasso F) :
    ∃ B, fit c lasso 2 2 = some (.ok (⟨[], [1, 0]⟩, B)) := by
  have hex : findExo c [0, 1] [0, 1] = ([0], ((p : ℝ) : WithTop ℝ)) := by
    simp [findExo, exoStep, hfc, h0, h1]
  have hr : isReject c (c.alpha / ((2 : Nat) - 1)) ((p : ℝ) : WithTop ℝ) = false := by
    unfold isReject
    rw [hfc, ha, zero_div]
    simpa using hp
  have hs : searchOrder c (c.alpha / ((2 : Nat) - 1)) 2 [] (List.range 2) [] = some (.ok [1, 0]) := by
    have hc : searchCandidate c [] (List.range 2) = [0, 1] := by unfold searchCandidate; rw [hpk]; rfl
    unfold searchOrder
    simp only
    rw [hc, show List.range 2 = [0, 1] from rfl, hex, hpk]
    simp only
    rw [hr]
    rfl
  unfold fit priorOrders
  rw [hpk]
  simp only
  rw [if_neg (by norm_num), hs]
  exact ⟨_, rfl⟩

end Verif.Parce

namespace Verif.ParceData
open Finset RcdData

variable {N : Nat} {L : Lib N} {X : Nat → Fin N → ℝ} {n : Nat} {π : Nat → Nat}

/-! ### The tests do not depend on the order of the columns -/

/-- Least squares residuals on the same columns in another order are the same. -/
theorem residOf_same {q q' : Nat} {Z : Fin q → Fin N → ℝ} {Z' : Fin q' → Fin N → ℝ} {y : Fin N → ℝ} {w : Fin q → ℝ} {w' : Fin q' → ℝ}
    (h : LeastSquaresFit Z y w) (h' : LeastSquaresFit Z' y w') (h1 : ∀ k, ∃ k', Z' k' = Z k) (h2 : ∀ k', ∃ k, Z k = Z' k') :
    residOf w' Z' y = residOf w Z y := by
  obtain ⟨a0, a1⟩ := residOf_normal h
  obtain ⟨b0, b1⟩ := residOf_normal h'
  have a2 : ∀ k', ∑ r, residOf w Z y r * Z' k' r = 0 := fun k' => by
    obtain ⟨k, hk⟩ := h2 k'
    rw [← hk]
    exact a1 k
  have b2 : ∀ k, ∑ r, residOf w' Z' y r * Z k r = 0 := fun k => by
    obtain ⟨k', hk⟩ := h1 k
    rw [← hk]
    exact b1 k'
  have orth : ∀ (e : Fin N → ℝ), ∑ r, e r = 0 → ∀ {q : Nat} (Z : Fin q → Fin N → ℝ) (w : Fin q → ℝ), (∀ k, ∑ r, e r * Z k r = 0) → ∀ b,
      ∑ r, e r * (∑ k, w k * Z k r + b) = 0 := fun e he q Z w hz b => by
    have : ∀ r, e r * (∑ k, w k * Z k r + b) = ∑ k, w k * (e r * Z k r) + e r * b := fun r => by
      rw [mul_add, mul_sum]
      congr 1
      exact sum_congr rfl fun k _ => by ring
    simp only [this]
    rw [sum_add_distrib, ← sum_mul, he, zero_mul, add_zero, sum_comm]
    exact sum_eq_zero fun k _ => by rw [← mul_sum, hz k, mul_zero]
  have hs : ∑ r, (residOf w' Z' y r - residOf w Z y r) ^ 2 = 0 := by
    have e : ∀ r, (residOf w' Z' y r - residOf w Z y r) ^ 2 =
        (residOf w' Z' y r * (∑ k, w k * Z k r + (mean y - ∑ k, w k * mean (Z k))) -
          residOf w' Z' y r * (∑ k, w' k * Z' k r + (mean y - ∑ k, w' k * mean (Z' k)))) -
        (residOf w Z y r * (∑ k, w k * Z k r + (mean y - ∑ k, w k * mean (Z k))) -
          residOf w Z y r * (∑ k, w' k * Z' k r + (mean y - ∑ k, w' k * mean (Z' k)))) := fun r => by
      have : residOf w' Z' y r - residOf w Z y r = (∑ k, w k * Z k r + (mean y - ∑ k, w k * mean (Z k))) -
          (∑ k, w' k * Z' k r + (mean y - ∑ k, w' k * mean (Z' k))) := by
        unfold residOf
        ring
      rw [← mul_sub, ← mul_sub, ← this]
      ring
    simp only [e]
    rw [sum_sub_distrib, sum_sub_distrib, sum_sub_distrib, orth _ b0 _ _ b2, orth _ b0 _ _ b1, orth _ a0 _ _ a1, orth _ a0 _ _ a2]
    ring
  funext r
  have := (sum_eq_zero_iff_of_nonneg fun r _ => sq_nonneg _).1 hs r (mem_univ r)
  exact sub_eq_zero.1 (pow_eq_zero_iff two_ne_zero |>.1 this)

theorem resid_reordered (hL : OlsRight L) (Y : Nat → Fin N → ℝ) {l l' : List Nat} (hp : (l'.map π).Perm l) (x : Nat) :
    resid L (fun j => Y (π j)) x l' = resid L Y (π x) l := by
  unfold resid
  refine residOf_same (hL _ _ _) (hL _ _ _) (fun k => ?_) fun k' => ?_
  · obtain ⟨a, ha, e⟩ := List.mem_map.1 (hp.mem_iff.2 (List.get_mem l k))
    obtain ⟨k', hk'⟩ := List.get_of_mem ha
    exact ⟨k', by unfold cols; rw [hk']; exact congrArg Y e⟩
  · obtain ⟨k, hk⟩ := List.get_of_mem (hp.mem_iff.1 (List.mem_map_of_mem (f := π) (List.get_mem l' k')))
    exact ⟨k, by unfold cols; rw [hk]⟩

theorem fisherHsic_perm (chi2 : Nat → ℝ → ℝ) {Z Z' : List (Fin N → ℝ)} (h : Z'.Perm Z) (R : Fin N → ℝ) :
    fisherHsic L chi2 Z' R = fisherHsic L chi2 Z R := by
  rcases Z' with _ | ⟨a, _ | ⟨b, Z'⟩⟩
  · rw [List.nil_perm.1 h]
  · rw [List.singleton_perm.1 h]
  · rcases Z with _ | ⟨a1, _ | ⟨b1, Z⟩⟩
    · exact absurd h.length_eq (by simp)
    · exact absurd h.length_eq (by simp)
    · unfold fisherHsic
      simp only
      rw [(h.map _).sum_eq, h.length_eq]

theorem maxFcorr_perm {Z Z' : List (Fin N → ℝ)} (h : Z'.Perm Z) (R : Fin N → ℝ) : maxFcorr L Z' R = maxFcorr L Z R := by
  rcases Z' with _ | ⟨a, _ | ⟨b, Z'⟩⟩
  · rw [List.nil_perm.1 h]
  · rw [List.singleton_perm.1 h]
  · rcases Z with _ | ⟨a1, _ | ⟨b1, Z⟩⟩
    · exact absurd h.length_eq (by simp)
    · exact absurd h.length_eq (by simp)
    · unfold maxFcorr
      simp only
      have e : (fun (m : ℝ) (z : Fin N → ℝ) => if m < (FCorr.fcorr L.R z R).getD 0 then (FCorr.fcorr L.R z R).getD 0 else m) =
          fun m z => max m ((FCorr.fcorr L.R z R).getD 0) := by
        funext m z
        split
        · rw [max_eq_right (by linarith)]
        · rw [max_eq_left (by linarith)]
      rw [e]
      exact h.foldl_eq' (fun x _ y _ (z : ℝ) => max_right_comm z _ _) 0

theorem rest_reordered (hπ : Rearranges n π) {V V' : List Nat} (hV' : V'.Sublist (List.range n)) (hp : (V'.map π).Perm V) {j : Nat} (hj : j ∈ V') :
    ((rest V' j).map π).Perm (rest V (π j)) := by
  have hlt : ∀ i ∈ V', i < n := fun i hi => List.mem_range.1 (hV'.subset hi)
  exact GroupData.others_columns hp (fun i hi k hk => Parce.inj_of_rearranges hπ (hlt i hi) (hlt k hk)) hj

theorem cfgOf_reordered (hπ : Rearranges n π) (hL : OlsRight L) (chi2 : Nat → ℝ → ℝ) (pk : Option Direct.PK) (fc : Bool) (alpha indCorr : ℝ) :
    Parce.FollowsColumns n π (cfgOf L chi2 pk fc alpha indCorr X)
      (cfgOf L chi2 (pk.map (fun pk i j => pk (π i) (π j))) fc alpha indCorr (fun j => X (π j))) := by
  have e : ∀ (l : List Nat), l.map (centre fun j => X (π j)) = (l.map π).map (centre X) := fun l => by
    rw [List.map_map]
    rfl
  have h1 : ∀ V V' j, V'.Sublist (List.range n) → (V'.map π).Perm V → j ∈ V' →
      fisherHsic L chi2 ((rest V' j).map (centre fun j => X (π j))) (resid L (centre fun j => X (π j)) j (rest V' j)) =
      fisherHsic L chi2 ((rest V (π j)).map (centre X)) (resid L (centre X) (π j) (rest V (π j))) := fun V V' j hV' hp hj => by
    have hr := rest_reordered hπ hV' hp hj
    rw [e, show (centre fun j => X (π j)) = fun j => centre X (π j) from rfl, resid_reordered hL (centre X) hr, fisherHsic_perm chi2 (hr.map _)]
  have h2 : ∀ V V' j, V'.Sublist (List.range n) → (V'.map π).Perm V → j ∈ V' →
      maxFcorr L ((rest V' j).map (centre fun j => X (π j))) (resid L (centre fun j => X (π j)) j (rest V' j)) =
      maxFcorr L ((rest V (π j)).map (centre X)) (resid L (centre X) (π j) (rest V (π j))) := fun V V' j hV' hp hj => by
    have hr := rest_reordered hπ hV' hp hj
    rw [e, show (centre fun j => X (π j)) = fun j => centre X (π j) from rfl, resid_reordered hL (centre X) hr, maxFcorr_perm (hr.map _)]
  refine ⟨rfl, rfl, rfl, rfl, fun V V' j _ hV' hp hj => ?_, fun V V' j _ hV' hp hj => h1 V V' j hV' hp hj,
    fun V V' j _ hV' hp hj => h2 V V' j hV' hp hj⟩
  simp only [cfgOf, h1 V V' j hV' hp hj, h2 V V' j hV' hp hj]

theorem lasso_reordered (hπ : Rearranges n π) {lin : Pairwise.Lin N} (hlin : RightRegression lin) {lars : Pairwise.Lars N}
    (hlars : ∀ cols, IndependentCols cols → ∀ d y, TreatsAlike lars (multiplied d cols) y) (hN : N ≠ 0) {Z : Nat → Fin N → ℝ} (hX : Identified n Z) :
    Parce.RegressionFollows n π (fun ps t p => Pairwise.predict lin lars Z ps t (ps.idxOf p))
      (fun ps t p => Pairwise.predict lin lars (fun j => Z (π j)) ps t (ps.idxOf p)) := by
  intro ps ps' t p hnd hlt hp ht hpm
  have hm : (ps'.map π).Nodup := hnd.map_on fun i hi j hj => Parce.inj_of_rearranges hπ (hlt i hi) (hlt j hj)
  have hps : ps.Nodup := hp.nodup_iff.1 hm
  have hpl : ∀ q ∈ ps, q < n := fun q hq => by
    obtain ⟨a, ha, rfl⟩ := List.mem_map.1 (hp.mem_iff.2 hq)
    exact Parce.lt_of_rearranges hπ (hlt a ha)
  have hi := Pairwise.independent_of_identified hX hps hpl
  have hmem : π p ∈ ps := hp.mem_iff.1 (List.mem_map_of_mem hpm)
  beta_reduce
  rw [GroupData.predict_reordered, ← GroupData.idxOf_map_inj ps' p fun y hy e => Parce.inj_of_rearranges hπ (hlt y hy) (hlt p hpm) e]
  exact Pairwise.C219_list hlin Z hps hp (π t) hi (fun d => hlars _ (Var.zscores_independent hN hi) d _) _ hmem

/-- **C221.** `fit` of BottomUpParceLiNGAM on the same data with the columns (and the prior knowledge) in the order `π`: the same exception,
or the same causal order of the same variables, the same block of unresolved variables, and the same matrix, if no two candidates tie and
the Lasso path treats the columns alike. -/
theorem C221_data_partial (hπ : Rearranges n π) (hL : OlsRight L) {lin : Pairwise.Lin N} (hlin : RightRegression lin) {lars : Pairwise.Lars N}
    (hlars : ∀ cols, IndependentCols cols → ∀ d y, TreatsAlike lars (multiplied d cols) y) (chi2 : Nat → ℝ → ℝ) (pk : Option Direct.PK) (fc : Bool)
    (alpha indCorr : ℝ) (hn : n ≠ 0) (fuel : Nat) (hX : Identified n X)
    (hT : Parce.NoTies n (cfgOf L chi2 pk fc alpha indCorr X)) :
    (∀ e, fit L lin lars chi2 pk fc alpha indCorr n fuel X = some (.error e) →
      fit L lin lars chi2 (pk.map (fun pk i j => pk (π i) (π j))) fc alpha indCorr n fuel (fun j => X (π j)) = some (.error e)) ∧
    ∀ o B, fit L lin lars chi2 pk fc alpha indCorr n fuel X = some (.ok (o, B)) →
      ∃ o' B', fit L lin lars chi2 (pk.map (fun pk i j => pk (π i) (π j))) fc alpha indCorr n fuel (fun j => X (π j)) = some (.ok (o', B')) ∧
        o'.rest.map π = o.rest ∧ (o'.block.map π).Perm o.block ∧ ∀ i j, i < n → j < n → B' i j = B (π i) (π j) := by
  have hN : N ≠ 0 := by
    rintro rfl
    have := hX (fun _ => 1) 0 (fun r => r.elim0) 0 (by omega)
    norm_num at this
  exact Parce.C221_fit_partial hπ (cfgOf_reordered hπ hL chi2 pk fc alpha indCorr) hT
    (lasso_reordered hπ hlin hlars hN (identified_centre hX)) hn fuel

theorem swap_two : Rearranges 2 (1 - ·) := by unfold Rearranges; decide +kernel

/-- The hypotheses are met: six rows of two columns, a known path from the first to the second, and both kinds of tests. -/
example (R : FCorr.Routines) (sf : ℝ → ℝ → ℝ → ℝ) (pf : ℝ → ℝ) (chi2 : Nat → ℝ → ℝ) (fc : Bool) (alpha indCorr : ℝ) :
    ∃ (L : Lib 6) (lin : Pairwise.Lin 6) (lars : Pairwise.Lars 6), L.gammaSf = sf ∧ L.R = R ∧ RightRegression lin ∧ RightPath lars ∧
      ∀ o B, fit L lin lars chi2 (some fun i j => if i = 1 ∧ j = 0 then 1 else -1) fc alpha indCorr 2 2 squares = some (.ok (o, B)) →
      ∃ o' B', fit L lin lars chi2 (some fun i j => if 1 - i = 1 ∧ 1 - j = 0 then 1 else -1) fc alpha indCorr 2 2 (fun j => squares (1 - j)) =
        some (.ok (o', B')) ∧ o'.rest.map (1 - ·) = o.rest ∧ B' 0 1 = B 1 0 := by
  obtain ⟨L, hL, _, h1, h2, _⟩ := exists_lib (N := 6) R sf pf
  obtain ⟨lin, lars, hlin, hpath, hlars⟩ := Pairwise.exists_alike 6
  have hid : Identified 2 squares := fun b b0 hb j hj =>
    squares_independent (-b0) b (fun r => by have := hb r; linarith) j hj
  refine ⟨L, lin, lars, h1, h2, hlin, hpath, fun o B hf => ?_⟩
  obtain ⟨o', B', a1, a2, _, a4⟩ := (C221_data_partial (π := (1 - ·)) swap_two hL hlin hlars chi2 _ fc alpha indCorr (by norm_num) 2 hid
    (fun V hV hR i hi j hj hij => by
      have hi2 := List.mem_range.1 (hV.subset hi)
      have hj2 := List.mem_range.1 (hV.subset hj)
      exfalso
      have : (i = 0 ∧ j = 1) ∨ (i = 1 ∧ j = 0) := by omega
      rcases this with ⟨rfl, rfl⟩ | ⟨rfl, rfl⟩
      · exact hR 0 hi 1 hj ⟨_, rfl, by norm_num, by norm_num, Or.inl (by norm_num)⟩
      · exact hR 0 hj 1 hi ⟨_, rfl, by norm_num, by norm_num, Or.inl (by norm_num)⟩)).2 o B hf
  exact ⟨o', B', a1, a2, a4 0 1 (by norm_num) (by norm_num)⟩

/-! ### Ties -/

theorem mean_rows (v : Fin N → ℝ) (σ : Equiv.Perm (Fin N)) : mean (fun r => v (σ r)) = mean v := by
  unfold mean
  rw [Equiv.sum_comp σ v]

/-- Residuals do not depend on the order of the rows. -/
theorem resid_rows (hL : OlsRight L) (Y : Nat → Fin N → ℝ) (σ : Equiv.Perm (Fin N)) (x : Nat) (l : List Nat) :
    resid L (fun j r => Y j (σ r)) x l = fun r => resid L Y x l (σ r) := by
  obtain ⟨b, hb⟩ := hL l.length (cols Y l) (Y x)
  have h : LeastSquaresFit (cols (fun j r => Y j (σ r)) l) (fun r => Y x (σ r)) (L.ols l.length (cols Y l) (Y x)) := by
    refine ⟨b, fun b' w' => ?_⟩
    have e : ∀ (b : ℝ) (w : Fin l.length → ℝ), ∑ r, (Y x (σ r) - b - ∑ k, w k * cols (fun j r => Y j (σ r)) l k r) ^ 2 =
        ∑ r, (Y x r - b - ∑ k, w k * cols Y l k r) ^ 2 := fun b w =>
      Equiv.sum_comp σ (fun r => (Y x r - b - ∑ k, w k * cols Y l k r) ^ 2)
    rw [e, e]
    exact hb b' w'
  have := residOf_same h (hL l.length (cols (fun j r => Y j (σ r)) l) (fun r => Y x (σ r))) (fun k => ⟨k, rfl⟩) (fun k => ⟨k, rfl⟩)
  refine Eq.trans this ?_
  funext r
  unfold residOf
  rw [mean_rows]
  congr 3
  refine sum_congr rfl fun k _ => ?_
  congr 1
  exact mean_rows (cols Y l k) σ

theorem hsicPair_rows (hN : N ≤ 100) (v w : Fin N → ℝ) (σ : Equiv.Perm (Fin N)) :
    hsicPair L (fun r => v (σ r)) (fun r => w (σ r)) = hsicPair L v w := by
  unfold hsicPair
  have := Hsic.C115_hsic_row_order_small_partial hN L.gammaSf (Mlhsicr.col v) (Mlhsicr.col w) σ
  rw [← this]
  rfl

/-- A p-value is a value of the survival function. -/
theorem test_sf {d e : Nat} {sf : ℝ → ℝ → ℝ → ℝ} {X : Hsic.Dat N d} {Y : Hsic.Dat N e} {s : Option ℝ} {p : ℝ} (h : Hsic.test sf X Y = .ok (s, some p)) :
    ∃ a b d, p = sf a b d := by
  unfold Hsic.test Hsic.testWith at h
  split at h
  · cases h
  · split at h
    · simp only [Except.ok.injEq, Prod.mk.injEq] at h
      obtain ⟨_, h⟩ := h
      split at h
      · cases h
      · exact ⟨_, _, _, (Option.some.inj h).symm⟩
    · cases h

theorem square_flip (j : Nat) : Pairwise.square (1 - j) = fun r => Pairwise.square j (Pairwise.flip r) := by
  funext r
  rcases j with _ | j <;> fin_cases r <;> simp [Pairwise.square, Pairwise.flip]

/-- **C221 is violated when two candidates tie.** The second column comes first whichever of the two variables it is. -/
theorem C221_violated {L : Lib 4} (hL : OlsRight L) (hsf : ∀ a b d, 0 ≤ L.gammaSf a b d) (lin : Pairwise.Lin 4) (lars : Pairwise.Lars 4)
    (chi2 : Nat → ℝ → ℝ) (indCorr : ℝ) :
    ∃ B B', fit L lin lars chi2 none false 0 indCorr 2 2 Pairwise.square = some (.ok (⟨[], [1, 0]⟩, B)) ∧
      fit L lin lars chi2 none false 0 indCorr 2 2 (fun j => Pairwise.square (1 - j)) = some (.ok (⟨[], [1, 0]⟩, B')) ∧
      [1, 0].map (1 - ·) ≠ [1, 0] := by
  let Y := centre Pairwise.square
  have hY : ∀ j, Y (1 - j) = fun r => Y j (Pairwise.flip r) := fun j => by
    show centre (fun j => Pairwise.square (1 - j)) j = _
    unfold centre
    beta_reduce
    rw [square_flip j, mean_rows]
    rfl
  have hpair : hsicPair L (Y 1) (resid L Y 0 [1]) = hsicPair L (Y 0) (resid L Y 1 [0]) := by
    have e1 : resid L (fun j => Y (1 - j)) 1 [0] = resid L Y 0 [1] := resid_reordered (π := (1 - ·)) hL Y (l := [1]) (l' := [0]) (.refl _) 1
    have e2 : (fun j => Y (1 - j)) = fun j r => Y j (Pairwise.flip r) := funext hY
    rw [e2, resid_rows hL] at e1
    rw [← e1, show Y 1 = fun r => Y 0 (Pairwise.flip r) from hY 0]
    exact hsicPair_rows (by norm_num) _ _ _
  have hp : ∀ v w : Fin 4 → ℝ, 0 ≤ (hsicPair L v w).2 := fun v w => by
    unfold hsicPair
    split
    · rename_i s p h
      cases p with
      | none => exact le_refl _
      | some p =>
        obtain ⟨a, b, d, e⟩ := test_sf h
        rw [e]
        exact hsf _ _ _
    · exact le_refl _
  have r0 : rest [0, 1] 0 = [1] := by decide
  have r1 : rest [0, 1] 1 = [0] := by decide
  obtain ⟨B, hB⟩ := Parce.tie_order (c := cfgOf L chi2 none false 0 indCorr Pairwise.square) rfl rfl rfl
    (s := (hsicPair L (Y 0) (resid L Y 1 [0])).1) (p := (hsicPair L (Y 0) (resid L Y 1 [0])).2) (hp _ _)
    (by
      show fisherHsic L chi2 ((rest [0, 1] 0).map Y) (resid L Y 0 (rest [0, 1] 0)) = _
      rw [r0, ← hpair]; rfl)
    (by
      show fisherHsic L chi2 ((rest [0, 1] 1).map Y) (resid L Y 1 (rest [0, 1] 1)) = _
      rw [r1]; rfl) (fun ps t p => Pairwise.predict lin lars (centre Pairwise.square) ps t (ps.idxOf p))
  have hf := cfgOf_reordered (n := 2) (π := (1 - ·)) (X := Pairwise.square) swap_two hL chi2 none false 0 indCorr
  have hq : (([0, 1] : List Nat).map (1 - ·)).Perm [0, 1] := by decide +kernel
  have hsub : ([0, 1] : List Nat).Sublist (List.range 2) := List.Sublist.refl _
  obtain ⟨B', hB'⟩ := Parce.tie_order (c := cfgOf L chi2 none false 0 indCorr (fun j => Pairwise.square (1 - j))) rfl rfl rfl
    (s := (hsicPair L (Y 0) (resid L Y 1 [0])).1) (p := (hsicPair L (Y 0) (resid L Y 1 [0])).2) (hp _ _)
    (by
      refine (hf.hsic [0, 1] [0, 1] 0 hsub hsub hq (by simp)).trans ?_
      show fisherHsic L chi2 ((rest [0, 1] 1).map Y) (resid L Y 1 (rest [0, 1] 1)) = _
      rw [r1]; rfl)
    (by
      refine (hf.hsic [0, 1] [0, 1] 1 hsub hsub hq (by simp)).trans ?_
      show fisherHsic L chi2 ((rest [0, 1] 0).map Y) (resid L Y 0 (rest [0, 1] 0)) = _
      rw [r0, ← hpair]; rfl) (fun ps t p => Pairwise.predict lin lars (centre fun j => Pairwise.square (1 - j)) ps t (ps.idxOf p))
  exact ⟨B, B', hB, hB', by decide⟩

end Verif.ParceData
