import Verif.Model.GroupBoot
import Verif.Props.Bootstrap
import Verif.Props.MultiGroup

/-!
# Bootstrap of MultiGroupDirectLiNGAM and total effects of MultiGroupRCD (C164, C165)
-/
set_option linter.unusedSectionVars false
set_option autoImplicit false
namespace Verif.MultiGroup
open Verif.Boot (Mat Err laterPairs fillEffects GoodFit totalMatrix sample_ok)

theorem totals_ok {n src dst : Nat} : ∀ {Bs : List Mat},
    (∀ B ∈ Bs, ∃ v, Paths.calcTotalEffect n B src dst = some (.ok v)) →
    ∃ vs, totals n src dst Bs = some (.ok vs) ∧ vs.length = Bs.length ∧
      ∀ (i : Nat) (B : Mat), Bs[i]? = some B → ∃ v, vs[i]? = some v ∧ Paths.calcTotalEffect n B src dst = some (.ok v)
  | [], _ => ⟨[], rfl, rfl, by simp⟩
  | B :: Bs, h => by
    obtain ⟨v, hv⟩ := h B (by simp)
    obtain ⟨vs, h1, h2, h3⟩ := totals_ok (Bs := Bs) (fun B' hB' => h B' (by simp [hB']))
    refine ⟨v :: vs, by simp only [totals, hv, h1], by simp [h2], ?_⟩
    intro i B' hB'
    cases i with
    | zero =>
      simp only [List.getElem?_cons_zero, Option.some.injEq] at hB'
      subst hB'
      exact ⟨v, rfl, hv⟩
    | succ i => exact h3 i B' (by simpa using hB')

theorem fillEffects_pairs {n : Nat} {B : Mat} : ∀ {ps : List (Nat × Nat)} {T T' : Mat},
    fillEffects n B ps T = some (.ok T') → ∀ p ∈ ps, ∃ v, Paths.calcTotalEffect n B p.1 p.2 = some (.ok v)
  | [], _, _, _ => by simp
  | (a, b) :: ps, T, T', h => by
    intro p hp
    unfold Boot.fillEffects at h
    split at h
    · cases h
    · cases h
    · rename_i v hv
      rcases List.mem_cons.1 hp with rfl | hp
      · exact ⟨v, hv⟩
      · exact fillEffects_pairs h p hp

/-- The joint loop writes for every data set what the loop on its matrix alone writes. -/
theorem fillAll_ok {n : Nat} {Bs : List Mat} : ∀ {ps : List (Nat × Nat)} (T : Nat → Mat),
    (∀ B ∈ Bs, ∀ p ∈ ps, ∃ v, Paths.calcTotalEffect n B p.1 p.2 = some (.ok v)) →
    ∃ T', fillAll n Bs ps T = some (.ok T') ∧
      ∀ (i : Nat) (B : Mat), Bs[i]? = some B → fillEffects n B ps (T i) = some (.ok (T' i))
  | [], T, _ => ⟨T, rfl, fun _ _ _ => rfl⟩
  | (a, b) :: ps, T, h => by
    obtain ⟨vs, h1, _, h3⟩ := totals_ok (Bs := Bs) (src := a) (dst := b) (fun B hB => h B hB (a, b) (by simp))
    obtain ⟨T', h4, h5⟩ := fillAll_ok (ps := ps) (write a b vs T) (fun B hB p hp => h B hB p (by simp [hp]))
    refine ⟨T', by simp only [fillAll, h1, h4], ?_⟩
    intro i B hB
    obtain ⟨v, hv, hc⟩ := h3 i B hB
    have h6 := h5 i B hB
    have h7 : write a b vs T i = fun r c => if r = b ∧ c = a then v else T i r c := by
      funext r c
      simp [write, hv]
    rw [h7] at h6
    simp only [Boot.fillEffects, hc, h6]

/-- **C164.** For every number of data sets and samples: `bootstrap` returns one result per data set.  Result `i` has exactly
`n_sampling` samples; sample `s` is the matrix of data set `i` in the `s`-th joint fit together with the total effects of
**that** matrix (off the diagonal the entries of `(I - B)⁻¹`, zero on the diagonal). -/
theorem C164_bootstrap_stores {n G : Nat} (hG : 2 ≤ G) {order : Nat → List Nat} {Bs : Nat → List Mat} {N : Nat} (hN : 0 < N)
    (hlen : ∀ s < N, (Bs s).length = G) (hgood : ∀ s < N, ∀ B ∈ Bs s, GoodFit n (order s) B)
    {fit : Nat → Except Err (List Nat × List Mat)} (hfit : ∀ s < N, fit s = .ok (order s, Bs s)) :
    ∃ res, groupBootstrap n G fit N = some (.ok res) ∧ res.length = G ∧
      ∀ i < G, ∃ r, res[i]? = some r ∧ r.length = N ∧
        ∀ s < N, ∃ B T, (Bs s)[i]? = some B ∧ r[s]? = some (B, T) ∧
          ∀ a b : Fin n, T a b = some (if a = b then 0 else totalMatrix n B a b) := by
  have hloop : ∀ k s, s + k = N → ∃ rs, bootLoop n fit s k = some (.ok rs) ∧ rs.length = k ∧
      ∀ t < k, ∃ T, rs[t]? = some (Bs (s + t), T) ∧ ∀ (i : Nat) (B : Mat), (Bs (s + t))[i]? = some B →
        ∀ a b : Fin n, T i a b = some (if a = b then 0 else totalMatrix n B a b) := by
    intro k
    induction k with
    | zero => intro s _; exact ⟨[], rfl, rfl, by simp⟩
    | succ k ih =>
      intro s hs
      obtain ⟨rs, h1, h2, h3⟩ := ih (s + 1) (by omega)
      have hs' : s < N := by omega
      obtain ⟨T, h4, h5⟩ := fillAll_ok (n := n) (Bs := Bs s) (ps := laterPairs (order s)) (fun _ _ _ => some 0) (by
        intro B hB
        obtain ⟨T0, h, _⟩ := sample_ok (hgood s hs' B hB)
        exact fillEffects_pairs h)
      refine ⟨(Bs s, T) :: rs, ?_, by simp [h2], ?_⟩
      · simp only [bootLoop, hfit s hs', h4, h1]
      · intro t ht
        cases t with
        | zero =>
          refine ⟨T, rfl, ?_⟩
          intro i B hB
          obtain ⟨T0, h6, h7⟩ := sample_ok (hgood s hs' B (List.mem_of_getElem? hB))
          have h8 := h5 i B hB
          rw [h6] at h8
          simp only [Option.some.injEq, Except.ok.injEq] at h8
          rw [← h8]
          exact h7
        | succ t =>
          obtain ⟨T', h6, h7⟩ := h3 t (by omega)
          refine ⟨T', ?_, ?_⟩
          · simpa [show s + 1 + t = s + (t + 1) by omega] using h6
          · simpa [show s + 1 + t = s + (t + 1) by omega] using h7
  obtain ⟨rs, h1, h2, h3⟩ := hloop N 0 (by omega)
  refine ⟨(List.range G).map (fun i => rs.map (fun r => (r.1.getD i (fun _ _ => some 0), r.2 i))), ?_, by simp, ?_⟩
  · simp only [groupBootstrap, if_neg (show ¬ G < 2 by omega), show (0 : Int) < N by exact_mod_cast hN, if_true,
      Int.toNat_natCast, h1]
  · intro i hi
    refine ⟨rs.map (fun r => (r.1.getD i (fun _ _ => some 0), r.2 i)), by simp [hi], by simp [h2], ?_⟩
    intro s hs
    obtain ⟨T, h4, h5⟩ := h3 s hs
    rw [Nat.zero_add] at h4 h5
    have hi' : i < (Bs s).length := by rw [hlen s hs]; exact hi
    refine ⟨(Bs s)[i], T i, List.getElem?_eq_getElem hi', ?_, h5 i _ (List.getElem?_eq_getElem hi')⟩
    rw [List.getElem?_map, h4]
    simp [List.getD_eq_getElem?_getD, hi']

/-- **C164.** Fewer than two data sets, or a number of samples that is not positive, are rejected. -/
theorem C164_rejects (n G : Nat) (fit : Nat → Except Err (List Nat × List Mat)) (N : Int) (h : G < 2 ∨ N ≤ 0) :
    groupBootstrap n G fit N = some (.error .valueError) := by
  unfold groupBootstrap
  by_cases hG : G < 2
  · rw [if_pos hG]
  · rw [if_neg hG, if_neg (by rcases h with h | h <;> omega)]

/-- **C164.** Without prior knowledge the hypotheses always hold: whatever the resamples, statistics and regressions of the data
sets are, `bootstrap` succeeds and stores the matrices of the joint fits with their total effects. -/
theorem C164_direct (n : Nat) (soft : Bool) {gs : Nat → List (Data ℚ)} {G : Nat} (hG : 2 ≤ G) (hgs : ∀ s, (gs s).length = G)
    {N : Nat} (hN : 0 < N) :
    ∃ (order : Nat → List Nat) (Bs : Nat → List (Nat → Nat → ℚ)), (∀ s, fit none soft (gs s) n = .ok (order s, Bs s)) ∧
      ∃ res, groupBootstrap n G (fun s => .ok (order s, (Bs s).map (fun B i j => some (B i j)))) N = some (.ok res) ∧
        res.length = G ∧ ∀ i < G, ∃ r, res[i]? = some r ∧ r.length = N ∧
          ∀ s < N, ∃ B T, (Bs s)[i]? = some B ∧ r[s]? = some (fun i j => some (B i j), T) ∧
            ∀ a b : Fin n, T a b = some (if a = b then 0 else
              ((1 - Matrix.of fun i j : Fin n => B i j)⁻¹ : Matrix (Fin n) (Fin n) ℚ) a b) := by
  have hex : ∀ s, ∃ (order : List Nat) (Bs : List (Nat → Nat → ℚ)), fit none soft (gs s) n = .ok (order, Bs) := by
    intro s
    obtain ⟨order, h⟩ := Direct.fitOrder_none_total (cfg := ⟨none, soft, .pwling⟩) (score := groupScore (gs s)) (n := n) rfl
    exact ⟨order, _, by unfold fit fitOrder; rw [h]⟩
  choose order Bs h using hex
  refine ⟨order, Bs, h, ?_⟩
  obtain ⟨res, h1, h2, h3⟩ := C164_bootstrap_stores (n := n) hG (order := order)
    (Bs := fun s => (Bs s).map (fun B i j => some (B i j))) hN
    (fun s _ => by rw [List.length_map, (C89_common_order none soft (gs s) n _ _ (h s)).2.1, hgs s])
    (by
      intro s _ B hB
      obtain ⟨B0, hB0, rfl⟩ := List.mem_map.1 hB
      obtain ⟨ho, _, hb⟩ := C89_common_order none soft (gs s) n _ _ (h s)
      refine ⟨ho, ?_⟩
      rintro a b ⟨_, _, hw⟩
      refine hb B0 hB0 b a ?_
      intro he
      simp [Paths.clean, Paths.nan0, he] at hw)
    (fit := fun s => .ok (order s, (Bs s).map (fun B i j => some (B i j)))) (fun _ _ => rfl)
  refine ⟨res, h1, h2, ?_⟩
  intro i hi
  obtain ⟨r, h4, h5, h6⟩ := h3 i hi
  refine ⟨r, h4, h5, ?_⟩
  intro s hs
  obtain ⟨B, T, h7, h8, h9⟩ := h6 s hs
  rw [List.getElem?_map] at h7
  cases hB : (Bs s)[i]? with
  | none => rw [hB] at h7; cases h7
  | some B0 =>
    rw [hB] at h7
    simp only [Option.map_some, Option.some.injEq] at h7
    subst h7
    exact ⟨B0, T, rfl, h8, h9⟩

/-- Two samples of two data sets with different orders: `0 → 1` with weights 2 and 3, then `1 → 0` with weights 5 and 7. -/
def exFits : Nat → Except Err (List Nat × List Mat)
  | 0 => .ok ([0, 1], [fun i j => if i = 1 ∧ j = 0 then some 2 else some 0, fun i j => if i = 1 ∧ j = 0 then some 3 else some 0])
  | _ => .ok ([1, 0], [fun i j => if i = 0 ∧ j = 1 then some 5 else some 0, fun i j => if i = 0 ∧ j = 1 then some 7 else some 0])

/-- Data set by data set, sample by sample: entries `(1, 0)` and `(0, 1)` of the total effects. -/
example : ((groupBootstrap 2 2 exFits 2).bind (fun r => r.toOption)).map (fun res =>
      res.map (fun r => r.map (fun q => (q.1 1 0, q.2 1 0, q.2 0 1)))) =
    some [[(some 2, some 2, some 0), (some 0, some 0, some 5)], [(some 3, some 3, some 0), (some 0, some 0, some 7)]] := by
  decide +kernel

/-! ### C165: total effects of MultiGroupRCD by regression -/

theorem rowNan_iff {n : Nat} {B : Nat → Nat → Option ℚ} {src : Nat} :
    Parce.rowNan n B src = true ↔ ∃ j, j < n ∧ B src j = none := by
  simp [Parce.rowNan]

/-- **C165 (partial).** For a source without latent confounders and one data set per matrix: one effect per data set, the
coefficient of the source in the regression on the source and its parents in the matrix of that data set.  Missing: confounded
sources, where nothing is returned (`C165_confounded_empty`). -/
theorem C165_effects_partial (n src dst : Nat) (lrs : List (Direct.Lasso ℚ)) (Bs : List (Nat → Nat → Option ℚ))
    (hlen : lrs.length = Bs.length) (h : ∀ B ∈ Bs, ∀ j, j < n → B src j ≠ none) :
    (rcdEffects n src dst lrs Bs).length = lrs.length ∧
    ∀ (k : Nat) (lr : Direct.Lasso ℚ) (B : Nat → Nat → Option ℚ), lrs[k]? = some lr → Bs[k]? = some B →
      ∃ ps, (rcdEffects n src dst lrs Bs)[k]? = some (lr (src :: ps) dst src) ∧ ps.Nodup ∧
        ∀ j, j ∈ ps ↔ j < n ∧ ∃ b, B src j = some b ∧ b ≠ 0 := by
  induction Bs generalizing lrs with
  | nil =>
    obtain rfl : lrs = [] := List.eq_nil_of_length_eq_zero (by simpa using hlen)
    exact ⟨rfl, by simp⟩
  | cons B Bs ih =>
    cases lrs with
    | nil => simp at hlen
    | cons lr lrs =>
      obtain ⟨h1, h2⟩ := ih lrs (by simpa using hlen) (fun B' hB' => h B' (by simp [hB']))
      have hno : ¬ Parce.rowNan n B src = true := by
        rw [rowNan_iff]
        rintro ⟨j, hj, hn⟩
        exact h B (by simp) j hj hn
      simp only [rcdEffects, if_neg hno]
      refine ⟨by simp [h1], ?_⟩
      intro k lr' B' hl hB
      cases k with
      | zero =>
        simp only [List.getElem?_cons_zero, Option.some.injEq] at hl hB
        subst hl hB
        refine ⟨(List.range n).filter (fun j => decide (0 < |(B src j).getD 0|)), rfl, List.nodup_range.filter _, ?_⟩
        intro j
        rw [List.mem_filter, List.mem_range, decide_eq_true_eq, abs_pos]
        refine and_congr_right fun hj => ?_
        cases hb : B src j with
        | none => exact absurd hb (h B (by simp) j hj)
        | some b => simp
      | succ k => exact h2 k lr' B' (by simpa using hl) (by simpa using hB)

/-- **C165 is violated**: after a joint fit, for a source that shares a latent confounder with some variable the result is the
empty list, not one value (or NaN) per data set. -/
theorem C165_confounded_empty (c : RcdCfg) (gs : List RcdData) (n maxNum fuel : Nat) (M : Rcd.Anc)
    (Bs : List (Nat → Nat → Option ℚ)) (h : rcdFit c gs n maxNum fuel = some (M, Bs)) (src dst j : Nat) (hj : j < n)
    (B : Nat → Nat → Option ℚ) (hB : B ∈ Bs) (hnan : B src j = none) (lrs : List (Direct.Lasso ℚ)) :
    rcdEffects n src dst lrs Bs = [] := by
  cases Bs with
  | nil => cases lrs <;> rfl
  | cons B0 Bs =>
    have : B0 src j = none := by
      have := rcd_nan_common c gs n maxNum fuel M _ h B0 B (by simp) hB src j
      rw [hnan] at this
      simpa using this
    cases lrs with
    | nil => rfl
    | cons lr lrs =>
      unfold rcdEffects
      rw [if_pos (rowNan_iff.2 ⟨j, hj, this⟩)]

/-- A confounded pair in a joint fit (`C91`): two data sets, no effect. -/
example : (rcdFit wCfg [wConf, wConf] 2 2 10).map (fun r => (r.2.map (fun B => B 0 1),
    rcdEffects 2 0 1 [fun _ _ _ => 7, fun _ _ _ => 8] r.2)) = some ([none, none], []) := by decide +kernel

/-- Without confounders: two data sets, two effects; the second matrix adds a predictor. -/
example : rcdEffects 2 1 0 [fun ps _ _ => ps.length, fun ps _ _ => ps.length]
    [fun _ _ => some 0, fun i j => if i = 1 ∧ j = 0 then some 4 else some 0] = [1, 2] := by decide +kernel

end Verif.MultiGroup
