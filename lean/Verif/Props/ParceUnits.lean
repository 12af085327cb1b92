import Verif.Model.ParceData
import Verif.Props.RcdUnits
import Verif.Props.AdaptiveLasso
import Verif.Props.Parce

/-! BottomUpParceLiNGAM in other units of measurement and with other origins. -/
set_option autoImplicit false
set_option linter.unusedSectionVars false
namespace Verif.ParceData
open Finset RcdData

variable {N : Nat} {L : Lib N} {c o : Nat → ℝ} {X X' : Nat → Fin N → ℝ}

theorem centre_units (h : OtherUnits c o X X') : OtherUnits c (fun _ => 0) (centre X) (centre X') := by
  intro j r
  have hN : N ≠ 0 := by rintro rfl; exact r.elim0
  unfold centre
  rw [col_units h j, mean_affine hN]
  ring

theorem hsicPair_scale (v w : Fin N → ℝ) {a a' : ℝ} (ha : a ≠ 0) (ha' : a' ≠ 0) :
    hsicPair L (fun r => a * v r) (fun r => a' * w r) = hsicPair L v w := by
  unfold hsicPair
  have := Hsic.C114_hsic_units L.gammaSf (Mlhsicr.col v) (Mlhsicr.col w) a a' (fun _ => 0) (fun _ => 0) ha ha'
  simp only [add_zero] at this
  rw [← this]
  rfl

theorem fcorr_scale (hN : N ≠ 0) (v w : Fin N → ℝ) {a a' : ℝ} (ha : a ≠ 0) (ha' : a' ≠ 0) :
    FCorr.fcorr L.R (fun r => a * v r) (fun r => a' * w r) = FCorr.fcorr L.R v w := by
  have := FCorr.C145_units L.R hN v w ha ha' 0 0
  simpa only [add_zero] using this

theorem fisherHsic_map {Y Y' : Nat → Fin N → ℝ} {R R' : Fin N → ℝ} (chi2 : Nat → ℝ → ℝ) (l : List Nat)
    (h : ∀ j, hsicPair L (Y' j) R' = hsicPair L (Y j) R) :
    fisherHsic L chi2 (l.map Y') R' = fisherHsic L chi2 (l.map Y) R := by
  rcases l with _ | ⟨a, _ | ⟨b, l⟩⟩
  · rfl
  · show ((((hsicPair L (Y' a) R').1 : ℝ) : WithTop ℝ), (hsicPair L (Y' a) R').2) = _
    rw [h a]
    rfl
  · have e : ∀ l : List Nat, (l.map Y').map (fun z => fisherTerm (hsicPair L z R').2) =
        (l.map Y).map (fun z => fisherTerm (hsicPair L z R).2) := by
      intro l
      rw [List.map_map, List.map_map]
      exact List.map_congr_left fun j _ => by simp only [Function.comp_apply, h j]
    have e := e (a :: b :: l)
    unfold fisherHsic
    simp only [List.map_cons] at e ⊢
    rw [e]
    simp only [List.length_cons, List.length_map]

theorem maxFcorr_map {Y Y' : Nat → Fin N → ℝ} {R R' : Fin N → ℝ} (l : List Nat)
    (h : ∀ j, FCorr.fcorr L.R (Y' j) R' = FCorr.fcorr L.R (Y j) R) :
    maxFcorr L (l.map Y') R' = maxFcorr L (l.map Y) R := by
  have e : ∀ (l : List Nat) (m : ℝ),
      (l.map Y').foldl (fun m z => if m < (FCorr.fcorr L.R z R').getD 0 then (FCorr.fcorr L.R z R').getD 0 else m) m =
      (l.map Y).foldl (fun m z => if m < (FCorr.fcorr L.R z R).getD 0 then (FCorr.fcorr L.R z R).getD 0 else m) m := by
    intro l
    induction l with
    | nil => intro m; rfl
    | cons a l ih =>
      intro m
      simp only [List.map_cons, List.foldl_cons, h a]
      exact ih _
  rcases l with _ | ⟨a, _ | ⟨b, l⟩⟩
  · rfl
  · show (FCorr.fcorr L.R (Y' a) R').getD 0 = _
    rw [h a]
    rfl
  · exact e (a :: b :: l) 0

/-- The search sees the same values. -/
theorem cfgOf_units (hN : N ≠ 0) (hL : OlsRight L) (hc : ∀ j, c j ≠ 0) (h : OtherUnits c o X X') (chi2 : Nat → ℝ → ℝ)
    (pk : Option Direct.PK) (fc : Bool) (alpha indCorr : ℝ) :
    cfgOf L chi2 pk fc alpha indCorr X' = cfgOf L chi2 pk fc alpha indCorr X := by
  have h0 := centre_units h
  have hz : ∀ j, centre X' j = fun r => c j * centre X j r := fun j => by
    have := col_units h0 j
    simpa only [add_zero] using this
  have e1 : ∀ (l : List Nat) (x : Nat), fisherHsic L chi2 (l.map (centre X')) (resid L (centre X') x l) =
      fisherHsic L chi2 (l.map (centre X)) (resid L (centre X) x l) := fun l x => fisherHsic_map chi2 l fun j => by
    rw [resid_units hL hc h0, hz j, hsicPair_scale _ _ (hc j) (hc x)]
  have e2 : ∀ (l : List Nat) (x : Nat), maxFcorr L (l.map (centre X')) (resid L (centre X') x l) =
      maxFcorr L (l.map (centre X)) (resid L (centre X) x l) := fun l x => maxFcorr_map l fun j => by
    rw [resid_units hL hc h0, hz j, fcorr_scale hN _ _ (hc j) (hc x)]
  unfold cfgOf
  simp only [e1, e2]

theorem identified_centre {n : Nat} (h : Identified n X) : Identified n (centre X) := by
  intro b b0 hb
  refine h b (b0 - ∑ j ∈ range n, b j * mean (X j)) fun r => ?_
  rw [← hb r]
  unfold centre
  simp only [mul_sub, sum_sub_distrib]
  ring

/-- C202: `fit` of BottomUpParceLiNGAM for data measured in other units and from other origins: the same exception, or the
same causal order with the same block of unresolved variables and the same entries NaN, and converted coefficients. -/
theorem C202_parce_units (hN : N ≠ 0) (hL : OlsRight L) {lin : Pairwise.Lin N} (hlin : RightRegression lin)
    (lars : Pairwise.Lars N) (chi2 : Nat → ℝ → ℝ) (pk : Option Direct.PK) (fc : Bool) (alpha indCorr : ℝ) {n : Nat} (hn : n ≠ 0)
    (fuel : Nat) (hX : Identified n X) (hc : ∀ j, 0 < c j) (h : OtherUnits c o X X') :
    (∀ e, fit L lin lars chi2 pk fc alpha indCorr n fuel X = some (.error e) →
      fit L lin lars chi2 pk fc alpha indCorr n fuel X' = some (.error e)) ∧
    ∀ order B, fit L lin lars chi2 pk fc alpha indCorr n fuel X = some (.ok (order, B)) →
      ∃ B', fit L lin lars chi2 pk fc alpha indCorr n fuel X' = some (.ok (order, B')) ∧
        ∀ i j, i < n → B' i j = (B i j).map (fun b => b * (c i / c j)) := by
  have hcf := cfgOf_units hN hL (fun j => (hc j).ne') h chi2 pk fc alpha indCorr
  constructor
  · intro e he
    unfold fit at he ⊢
    rw [hcf]
    unfold Parce.fit at he ⊢
    split at he
    · exact he
    · split at he
      · rename_i hn1
        rw [if_pos hn1]
        exact he
      · rename_i hn1
        rw [if_neg hn1]
        split at he
        · cases he
        · exact he
        · cases he
  · intro order B hf
    obtain ⟨ho, hb⟩ := Parce.fit_order hn hf
    have hok := Parce.fit_ok hf
    refine ⟨Parce.adjacency pk (fun ps t p => Pairwise.predict lin lars (centre X') ps t (ps.idxOf p)) order, ?_, ?_⟩
    · unfold fit at hf ⊢
      rw [hcf]
      unfold Parce.fit at hf ⊢
      split at hf
      · cases hf
      · split at hf
        · cases hf
        · rename_i hn1
          rw [if_neg hn1]
          split at hf
          · cases hf
          · cases hf
          · rename_i K hs
            simp only [Option.some.injEq, Except.ok.injEq, Prod.mk.injEq] at hf ⊢
            obtain ⟨rfl, rfl⟩ := hf
            exact ⟨rfl, rfl⟩
    · obtain ⟨po, _, _, _, _, rfl⟩ := hok
      intro i j hi
      have hmem := (ho.2 i).2 hi
      rcases List.mem_append.1 hmem with hib | hir
      · rw [Parce.adjacency_block _ _ hb ho.1 hib, Parce.adjacency_block _ _ hb ho.1 hib]
        split
        · rfl
        · rw [Option.map_some, zero_mul]
      · obtain ⟨u, v, huv⟩ := List.append_of_mem hir
        rw [Parce.adjacency_rest _ _ hb ho.1 huv, Parce.adjacency_rest _ _ hb ho.1 huv, Option.map_some]
        show some (if j ∈ Direct.predictors pk (order.block ++ u) i then _ else _) =
          some ((if j ∈ Direct.predictors pk (order.block ++ u) i then _ else _) * _)
        have hsub : (Direct.predictors pk (order.block ++ u) i).Sublist order.flat := by
          have h1 : (order.block ++ u).Sublist order.flat := by
            unfold Parce.Order.flat
            rw [huv]
            exact (List.Sublist.refl _).append (List.sublist_append_left u _)
          unfold Direct.predictors
          split
          · exact h1
          · exact List.filter_sublist.trans h1
        split
        · rename_i hj
          have hpos := List.idxOf_lt_length_of_mem hj
          have hz : centre X' = fun j r => c j * centre X j r + 0 := by
            funext j r
            exact centre_units h j r
          rw [hz, Pairwise.C197_units hlin lars (a := fun _ => 0) (Pairwise.independent_of_identified (identified_centre hX)
            (hsub.nodup ho.1) fun q hq => (ho.2 q).1 (hsub.subset hq)) (fun j _ => hc j), Pairwise.getD_of_lt hpos, List.getElem_idxOf]
          rfl
        · rw [zero_mul]

/-- The hypotheses are met: six rows of two columns, in metres or centimetres and counted from another origin, with both
kinds of tests. -/
example (R : FCorr.Routines) (sf : ℝ → ℝ → ℝ → ℝ) (pf : ℝ → ℝ) (chi2 : Nat → ℝ → ℝ) (fc : Bool) (alpha indCorr : ℝ) :
    ∃ (L : Lib 6) (lin : Pairwise.Lin 6) (lars : Pairwise.Lars 6) (order : Parce.Order) (B B' : Nat → Nat → Option ℝ),
      L.gammaSf = sf ∧ L.R = R ∧ fit L lin lars chi2 none fc alpha indCorr 2 2 squares = some (.ok (order, B)) ∧
      fit L lin lars chi2 none fc alpha indCorr 2 2 (fun j r => (if j = 0 then 100 else 1) * squares j r + 7) =
        some (.ok (order, B')) ∧ B' 1 0 = (B 1 0).map (fun b => b * (1 / 100)) := by
  obtain ⟨L, hL, _, h1, h2, _⟩ := exists_lib (N := 6) R sf pf
  obtain ⟨lin, lars, hlin, _⟩ := Pairwise.exists_oracles 6
  obtain ⟨order, B, hf⟩ := Parce.C32_no_error (cfgOf L chi2 none fc alpha indCorr squares) rfl
    (fun ps t p => Pairwise.predict lin lars (centre squares) ps t (ps.idxOf p)) 2 le_rfl
  have hid : Identified 2 squares := fun b b0 hb j hj =>
    squares_independent (-b0) b (fun r => by have := hb r; linarith) j hj
  obtain ⟨B', hB', hc⟩ := (C202_parce_units (by norm_num) hL hlin lars chi2 none fc alpha indCorr (n := 2) (by norm_num) 2 hid
    (c := fun j => if j = 0 then 100 else 1) (o := fun _ => 7) (fun j => by split <;> norm_num)
    (X' := fun j r => (if j = 0 then 100 else 1) * squares j r + 7) (fun j r => rfl)).2 order B hf
  refine ⟨L, lin, lars, order, B, B', h1, h2, hf, hB', ?_⟩
  rw [hc 1 0 (by norm_num)]
  norm_num

end Verif.ParceData
