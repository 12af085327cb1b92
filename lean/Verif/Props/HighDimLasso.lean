import Verif.Model.HighDimLasso
import Verif.Props.HighDim
import Verif.Props.RowOrder

/-!
# The adjacency matrix of HighDimDirectLiNGAM (C223), and the order of the rows (C224)
-/
set_option linter.unusedSectionVars false
set_option autoImplicit false
namespace Verif.HighDim
open Finset
open Pairwise (Lin Lars scaled weight weighted predict)

variable {N : Nat} {lin : Lin N} {lars : Lars N} {cv : Cv N}

/-- The second routine is the first one with a path of one vector. -/
theorem predictCv_eq (X : Nat → Fin N → ℝ) (ps : List Nat) (t k : Nat) :
    predictCv lin cv X ps t k = predict lin (fun cols y => [cv cols y]) X ps t k := by
  have : ∀ cols y, keptCv lin cv cols y = Pairwise.kept lin (fun cols y => [cv cols y]) cols y := by
    intro cols y
    unfold keptCv Pairwise.kept
    refine List.filter_congr fun k _ => ?_
    have : Pairwise.larsIC lin (fun cols y => [cv cols y]) (weighted lin cols y) y = cv (weighted lin cols y) y := by
      unfold Pairwise.larsIC
      simp only [Pairwise.firstMin]
      split <;> rfl
    rw [this]
  unfold predictCv predict
  simp only [this]

/-- A row of the matrix. -/
theorem row_eq {lasso : Direct.Lasso ℝ} {o before after : List Nat} {t : Nat} (hn : (before ++ t :: after).Nodup) (ho : o = before ++ t :: after)
    (j : Nat) : Direct.estimateAdj none lasso o t j = if j ∈ before then lasso before t j else 0 := Direct.estimateAdj_row hn ho j

/-! ### C223: the matrix -/

/-- The entries: the branch depends on the number of rows only. -/
theorem fitLasso_ok {c : Config} {K : Nat} {coef : Coef} {p : Nat} {Y : Nat → Fin N → ℚ} {o : List Nat} {B : Nat → Nat → ℝ}
    (h : fitLasso c K coef lin lars cv true p Y = some (.ok (o, some B))) : order c (dataTau K coef Y) p = some o ∧
      B = Direct.estimateAdj none (fun ps t q => predict lin (if N ≤ p then fun cols y => [cv cols y] else lars) (asReal Y) ps t (ps.idxOf q)) o := by
  unfold fitLasso at h
  cases ho : order c (dataTau K coef Y) p with
  | none => rw [ho] at h; simp at h
  | some o' =>
    rw [ho] at h
    simp only [if_true, Option.some.injEq] at h
    by_cases hN : N ≤ p
    · rw [if_pos hN] at h
      split at h
      · cases h
      · simp only [Except.ok.injEq, Prod.mk.injEq, Option.some.injEq] at h
        obtain ⟨rfl, rfl⟩ := h
        refine ⟨rfl, ?_⟩
        simp only [if_pos hN, predictCv_eq]
    · rw [if_neg hN] at h
      split at h
      · cases h
      · simp only [Except.ok.injEq, Prod.mk.injEq, Option.some.injEq] at h
        obtain ⟨rfl, rfl⟩ := h
        refine ⟨rfl, ?_⟩
        simp only [if_neg hN]

/-- **C223, exceptions.** With the matrix switched off `fit` returns an order.  Otherwise it returns an order and a matrix, except for two or
more columns with fewer than five rows and no more rows than columns, when the cross-validation raises an exception. -/
theorem C223_outcome (c : Config) (K : Nat) (coef : Coef) (lin : Lin N) (lars : Lars N) (cv : Cv N) (p : Nat) (Y : Nat → Fin N → ℚ) :
    (∃ o, fitLasso c K coef lin lars cv false p Y = some (.ok (o, none)) ∧ IsOrder p o) ∧
    (2 ≤ p ∧ N ≤ p ∧ N < 5 → fitLasso c K coef lin lars cv true p Y = some (.error .tooFewFolds)) ∧
    (¬ (2 ≤ p ∧ N ≤ p ∧ N < 5) → ∃ o B, fitLasso c K coef lin lars cv true p Y = some (.ok (o, some B)) ∧ IsOrder p o ∧
      ∀ i j, B i j ≠ 0 → Before o j i) := by
  obtain ⟨o, ho⟩ := order_some c (dataTau K coef Y) p
  have hio := order_isOrder ho
  have hlen : o.length = p := by simpa using (order_perm ho).length_eq
  unfold fitLasso
  rw [ho]
  simp only [if_true, Bool.false_eq_true, if_false, Option.some.injEq, hlen]
  refine ⟨⟨o, rfl, hio⟩, fun ⟨h2, hN, h5⟩ => ?_, fun hne => ?_⟩
  · rw [if_pos hN, if_pos]
    rw [List.any_eq_true]
    exact ⟨1, by rw [List.mem_range'_1]; omega, by simpa using h5⟩
  · by_cases hN : N ≤ p
    · rw [if_pos hN, if_neg]
      · exact ⟨o, _, rfl, hio, fun i j h => Direct.estimateAdj_before h⟩
      · rw [List.any_eq_true]
        rintro ⟨i, hi, h5⟩
        rw [List.mem_range'_1] at hi
        exact hne ⟨by omega, hN, by simpa using h5⟩
    · rw [if_neg hN, if_neg]
      · exact ⟨o, _, rfl, hio, fun i j h => Direct.estimateAdj_before h⟩
      · rw [List.any_eq_true]
        rintro ⟨i, hi, h5⟩
        rw [List.mem_range'_1] at hi
        simp only [List.length_take, hlen, decide_eq_true_eq] at h5
        omega

/-- **C223, least squares.** Each row of the matrix holds, in the units of the data, the coefficients of one least squares regression of the
variable on some of the variables before it in the order, and 0 elsewhere. -/
theorem C223_least_squares {c : Config} {K : Nat} {coef : Coef} (hlin : RightRegression lin) {p : Nat} {Y : Nat → Fin N → ℚ} {o : List Nat}
    {B : Nat → Nat → ℝ} (h : fitLasso c K coef lin lars cv true p Y = some (.ok (o, some B))) {before after : List Nat} {t : Nat}
    (ho : o = before ++ t :: after) : ∃ S : List Nat, S.Nodup ∧ (∀ j ∈ S, j ∈ before) ∧ (∀ j, j ∉ S → B t j = 0) ∧
      ∃ b0, SolvesRegression (S.map fun j r => (Y j r : ℝ)) (fun r => (Y t r : ℝ)) b0 (fun i => B t (S.getD i 0)) := by
  obtain ⟨ho', rfl⟩ := fitLasso_ok h
  have hn : (before ++ t :: after).Nodup := ho ▸ (order_isOrder ho').1
  have hbn : before.Nodup := (List.nodup_append.1 hn).1
  set path := (if N ≤ p then (fun cols y => [cv cols y] : Lars N) else lars) with hpath
  obtain ⟨S, h1, h2, h3, b0, h4⟩ := Pairwise.C197_least_squares hlin path (asReal Y) before t
  have hmem : ∀ k ∈ S, before.getD k 0 ∈ before := fun k hk => by
    rw [Pairwise.getD_of_lt (h2 k hk)]
    exact List.getElem_mem _
  have hidx : ∀ k ∈ S, before.idxOf (before.getD k 0) = k := fun k hk => by
    rw [Pairwise.getD_of_lt (h2 k hk)]
    exact hbn.idxOf_getElem _ _
  refine ⟨S.map fun k => before.getD k 0, ?_, ?_, ?_, b0, ?_⟩
  · refine (List.nodup_map_iff_inj_on h1).2 fun a ha b hb hab => ?_
    rw [← hidx a ha, ← hidx b hb, hab]
  · intro j hj
    obtain ⟨k, hk, rfl⟩ := List.mem_map.1 hj
    exact hmem k hk
  · intro j hj
    rw [row_eq hn ho]
    by_cases hjb : j ∈ before
    · rw [if_pos hjb]
      refine h3 _ fun hk => hj (List.mem_map.2 ⟨_, hk, ?_⟩)
      rw [Pairwise.getD_of_lt (List.idxOf_lt_length_of_mem hjb), List.getElem_idxOf]
    · rw [if_neg hjb]
  · have e1 : (S.map fun k => before.getD k 0).map (fun j r => (Y j r : ℝ)) = S.map (fun k => asReal Y (before.getD k 0)) := by
      rw [List.map_map]; rfl
    have e2 : ∀ i, i < S.length → Direct.estimateAdj none (fun ps t q => predict lin path (asReal Y) ps t (ps.idxOf q)) o t
        ((S.map fun k => before.getD k 0).getD i 0) = predict lin path (asReal Y) before t (S.getD i 0) := by
      intro i hi
      rw [Pairwise.list_getD_map _ S hi 0 0, row_eq hn ho]
      have hm : S.getD i 0 ∈ S := by rw [Pairwise.getD_of_lt hi]; exact List.getElem_mem _
      rw [if_pos (hmem _ hm), hidx _ hm]
    have e3 : unexplained (S.map fun k => asReal Y (before.getD k 0)) (fun r => (Y t r : ℝ)) b0 (fun i =>
        Direct.estimateAdj none (fun ps t q => predict lin path (asReal Y) ps t (ps.idxOf q)) o t ((S.map fun k => before.getD k 0).getD i 0)) =
        unexplained (S.map fun k => asReal Y (before.getD k 0)) (asReal Y t) b0 (fun i => predict lin path (asReal Y) before t (S.getD i 0)) := by
      funext r
      unfold unexplained
      have : (asReal Y t) r = (Y t r : ℝ) := rfl
      rw [this]
      congr 1
      refine sum_congr rfl fun i hi => ?_
      beta_reduce
      rw [e2 i (by simpa using hi)]
    rw [e1]
    unfold SolvesRegression
    rw [e3]
    exact h4

/-- **C223, no effect.** If a variable before `t` has coefficient 0 in the regression of `t` on all variables before it (and those are
independent), its entry is 0. -/
theorem C223_no_effect {c : Config} {K : Nat} {coef : Coef} (hlin : RightRegression lin) {p : Nat} {Y : Nat → Fin N → ℚ} {o : List Nat}
    {B : Nat → Nat → ℝ} (h : fitLasso c K coef lin lars cv true p Y = some (.ok (o, some B))) {before after : List Nat} {t : Nat}
    (ho : o = before ++ t :: after) (hi : IndependentCols (before.map fun j r => (Y j r : ℝ))) {b0 : ℝ} {w : Nat → ℝ}
    (hw : SolvesRegression (before.map fun j r => (Y j r : ℝ)) (fun r => (Y t r : ℝ)) b0 w) {k : Nat} (hk : k < before.length) (h0 : w k = 0) :
    B t (before.getD k 0) = 0 := by
  obtain ⟨ho', rfl⟩ := fitLasso_ok h
  have hn : (before ++ t :: after).Nodup := ho ▸ (order_isOrder ho').1
  rw [row_eq hn ho]
  have hm : before.getD k 0 ∈ before := by rw [Pairwise.getD_of_lt hk]; exact List.getElem_mem _
  rw [if_pos hm, Pairwise.getD_of_lt hk, (List.nodup_append.1 hn).1.idxOf_getElem]
  exact Pairwise.C197_no_effect (X := asReal Y) hlin _ hi hw hk h0

theorem kept_few (hcv : FewColumns cv) (cols : List (Fin N → ℝ)) (y : Fin N → ℝ) :
    (Pairwise.kept lin (fun cols y => [cv cols y]) cols y).length < N := by
  have h := hcv (weighted lin cols y) y
  refine lt_of_le_of_lt ?_ h
  have hnd := Pairwise.kept_nodup lin (fun cols y => [cv cols y]) cols y
  rw [← List.toFinset_card_of_nodup hnd]
  refine card_le_card fun k hk => ?_
  have hk := Pairwise.mem_kept.1 (List.mem_toFinset.1 hk)
  rw [mem_filter, mem_range, Pairwise.weighted_length]
  refine ⟨hk.1, ?_⟩
  have e : Pairwise.larsIC lin (fun cols y => [cv cols y]) (weighted lin cols y) y = cv (weighted lin cols y) y := by
    unfold Pairwise.larsIC
    simp only [Pairwise.firstMin]
    split <;> rfl
  have := hk.2.1
  rwa [e] at this

/-- **C223, units.** For columns in general position, other units and origins that leave the order as it is convert the entries of the
matrix, in both branches. -/
theorem C223_units {c : Config} {K : Nat} {coef coef' : Coef} (hlin : RightRegression lin) (hcv : FewColumns cv) {p : Nat} {Y : Nat → Fin N → ℚ}
    (hgp : GeneralPosition p fun j r => (Y j r : ℝ)) {u a : Nat → ℚ} (hu : ∀ j, j < p → 0 < u j) {o : List Nat} {B B' : Nat → Nat → ℝ}
    (h : fitLasso c K coef lin lars cv true p Y = some (.ok (o, some B)))
    (h' : fitLasso c K coef' lin lars cv true p (fun j r => u j * Y j r + a j) = some (.ok (o, some B'))) (i j : Nat) :
    B' i j = B i j * ((u i : ℝ) / u j) := by
  obtain ⟨ho, rfl⟩ := fitLasso_ok h
  obtain ⟨-, rfl⟩ := fitLasso_ok h'
  have hperm := order_perm ho
  have hlt : ∀ q ∈ o, q < p := fun q hq => List.mem_range.1 (hperm.mem_iff.1 hq)
  have hnd : o.Nodup := hperm.nodup_iff.2 List.nodup_range
  refine Pairwise.estimateAdj_scale (k := fun i j => (u i : ℝ) / u j) hnd ?_ i j
  intro ps t q hpn hsub ht htp hq
  have hpos := List.idxOf_lt_length_of_mem hq
  have e : asReal (fun j r => u j * Y j r + a j) = fun j r => (u j : ℝ) * asReal Y j r + (a j : ℝ) := by
    funext j r
    simp [asReal]
  have hsubn : ∀ idx : List Nat, idx.Nodup → (∀ k ∈ idx, k < ps.length) → (idx.map fun k => ps.getD k 0).Nodup ∧
      ∀ q ∈ idx.map fun k => ps.getD k 0, q < p := by
    intro idx hin hil
    refine ⟨(List.nodup_map_iff_inj_on hin).2 fun a ha b hb hab => ?_, fun q hq => ?_⟩
    · rw [Pairwise.getD_of_lt (hil a ha), Pairwise.getD_of_lt (hil b hb)] at hab
      exact (List.Nodup.getElem_inj_iff hpn).1 hab
    · obtain ⟨k, hk, rfl⟩ := List.mem_map.1 hq
      rw [Pairwise.getD_of_lt (hil k hk)]
      exact hlt _ (hsub _ (List.getElem_mem _))
  have key : ∀ path : Lars N, (∀ cols y, (Pairwise.kept lin path cols y).length < N ∨ ps.length < N) →
      predict lin path (asReal (fun j r => u j * Y j r + a j)) ps t (ps.idxOf q) =
        predict lin path (asReal Y) ps t (ps.idxOf q) * ((u t : ℝ) / u q) := by
    intro path hp
    rw [e, Pairwise.predict_units hlin path ?_ (c := fun j => (u j : ℝ)) (a := fun j => (a j : ℝ)) ?_, Pairwise.getD_of_lt hpos,
      List.getElem_idxOf]
    · set idx := Pairwise.kept lin path (ps.map fun p => scaled (asReal Y p)) (scaled (asReal Y t)) with hidx
      have hin : idx.Nodup := Pairwise.kept_nodup _ _ _ _
      have hil : ∀ k ∈ idx, k < ps.length := fun k hk => by simpa using Pairwise.kept_lt hk
      have hlen : idx.length < N := by
        rcases hp (ps.map fun p => scaled (asReal Y p)) (scaled (asReal Y t)) with h | h
        · exact h
        · refine lt_of_le_of_lt ?_ h
          have := (List.Nodup.subperm hin (l₂ := List.range ps.length) fun k hk => List.mem_range.2 (hil k hk)).length_le
          simpa using this
      obtain ⟨g1, g2⟩ := hsubn idx hin hil
      have := hgp _ g1 g2 (by simpa using hlen)
      rw [List.map_map] at this
      exact this
    · rintro j (hj | rfl)
      · exact_mod_cast hu j (hlt j (hsub j hj))
      · exact_mod_cast hu j (hlt j ht)
  by_cases hN : N ≤ p
  · simp only [if_pos hN]
    exact key _ fun cols y => Or.inl (kept_few hcv cols y)
  · simp only [if_neg hN]
    refine key _ fun cols y => Or.inr ?_
    have := (List.Nodup.subperm hpn (l₂ := List.range p) fun k hk => List.mem_range.2 (hlt k (hsub k hk))).length_le
    rw [List.length_range] at this
    omega

/-! ### Examples for C223 -/

/-- Five rows and five columns: the unit vectors. -/
def unitY : Nat → Fin 5 → ℚ := fun q r => if q = r.val then 1 else 0

theorem unitY_position : GeneralPosition 5 fun j r => (unitY j r : ℝ) := by
  intro S hnd hlt hlen b0 w h k hk
  simp only [List.length_map] at hk h
  have hout : ∃ r : Fin 5, r.val ∉ S := by
    by_contra hcon
    push Not at hcon
    have hsub : (List.range 5) ⊆ S := fun q hq => hcon ⟨q, List.mem_range.1 hq⟩
    have := (List.Nodup.subperm List.nodup_range hsub).length_le
    rw [List.length_range] at this
    omega
  have hcol : ∀ i, i < S.length → ∀ r : Fin 5, (S.map fun j r => (unitY j r : ℝ)).getD i 0 r = if S.getD i 0 = r.val then 1 else 0 := by
    intro i hi r
    rw [Pairwise.list_getD_map _ S hi 0 0]
    unfold unitY
    split <;> simp
  have h0 : b0 = 0 := by
    obtain ⟨r, hr⟩ := hout
    have := h r
    rw [sum_eq_zero, add_zero] at this
    · exact this
    · intro i hi
      have hi := mem_range.1 hi
      rw [hcol i hi, if_neg, mul_zero]
      rintro heq
      exact hr (heq ▸ (by rw [Pairwise.getD_of_lt hi]; exact List.getElem_mem _))
  have hq : S.getD k 0 < 5 := hlt _ (by rw [Pairwise.getD_of_lt hk]; exact List.getElem_mem _)
  have := h ⟨S.getD k 0, hq⟩
  rw [h0, zero_add, sum_eq_single_of_mem k (mem_range.2 hk)] at this
  · rwa [hcol k hk, if_pos rfl, mul_one] at this
  · intro i hi hne
    have hi := mem_range.1 hi
    rw [hcol i hi, if_neg, mul_zero]
    intro heq
    simp only [Pairwise.getD_of_lt hi, Pairwise.getD_of_lt hk] at heq
    exact hne ((List.Nodup.getElem_inj_iff hnd).1 heq)

theorem unitY_order {coef : Coef} (h : Solves coef unitY) : order cfg0 (dataTau 4 coef unitY) 5 = some [0, 1, 2, 3, 4] := by
  rw [dataTau_eq h]
  decide +kernel

theorem unitY_order' {coef : Coef} (h : Solves coef fun q r => ((q : ℚ) + 1) * unitY q r + 0) :
    order cfg0 (dataTau 4 coef fun q r => ((q : ℚ) + 1) * unitY q r + 0) 5 = some [0, 1, 2, 3, 4] := by
  rw [dataTau_eq h]
  decide +kernel

/-- Five rows are enough for five columns, and other units convert the entries. -/
example {coef coef' : Coef} (h : Solves coef unitY) (h' : Solves coef' fun q r => ((q : ℚ) + 1) * unitY q r + 0) {lin : Lin 5} {lars : Lars 5}
    {cv : Cv 5} (hlin : RightRegression lin) (hcv : FewColumns cv) :
    ∃ B B', fitLasso cfg0 4 coef lin lars cv true 5 unitY = some (.ok ([0, 1, 2, 3, 4], some B)) ∧
      fitLasso cfg0 4 coef' lin lars cv true 5 (fun q r => ((q : ℚ) + 1) * unitY q r + 0) = some (.ok ([0, 1, 2, 3, 4], some B')) ∧
      B' 4 1 = B 4 1 * (5 / 2) := by
  obtain ⟨-, -, h3⟩ := C223_outcome cfg0 4 coef lin lars cv 5 unitY
  obtain ⟨o, B, h4, -⟩ := h3 (by omega)
  obtain ⟨-, -, h5⟩ := C223_outcome cfg0 4 coef' lin lars cv 5 (fun q r => ((q : ℚ) + 1) * unitY q r + 0)
  obtain ⟨o', B', h6, -⟩ := h5 (by omega)
  have e := (fitLasso_ok h4).1
  rw [unitY_order h, Option.some.injEq] at e
  have e' := (fitLasso_ok h6).1
  rw [unitY_order' h', Option.some.injEq] at e'
  subst e e'
  refine ⟨B, B', h4, h6, ?_⟩
  rw [C223_units (u := fun q => (q : ℚ) + 1) (a := fun _ => 0) hlin hcv unitY_position (fun j _ => by positivity) h4 h6]
  norm_num

/-- Routines with the assumed properties exist. -/
example : ∃ (lin : Lin 5) (cv : Cv 5), RightRegression lin ∧ FewColumns cv ∧ ∃ cols y, cv cols y 0 ≠ 0 := by
  obtain ⟨lin, -, h, -⟩ := Pairwise.exists_oracles 5
  refine ⟨lin, fun _ _ k => if k = 0 then 1 else 0, h, fun cols y => ?_, [], fun _ => 0, by simp⟩
  refine lt_of_le_of_lt (card_le_card (t := {0}) fun k hk => ?_) (by simp)
  rw [mem_filter] at hk
  rw [mem_singleton]
  by_contra hne
  exact hk.2 (if_neg hne)

/-- Four rows and four columns: an exception. -/
example (coef : Coef) (lin : Lin 4) (lars : Lars 4) (cv : Cv 4) (Y : Nat → Fin 4 → ℚ) :
    fitLasso cfg0 4 coef lin lars cv true 4 Y = some (.error .tooFewFolds) :=
  (C223_outcome cfg0 4 coef lin lars cv 4 Y).2.1 (by omega)

/-! ### C224: the order of the rows -/

theorem moment_rows (K : Nat) (x y : Fin N → ℚ) (σ : Equiv.Perm (Fin N)) : moment K (fun r => x (σ r)) (fun r => y (σ r)) = moment K x y := by
  unfold moment mean
  rw [Equiv.sum_comp σ (fun r => x r ^ (K - 1) * y r), Equiv.sum_comp σ (fun r => x r ^ 2), Equiv.sum_comp σ (fun r => x r ^ K),
    Equiv.sum_comp σ (fun r => x r * y r)]

theorem dataTau_rows {K : Nat} {coef coef' : Coef} {Y : Nat → Fin N → ℚ} (σ : Equiv.Perm (Fin N)) (h : Solves coef Y)
    (h' : Solves coef' fun q r => Y q (σ r)) : dataTau K coef' (fun q r => Y q (σ r)) = dataTau K coef Y := by
  funext cond pa ch
  unfold dataTau
  have : resid coef' (fun q r => Y q (σ r)) cond pa = fun r => resid coef Y cond pa (σ r) := by
    refine residual_unique (h'.isResidual cond pa) ⟨⟨coef cond pa, fun r => rfl⟩, fun q hq => ?_⟩
    rw [Equiv.sum_comp σ (fun r => resid coef Y cond pa r * Y q r)]
    exact h cond pa q hq
  rw [this]
  exact moment_rows K _ _ σ

/-- **C224, the order.** The causal order does not depend on the order of the rows. -/
theorem C224_order (c : Config) (K p : Nat) {coef coef' : Coef} {Y : Nat → Fin N → ℚ} (σ : Equiv.Perm (Fin N)) (h : Solves coef Y)
    (h' : Solves coef' fun q r => Y q (σ r)) :
    order c (dataTau K coef' fun q r => Y q (σ r)) p = order c (dataTau K coef Y) p := by
  rw [dataTau_rows σ h h']

/-- **C224, the matrix** for more rows than columns: `fit` returns the same for the rows in another order.  Missing: no more rows than
columns, where the cross-validation divides the rows into five consecutive blocks. -/
theorem C224_matrix_partial (c : Config) (K : Nat) {coef coef' : Coef} (hlin : RightRegression lin)
    (hlars : ∀ cols, IndependentCols cols → ∀ d y, IgnoresRows lars (multiplied d cols) y) (cv : Cv N) (adj : Bool) {p : Nat} (hN : p < N)
    {Y : Nat → Fin N → ℚ} (hid : Identified p fun j r => (Y j r : ℝ)) (σ : Equiv.Perm (Fin N)) (h : Solves coef Y)
    (h' : Solves coef' fun q r => Y q (σ r)) :
    fitLasso c K coef' lin lars cv adj p (fun q r => Y q (σ r)) = fitLasso c K coef lin lars cv adj p Y := by
  have hid' : Identified p (asReal Y) := hid
  have e : asReal (fun q r => Y q (σ r)) = fun j r => asReal Y j (σ r) := rfl
  unfold fitLasso
  rw [C224_order c K p σ h h', e]
  generalize asReal Y = X at hid'
  cases ho : order c (dataTau K coef Y) p with
  | none => rfl
  | some o =>
    have hperm := order_perm ho
    have hlt : ∀ q ∈ o, q < p := fun q hq => List.mem_range.1 (hperm.mem_iff.1 hq)
    have hB : Direct.estimateAdj none (fun ps t q => predict lin lars (fun j r => X j (σ r)) ps t (ps.idxOf q)) o =
        Direct.estimateAdj none (fun ps t q => predict lin lars X ps t (ps.idxOf q)) o := by
      funext i j
      have := Pairwise.estimateAdj_scale (pk := none) (lasso := fun ps t q => predict lin lars X ps t (ps.idxOf q))
        (lasso' := fun ps t q => predict lin lars (fun j r => X j (σ r)) ps t (ps.idxOf q))
        (k := fun _ _ => (1 : ℝ)) (hperm.nodup_iff.2 List.nodup_range) (fun ps t q hnd hsub ht htp hq => by
          have hi := Pairwise.independent_of_identified hid' hnd fun q hq => hlt q (hsub q hq)
          rw [mul_one]
          exact Pairwise.predict_rows hlin σ X hi (fun d => hlars _ (Var.zscores_independent (by omega) hi) d _)
            (List.idxOf_lt_length_of_mem hq)) i j
      rw [this, mul_one]
    simp only [if_neg (not_le.2 hN), hB]

theorem fork_identified : Identified 3 fun j r => (forkY j r : ℝ) := by
  intro w b0 h j hj
  have h0 := h 0
  have h1 := h 1
  have h2 := h 2
  have h4 := h 4
  norm_num [forkY, sign, Finset.sum_range_succ] at h0 h1 h2 h4
  interval_cases j <;> linarith

/-- The hypotheses are met. -/
example (σ : Equiv.Perm (Fin 8)) (cv : Cv 8) : ∃ (coef coef' : Coef) (lin : Lin 8) (lars : Lars 8), Solves coef forkY ∧ RightRegression lin ∧ RightPath lars ∧
    fitLasso cfg0 4 coef' lin lars cv true 3 (fun q r => forkY q (σ r)) = fitLasso cfg0 4 coef lin lars cv true 3 forkY := by
  obtain ⟨coef, h⟩ := exists_solves forkY
  obtain ⟨coef', h'⟩ := exists_solves fun q r => forkY q (σ r)
  obtain ⟨lin, lars, h1, h2, h3⟩ := Pairwise.exists_rows 8
  exact ⟨coef, coef', lin, lars, h, h1, h2, C224_matrix_partial cfg0 4 h1 h3 cv true (by omega) fork_identified σ h h'⟩

end Verif.HighDim
