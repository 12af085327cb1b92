import Verif.Proofs.ParceEffects

/-! # Total effects of BottomUpParceLiNGAM (C151, C152) -/
set_option linter.unusedSectionVars false
set_option autoImplicit false
namespace Verif.Parce
open Finset

section pop
variable {n m : Nat} {B L X : Nat → Nat → ℚ} {σ : Nat → ℚ}

theorem rest_nodup {c : Cfg} {lasso : Direct.Lasso ℚ} {n fuel : Nat} (h0 : n ≠ 0) {o : Order} {B' : Nat → Nat → Option ℚ}
    (h : fit c lasso n fuel = some (.ok (o, B'))) : o.rest.Nodup := by
  have := (fit_order h0 h).1.1
  unfold Order.flat at this
  exact (List.nodup_append.1 this).2.1

theorem rest_not_block {c : Cfg} {lasso : Direct.Lasso ℚ} {n fuel : Nat} (h0 : n ≠ 0) {o : Order}
    {B' : Nat → Nat → Option ℚ} (h : fit c lasso n fuel = some (.ok (o, B'))) {i : Nat} (hi : i ∈ o.rest) :
    i ∉ o.block := by
  have := (fit_order h0 h).1.1
  unfold Order.flat at this
  exact fun hc => (List.nodup_append.1 this).2.2 i hc i hi rfl

/-- C151: with right tests a hidden cause of a resolved variable acts on no other variable. -/
theorem C151_no_shared_cause (hX : SourceModel n m B L X) (hac : Acyclic (Edge n B 0))
    (hf : ∀ i j, TrueAncestor n B j i → X i j ≠ 0) {c : Cfg} (hpk : c.pk = none) (ht : RightTests n m σ X c)
    {lasso : Direct.Lasso ℚ} (h0 : n ≠ 0) {fuel : Nat} {o : Order} {B' : Nat → Nat → Option ℚ}
    (h : fit c lasso n fuel = some (.ok (o, B'))) (i : Nat) (hi : i ∈ o.rest) (k : Nat) (hk1 : n ≤ k) (hk2 : k < m)
    (hL : L i k ≠ 0) : ∀ w, w < n → w ≠ i → L w k = 0 :=
  hidden_private hX hac (rest_nodup h0 h) (fit_right hX hac hf hpk ht h0 h).1 hi
    (((fit_order h0 h).1.2 i).1 (List.mem_append_right _ hi)) hk1 hk2 hL

/-- C151: for a resolved source, `estimate_total_effect` is the true total effect on every other variable, resolved or
not, whatever the hidden causes. -/
theorem C151_regression (hX : SourceModel n m B L X) (hac : Acyclic (Edge n B 0)) (hσ : ∀ k, k < m → 0 < σ k)
    (hf : ∀ i j, TrueAncestor n B j i → X i j ≠ 0) {c : Cfg} (hpk : c.pk = none) (ht : RightTests n m σ X c)
    {lasso lr : Direct.Lasso ℚ} (hl : RightCoef n m σ X lasso) (hr : RightCoef n m σ X lr) (h0 : n ≠ 0) {fuel : Nat}
    {o : Order} {B' : Nat → Nat → Option ℚ} (h : fit c lasso n fuel = some (.ok (o, B'))) (src dst : Nat)
    (hs : src ∈ o.rest) (hd : dst < n) : totalEffect lr n B' src dst = some (X dst src) := by
  have hsn : src < n := ((fit_order h0 h).1.2 src).1 (List.mem_append_right _ hs)
  have hrow := fun j hj => C149_rows hX hac hσ hf hpk ht hl h0 h src j hs hj
  unfold totalEffect
  rw [if_neg (by rw [rowNan_block h0 h hsn]; exact rest_not_block h0 h hs)]
  congr 1
  have hmem : ∀ u, u ∈ effectPredictors n B' src ↔ u = src ∨ (u < n ∧ B src u ≠ 0) := by
    intro u
    unfold effectPredictors
    rw [List.mem_cons, List.mem_filter, List.mem_range, decide_eq_true_eq]
    constructor
    · rintro (h | ⟨h1, h2⟩)
      · exact Or.inl h
      · rw [hrow u h1] at h2
        exact Or.inr ⟨h1, abs_pos.1 h2⟩
    · rintro (h | ⟨h1, h2⟩)
      · exact Or.inl h
      · exact Or.inr ⟨h1, by rw [hrow u h1]; exact abs_pos.2 h2⟩
  have hnd : (effectPredictors n B' src).Nodup := by
    unfold effectPredictors
    rw [List.nodup_cons]
    refine ⟨?_, List.nodup_range.filter _⟩
    rw [List.mem_filter, decide_eq_true_eq, hrow src hsn]
    rintro ⟨_, h2⟩
    exact (trueAncestor_of_edge hsn hsn (abs_pos.1 h2)).ne hac rfl
  obtain ⟨r, hreg⟩ := hr (effectPredictors n B' src) dst hnd
    (fun u hu => by rcases (hmem u).1 hu with rfl | h; exacts [hsn, h.1]) hd
  exact effect_coef hX hac hσ (rest_nodup h0 h) (fit_right hX hac hf hpk ht h0 h).1 hs hsn
    (List.mem_toFinset.2 ((hmem src).2 (Or.inl rfl))) (fun u => by rw [List.mem_toFinset]; exact hmem u) hd hreg

/-- C151: for a resolved source, `estimate_total_effect2` is the true total effect on every other variable. -/
theorem C151_paths (hX : SourceModel n m B L X) (hac : Acyclic (Edge n B 0)) (hσ : ∀ k, k < m → 0 < σ k)
    (hf : ∀ i j, TrueAncestor n B j i → X i j ≠ 0) {c : Cfg} (hpk : c.pk = none) (ht : RightTests n m σ X c)
    {lasso : Direct.Lasso ℚ} (hl : RightCoef n m σ X lasso) (h0 : n ≠ 0) {fuel : Nat}
    {o : Order} {B' : Nat → Nat → Option ℚ} (h : fit c lasso n fuel = some (.ok (o, B'))) (src dst : Nat)
    (hs : src ∈ o.rest) (hd : dst < n) (hne : src ≠ dst) :
    totalEffect2 n B' src dst = some (.ok (some (X dst src))) := by
  have ho := (fit_order h0 h).1
  have hsn : src < n := (ho.2 src).1 (List.mem_append_right _ hs)
  have hE : Acyclic (Edge n (Paths.clean B') 0) := acyclic_of_before ho.1 fun a b hab => (clean_before h0 h hab).2
  unfold totalEffect2
  rw [if_neg (by rw [rowNan_block h0 h hsn]; exact rest_not_block h0 h hs)]
  rw [Paths.C13_total_effect_is_inverse_entry n B' ⟨src, hsn⟩ ⟨dst, hd⟩ hE (fun e => hne (Fin.mk.inj e))]
  -- the column of the inverse is determined by its equations
  set C : Matrix (Fin n) (Fin n) ℚ := Matrix.of fun i j : Fin n => Paths.clean B' i j with hC
  have hu := Paths.C13_one_sub_isUnit n B' hE
  rw [← hC] at hu
  have hcol : (1 - C).mulVec (fun d : Fin n => X d src) = Pi.single (⟨src, hsn⟩ : Fin n) 1 := by
    ext d
    rw [Matrix.sub_mulVec, Matrix.one_mulVec]
    simp only [Pi.sub_apply, Matrix.mulVec, dotProduct, hC, Matrix.of_apply]
    rcases List.mem_append.1 ((ho.2 d).2 d.2) with hb | hr
    · have h1 : ∑ j : Fin n, Paths.clean B' d j * X j src = 0 := by
        refine sum_eq_zero fun j _ => ?_
        by_cases hz : Paths.clean B' d j = 0
        · rw [hz, zero_mul]
        · exact absurd hb (rest_not_block h0 h (clean_before h0 h ⟨j.2, d.2, abs_pos.2 hz⟩).1)
      have hds : (d : Nat) ≠ src := by
        intro e; rw [e] at hb; exact rest_not_block h0 h hs hb
      have h2 : X d src = 0 := by
        by_contra hX0
        rcases source_ancestor hX hac d.2 hsn hX0 with e | hanc
        · exact hds e.symm
        · rcases C149_order hX hac hf hpk ht h0 h src d hanc with hbf | hbb
          · obtain ⟨hO, _, _⟩ := fit_right hX hac hf hpk ht h0 h
            exact rest_not_block h0 h (hO src hs d hds ⟨d.2, Or.inl hanc⟩).mem_right hb
          · exact rest_not_block h0 h hs hbb.1
      rw [h1, h2, Pi.single_apply, if_neg (fun e => hds (congrArg Fin.val e)), sub_zero]
    · have h1 : ∑ j : Fin n, Paths.clean B' d j * X j src = ∑ j ∈ range n, B d j * X j src := by
        rw [Finset.sum_range]
        refine sum_congr rfl fun j _ => ?_
        unfold Paths.clean Paths.nan0
        rw [C149_rows hX hac hσ hf hpk ht hl h0 h d j hr j.2]
        rfl
      have h2 := hX.2 d d.2 src (hsn.trans_le hX.1)
      rw [if_pos hsn] at h2
      rw [h1, h2, Pi.single_apply]
      by_cases hds : (d : Nat) = src
      · rw [if_pos hds.symm, if_pos (Fin.ext hds)]; ring
      · rw [if_neg (fun e => hds e.symm), if_neg (fun e => hds (congrArg Fin.val e))]; ring
  have hinv : (fun d : Fin n => X d src) = (1 - C)⁻¹.mulVec (Pi.single (⟨src, hsn⟩ : Fin n) 1) := by
    rw [← hcol, Matrix.mulVec_mulVec, Matrix.nonsing_inv_mul _ ((Matrix.isUnit_iff_isUnit_det _).1 hu), Matrix.one_mulVec]
  have := congrFun hinv ⟨dst, hd⟩
  rw [Matrix.mulVec_single_one] at this
  simp only [Matrix.col_apply] at this
  rw [this]

end pop

/-- C151: for an unresolved source both functions return NaN, whatever the tests were. -/
theorem C151_unresolved_nan {c : Cfg} {lasso lr : Direct.Lasso ℚ} {n fuel : Nat} (h0 : n ≠ 0) {o : Order}
    {B' : Nat → Nat → Option ℚ} (h : fit c lasso n fuel = some (.ok (o, B'))) (src dst : Nat) (hs : src ∈ o.block) :
    totalEffect lr n B' src dst = none ∧ totalEffect2 n B' src dst = some (.ok none) := by
  have hsn : src < n := ((fit_order h0 h).1.2 src).1 (List.mem_append_left _ hs)
  have := (rowNan_block h0 h hsn).2 hs
  unfold totalEffect totalEffect2
  rw [if_pos this, if_pos this]
  exact ⟨rfl, rfl⟩

/-- `estimate_total_effect2` of two different variables returns after every fit. -/
theorem totalEffect2_ok {c : Cfg} {lasso : Direct.Lasso ℚ} {n fuel : Nat} (h0 : n ≠ 0) {o : Order}
    {B' : Nat → Nat → Option ℚ} (h : fit c lasso n fuel = some (.ok (o, B'))) {src dst : Nat} (hs : src < n) (hd : dst < n)
    (hne : src ≠ dst) : ∃ v, totalEffect2 n B' src dst = some (.ok v) := by
  have ho := (fit_order h0 h).1
  have hE : Acyclic (Edge n (Paths.clean B') 0) := acyclic_of_before ho.1 fun a b hab => (clean_before h0 h hab).2
  unfold totalEffect2
  split
  · exact ⟨none, rfl⟩
  · exact ⟨_, Paths.C13_total_effect_is_inverse_entry n B' ⟨src, hs⟩ ⟨dst, hd⟩ hE (fun e => hne (Fin.mk.inj e))⟩

/-- C152 (partial): for every outcome of the tests, the bootstrap stores for two variables that are not both unresolved
what `estimate_total_effect2` returns. Missing: two unresolved variables (next theorem). -/
theorem C152_stored_partial {c : Cfg} {lasso : Direct.Lasso ℚ} {n fuel : Nat} (h0 : n ≠ 0) {o : Order}
    {B' : Nat → Nat → Option ℚ} (h : fit c lasso n fuel = some (.ok (o, B'))) :
    ∃ T, bootstrapTotals n o B' = some (.ok T) ∧ ∀ src dst, src < n → dst < n → src ≠ dst →
      ¬ (src ∈ o.block ∧ dst ∈ o.block) → totalEffect2 n B' src dst = some (.ok (T dst src)) := by
  have ho := (fit_order h0 h).1
  have hnd := rest_nodup h0 h
  obtain ⟨T, hT⟩ := fillTotals_ok (n := n) (B := B') (ps := effectPairs o.items) (fun _ _ => some 0) (by
    rintro ⟨t, f⟩ hp
    rw [mem_effectPairs] at hp
    rcases hp with ⟨h1, h2⟩ | hb
    · refine totalEffect2_ok h0 h ((ho.2 f).1 (List.mem_append_left _ h1)) ((ho.2 t).1 (List.mem_append_right _ h2)) ?_
      intro e
      have e : f = t := e
      subst e
      exact rest_not_block h0 h h2 h1
    · refine totalEffect2_ok h0 h ((ho.2 f).1 (List.mem_append_right _ hb.mem_left))
        ((ho.2 t).1 (List.mem_append_right _ hb.mem_right)) ?_
      intro e
      have e : f = t := e
      subst e
      exact Before.irrefl hnd f hb)
  refine ⟨T, hT, fun src dst hs hd hne hnb => ?_⟩
  obtain ⟨h1, h2⟩ := fillTotals_spec hT dst src
  by_cases hp : (dst, src) ∈ effectPairs o.items
  · exact h1 hp
  · rw [h2 hp]
    rw [mem_effectPairs, not_or] at hp
    -- the destination comes before the source
    have hsr : src ∈ o.rest := by
      rcases List.mem_append.1 ((ho.2 src).2 hs) with hb | hr
      · exfalso
        rcases List.mem_append.1 ((ho.2 dst).2 hd) with hb' | hr'
        · exact hnb ⟨hb, hb'⟩
        · exact hp.1 ⟨hb, hr'⟩
      · exact hr
    have hbef : Before o.flat dst src := by
      rcases List.mem_append.1 ((ho.2 dst).2 hd) with hb' | hr'
      · exact Before.of_mem_append hb' hsr
      · rcases Before.total hsr hr' hne with hb | hb
        · exact absurd hb hp.2
        · exact hb.of_append_right
    unfold totalEffect2
    rw [if_neg (by rw [rowNan_block h0 h hs]; exact rest_not_block h0 h hsr)]
    exact Paths.C14_no_effect_backwards n B' o.flat ho.1 (fun a b hab => (clean_before h0 h hab).2) src dst hs hd hbef

/-- C152 (violated): for every two unresolved variables, `estimate_total_effect2` says NaN and the bootstrap stores 0. -/
theorem C152_unresolved_violated {c : Cfg} {lasso : Direct.Lasso ℚ} {n fuel : Nat} (h0 : n ≠ 0) {o : Order}
    {B' T : Nat → Nat → Option ℚ} (h : fit c lasso n fuel = some (.ok (o, B')))
    (hT : bootstrapTotals n o B' = some (.ok T)) (src dst : Nat) (hs : src ∈ o.block) (hd : dst ∈ o.block) :
    totalEffect2 n B' src dst = some (.ok none) ∧ T dst src = some 0 := by
  refine ⟨(C151_unresolved_nan (lr := lasso) h0 h src dst hs).2, ?_⟩
  rw [(fillTotals_spec hT dst src).2]
  rw [mem_effectPairs, not_or]
  exact ⟨fun hc => rest_not_block h0 h hc.2 hd, fun hb => rest_not_block h0 h hb.mem_left hs⟩

/-! ### Concrete cases meeting the hypotheses -/

/-- C152: `exampleCfg` leaves 0 and 1 unresolved; the bootstrap stores NaN for their effects on 2 and 0 between them. -/
example : (fit (exampleCfg none) (fun _ t c => ((t + c : Nat) : ℚ)) 3 3).bind (fun r => r.toOption.bind (fun r =>
    (bootstrapTotals 3 r.1 r.2).map (fun T => T.toOption.map (fun T => (r.1.block, [T 2 0, T 2 1, T 1 0, T 0 1, T 0 2]))))) =
    some (some ([0, 1], [none, none, some 0, some 0, some 0])) := by decide +kernel

/-- C151: in the fork of C150 everything is resolved, and the reported effect of 0 on 2 is the true one. -/
example : (fit (popCfg 3 (fun _ => 1) forkX none true) (fun _ _ p => if p = 0 then (1 : ℚ) else 0) 3 3).bind (fun r =>
    r.toOption.map (fun r => (r.1.rest, (totalEffect2 3 r.2 0 2).map (fun v => v.toOption)))) =
    some ([0, 2, 1], some (some (some (forkX 2 0)))) := by decide +kernel

/-- C151 with a hidden cause (source 4) of 0 and 1 and the chain `1 → 2 → 3` with coefficients 1 and 2: the model, and the
reported effects of the resolved variable 2 (true) and of the unresolved variable 1 (NaN). -/
example : SourceModel 4 5 (Rcd.rows [[], [], [0, 1], [0, 0, 2]]) (fun i k => if i < 2 ∧ k = 4 then 1 else 0)
      (Rcd.rows [[1, 0, 0, 0, 1], [0, 1, 0, 0, 1], [0, 1, 1, 0, 1], [0, 2, 2, 1, 2]]) ∧
    (fit (popCfg 5 (fun _ => 1) (Rcd.rows [[1, 0, 0, 0, 1], [0, 1, 0, 0, 1], [0, 1, 1, 0, 1], [0, 2, 2, 1, 2]]) none false)
      (fun _ t p => if t = 2 ∧ p = 1 then (1 : ℚ) else if t = 3 ∧ p = 2 then 2 else 0) 4 4).bind (fun r =>
    r.toOption.map (fun r => ([r.1.block, r.1.rest], [(2, 3), (1, 3)].map (fun p => (totalEffect2 4 r.2 p.1 p.2).map (fun v => v.toOption))))) =
    some ([[0, 1], [2, 3]], [some (some (some 2)), some (some none)]) := by
  refine ⟨⟨by omega, ?_⟩, by decide +kernel⟩
  decide +kernel

end Verif.Parce
