import Verif.Proofs.ParcePopulation
import Verif.Props.Parce
import Verif.Props.RcdPopulation

/-!
# BottomUpParceLiNGAM with right tests (C149, C150)

The data follow a linear model with independent non-Gaussian sources, hidden common causes allowed, and every test gives
the right answer (`RightTests`).  `popCfg_right` shows that such tests exist for every model.
-/
set_option linter.unusedSectionVars false
set_option autoImplicit false
namespace Verif.Parce
open Finset
open Direct (PK Part)

variable {n m : Nat} {B L X : Nat → Nat → ℚ} {σ : Nat → ℚ}

/-- What the search gives for the fitted order. -/
theorem fit_right (hX : SourceModel n m B L X) (hac : Acyclic (Edge n B 0))
    (hf : ∀ i j, TrueAncestor n B j i → X i j ≠ 0) {c : Cfg} (hpk : c.pk = none) (ht : RightTests n m σ X c)
    {lasso : Direct.Lasso ℚ} (h0 : n ≠ 0) {fuel : Nat} {o : Order} {B' : Nat → Nat → Option ℚ}
    (h : fit c lasso n fuel = some (.ok (o, B'))) :
    Ordered n m B L X o.rest ∧ Entangled n m B L X o.block ∧
      ∀ V, Entangled n m B L X V → ∀ v ∈ V, v ∈ o.block := by
  obtain ⟨ho, _⟩ := fit_order h0 h
  obtain ⟨po, _, hn1, hs, _, _⟩ := fit_ok h
  obtain ⟨U', hp, hO, hE, hV⟩ := search_right hX hac hf hpk ht fuel [] (List.range n) po o.rest (Part.init n)
    (by simp; omega) (fun x hx => absurd hx (by simp)) hs
  have hmem : ∀ v, v ∈ U' ↔ v ∈ o.block := by
    intro v
    have h1 := hp.2.2.2 v
    have h2 := ho.2 v
    unfold Order.flat at h2
    rw [List.mem_append] at h2
    have hnd := ho.1
    unfold Order.flat at hnd
    have h3 : v ∈ o.block → v ∉ o.rest := fun a b => (List.nodup_append.1 hnd).2.2 v a v b rfl
    have h4 := hp.2.2.1 v
    tauto
  refine ⟨hO, ?_, ?_⟩
  · intro j hj
    obtain ⟨h1, u, hu, h2⟩ := hE j ((hmem j).2 hj)
    exact ⟨h1, u, (hmem u).1 hu, h2⟩
  · intro V hVe v hv
    exact (hmem v).1 (hV V hVe (fun w hw => List.mem_range.2 (hVe w hw).1) v hv)

/-- C149: whatever the hidden causes, the order is right: every cause comes before its effects, except among the variables
left unresolved. -/
theorem C149_order (hX : SourceModel n m B L X) (hac : Acyclic (Edge n B 0))
    (hf : ∀ i j, TrueAncestor n B j i → X i j ≠ 0) {c : Cfg} (hpk : c.pk = none) (ht : RightTests n m σ X c)
    {lasso : Direct.Lasso ℚ} (h0 : n ≠ 0) {fuel : Nat} {o : Order} {B' : Nat → Nat → Option ℚ}
    (h : fit c lasso n fuel = some (.ok (o, B'))) (a b : Nat) (hab : TrueAncestor n B a b) :
    Before o.flat a b ∨ (a ∈ o.block ∧ b ∈ o.block) := by
  obtain ⟨hO, _, _⟩ := fit_right hX hac hf hpk ht h0 h
  obtain ⟨ho, _⟩ := fit_order h0 h
  rcases List.mem_append.1 ((ho.2 a).2 hab.lt_left) with ha | ha
  · rcases List.mem_append.1 ((ho.2 b).2 hab.lt_right) with hb | hb
    · exact Or.inr ⟨ha, hb⟩
    · exact Or.inl (Before.of_mem_append ha hb)
  · exact Or.inl ((hO a ha b (hab.ne hac).symm ⟨hab.lt_right, Or.inl hab⟩).of_append_right)

/-- C149: the row of every resolved variable is its true row, whatever the hidden causes. -/
theorem C149_rows (hX : SourceModel n m B L X) (hac : Acyclic (Edge n B 0)) (hσ : ∀ k, k < m → 0 < σ k)
    (hf : ∀ i j, TrueAncestor n B j i → X i j ≠ 0) {c : Cfg} (hpk : c.pk = none) (ht : RightTests n m σ X c)
    {lasso : Direct.Lasso ℚ} (hl : RightCoef n m σ X lasso) (h0 : n ≠ 0) {fuel : Nat} {o : Order}
    {B' : Nat → Nat → Option ℚ} (h : fit c lasso n fuel = some (.ok (o, B'))) (i j : Nat) (hi : i ∈ o.rest) (hj : j < n) :
    B' i j = some (B i j) := by
  obtain ⟨hO, _, _⟩ := fit_right hX hac hf hpk ht h0 h
  obtain ⟨ho, _⟩ := fit_order h0 h
  have hif : i ∈ o.flat := List.mem_append_right _ hi
  obtain ⟨pre, post, hsplit⟩ := List.append_of_mem hif
  have hin : i < n := (ho.2 i).1 hif
  have hnd := ho.1
  rw [hsplit] at hnd
  have hndp : pre.Nodup := (List.nodup_append.1 hnd).1
  have hipre : i ∉ pre := fun hc => (List.nodup_append.1 hnd).2.2 i hc i (by simp) rfl
  have hnb : i ∉ o.block := by
    intro hc
    have := ho.1
    unfold Order.flat at this
    exact (List.nodup_append.1 this).2.2 i hc i hi rfl
  have hbef : ∀ u, Before o.flat u i → u ∈ pre := by
    rintro u ⟨x, y, z, hxyz⟩
    have e : pre ++ i :: post = (x ++ u :: y) ++ i :: z := by rw [← hsplit, hxyz]; simp
    have hk1 : (pre ++ i :: post)[pre.length]? = some i := by simp
    have hk2 : (pre ++ i :: post)[(x ++ u :: y).length]? = some i := by rw [e]; simp
    have hlen := (List.getElem?_inj (List.getElem?_eq_some_iff.1 hk1).1 hnd).1 (hk1.trans hk2.symm)
    rw [(List.append_inj e hlen).1]; simp
  have haft : ∀ u, Before o.flat i u → u ∉ pre := by
    rintro u ⟨x, y, z, hxyz⟩ hu
    have e : pre ++ i :: post = x ++ i :: (y ++ u :: z) := by rw [← hsplit, hxyz]
    have hk1 : (pre ++ i :: post)[pre.length]? = some i := by simp
    have hk2 : (pre ++ i :: post)[x.length]? = some i := by rw [e]; simp
    have hlen := (List.getElem?_inj (List.getElem?_eq_some_iff.1 hk1).1 hnd).1 (hk1.trans hk2.symm)
    have e2 := (List.append_inj e hlen).2
    refine (List.nodup_append.1 hnd).2.2 u hu u ?_ rfl
    rw [e2]; simp
  have hpren : ∀ u ∈ pre, u < n := fun u hu => (ho.2 u).1 (by rw [hsplit]; simp [hu])
  have hanc : ∀ u, TrueAncestor n B u i → u ∈ pre := by
    intro u hu
    rcases C149_order hX hac hf hpk ht h0 h u i hu with hb | hb
    · exact hbef u hb
    · exact absurd hb.2 hnb
  obtain ⟨hreg, _⟩ := own_regression (σ := σ) (P := pre.toFinset) hX hac hin (fun u hu => hpren u (List.mem_toFinset.1 hu))
    (fun u hu => List.mem_toFinset.2 (hanc u hu)) (fun hc => hipre (List.mem_toFinset.1 hc))
    (fun u hu htu => by
      rw [List.mem_toFinset] at hu
      refine haft u ?_ hu
      refine (hO i hi u ?_ htu).of_append_right
      rintro rfl
      exact hipre hu)
  obtain ⟨r, hr⟩ := hl pre i hndp hpren hin
  have hpred : Direct.predictors c.pk pre i = pre := by unfold Direct.predictors; rw [hpk]
  rw [C32_rows h0 h pre post i hsplit hi j, hpred]
  congr 1
  split
  · rename_i hjp
    exact regression_unique hX hac hσ (fun u hu => hpren u (List.mem_toFinset.1 hu)) hr hreg j (List.mem_toFinset.2 hjp)
  · rename_i hjp
    by_contra hne
    exact hjp (hanc j (trueAncestor_of_edge hj hin (fun h => hne h.symm)))

/-- C149: the variables left unresolved are exactly the largest set in which every variable is a cause of another one or
has a hidden cause that affects another one. -/
theorem C149_unresolved (hX : SourceModel n m B L X) (hac : Acyclic (Edge n B 0))
    (hf : ∀ i j, TrueAncestor n B j i → X i j ≠ 0) {c : Cfg} (hpk : c.pk = none) (ht : RightTests n m σ X c)
    {lasso : Direct.Lasso ℚ} (h0 : n ≠ 0) {fuel : Nat} {o : Order} {B' : Nat → Nat → Option ℚ}
    (h : fit c lasso n fuel = some (.ok (o, B'))) :
    Entangled n m B L X o.block ∧ ∀ V, Entangled n m B L X V → ∀ v ∈ V, v ∈ o.block :=
  (fit_right hX hac hf hpk ht h0 h).2

/-- C149: so two runs with right tests leave the same variables unresolved: it does not matter which measure of
independence is used, how strict it is and which of several independent candidates is taken first. -/
theorem C149_same_unresolved (hX : SourceModel n m B L X) (hac : Acyclic (Edge n B 0))
    (hf : ∀ i j, TrueAncestor n B j i → X i j ≠ 0) {c c' : Cfg} (hpk : c.pk = none) (hpk' : c'.pk = none)
    (ht : RightTests n m σ X c) (ht' : RightTests n m σ X c') {lasso lasso' : Direct.Lasso ℚ} (h0 : n ≠ 0)
    {fuel fuel' : Nat} {o o' : Order} {B₁ B₂ : Nat → Nat → Option ℚ} (h : fit c lasso n fuel = some (.ok (o, B₁)))
    (h' : fit c' lasso' n fuel' = some (.ok (o', B₂))) : o.block.Perm o'.block := by
  obtain ⟨e1, e2⟩ := C149_unresolved hX hac hf hpk ht h0 h
  obtain ⟨e1', e2'⟩ := C149_unresolved hX hac hf hpk' ht' h0 h'
  have hnd : ∀ {o : Order}, o.flat.Nodup → o.block.Nodup := by
    intro o hh; unfold Order.flat at hh; exact (List.nodup_append.1 hh).1
  exact (List.perm_ext_iff_of_nodup (hnd (fit_order h0 h).1.1) (hnd (fit_order h0 h').1.1)).2
    fun v => ⟨fun hv => e2' _ e1 v hv, fun hv => e2 _ e1' v hv⟩

/-- C149: a set that contains all causes of its members and all variables sharing a hidden cause with another one contains
everything left unresolved. -/
theorem C149_outside_resolved (hX : SourceModel n m B L X) (hac : Acyclic (Edge n B 0))
    (hf : ∀ i j, TrueAncestor n B j i → X i j ≠ 0) {c : Cfg} (hpk : c.pk = none) (ht : RightTests n m σ X c)
    {lasso : Direct.Lasso ℚ} (h0 : n ≠ 0) {fuel : Nat} {o : Order} {B' : Nat → Nat → Option ℚ}
    (h : fit c lasso n fuel = some (.ok (o, B'))) (C : Nat → Prop) (hC : ∀ a b, TrueAncestor n B a b → C b → C a)
    (hL : ∀ i i' k, i < n → i' < n → i ≠ i' → n ≤ k → k < m → L i k ≠ 0 → L i' k ≠ 0 → C i) :
    ∀ i ∈ o.block, C i := by
  classical
  intro i hi
  by_contra hCi
  obtain ⟨hE, _⟩ := C149_unresolved hX hac hf hpk ht h0 h
  obtain ⟨w, hw, hmin⟩ := exists_minimal (acyclic_flip (acyclic_ancestor hac)) (o.block.filter (fun i => decide (¬ C i)))
    (List.ne_nil_of_mem (List.mem_filter.2 ⟨hi, by simpa using hCi⟩))
  simp only [List.mem_filter, decide_eq_true_eq] at hw hmin
  obtain ⟨hwn, u, hu, huw, hun, htu⟩ := hE w hw.1
  have hnanc : ¬ TrueAncestor n B w u := fun hwu => hmin u ⟨hu, fun hCu => hw.2 (hC w u hwu hCu)⟩ hwu
  rcases htu with htu | ⟨k, hk1, hk2, hLw, hXu⟩
  · exact hnanc htu
  · -- the hidden source reaches `u` from some variable on which it acts, which is `w`
    have key : ∀ v, v < n → X v k ≠ 0 → v = w ∨ TrueAncestor n B w v := by
      intro v hv hXv
      by_contra hcon
      obtain ⟨p, hp, hpm⟩ := exists_minimal hac
        ((List.range n).filter (fun v => decide (X v k ≠ 0 ∧ ¬ (v = w ∨ TrueAncestor n B w v))))
        (List.ne_nil_of_mem (List.mem_filter.2 ⟨List.mem_range.2 hv, by rw [decide_eq_true_eq]; exact ⟨hXv, hcon⟩⟩))
      simp only [List.mem_filter, List.mem_range, decide_eq_true_eq] at hp hpm
      obtain ⟨hpn, hXp, hpw⟩ := hp
      rw [hX.2 p hpn k hk2, if_neg (by omega)] at hXp
      have hLp : L p k = 0 := by
        by_contra hLp
        exact hw.2 (hL w p k hwn hpn (fun e => hpw (Or.inl e.symm)) hk1 hk2 hLw hLp)
      rw [hLp, add_zero] at hXp
      obtain ⟨q, hq, hq0⟩ := exists_ne_zero_of_sum_ne_zero hXp
      have hqn := mem_range.1 hq
      have hBq : B p q ≠ 0 := fun h => hq0 (by rw [h, zero_mul])
      have hXq : X q k ≠ 0 := fun h => hq0 (by rw [h, mul_zero])
      have hE : Edge n B 0 q p := ⟨hqn, hpn, abs_pos.2 hBq⟩
      by_cases hcq : q = w ∨ TrueAncestor n B w q
      · rcases hcq with rfl | hcq
        · exact hpw (Or.inr (.single hE))
        · exact hpw (Or.inr (.tail hcq hE))
      · exact hpm q ⟨hqn, hXq, hcq⟩ hE
    rcases key u hun hXu with h | h
    · exact huw h
    · exact hnanc h

/-- C149: without hidden common causes nothing is left unresolved and the whole matrix is the true one. -/
theorem C149_no_hidden (hX : SourceModel n n B L X) (hac : Acyclic (Edge n B 0)) (hσ : ∀ k, k < n → 0 < σ k)
    (hf : ∀ i j, TrueAncestor n B j i → X i j ≠ 0) {c : Cfg} (hpk : c.pk = none) (ht : RightTests n n σ X c)
    {lasso : Direct.Lasso ℚ} (hl : RightCoef n n σ X lasso) (hn : 2 ≤ n) :
    ∃ o B', fit c lasso n n = some (.ok (o, B')) ∧ o.block = [] ∧ ∀ i j, i < n → j < n → B' i j = some (B i j) := by
  obtain ⟨o, B', h⟩ := C32_no_error c hpk lasso n hn
  have hb : o.block = [] := by
    rw [List.eq_nil_iff_forall_not_mem]
    intro i hi
    exact C149_outside_resolved hX hac hf hpk ht (by omega) h (fun _ => False) (fun _ _ _ h => h)
      (fun _ _ k _ _ _ h1 h2 => by omega) i hi
  refine ⟨o, B', h, hb, fun i j hi hj => ?_⟩
  refine C149_rows hX hac hσ hf hpk ht hl (by omega) h i j ?_ hj
  have := ((fit_order (by omega) h).1.2 i).2 hi
  unfold Order.flat at this
  rw [hb] at this
  simpa using this

/-! ### Prior knowledge (C150) -/

/-- C150 (partial): prior knowledge that states only paths, all of them true, keeps the order right. Missing: statements
that there is no path, where the order can become wrong, and the promise that nothing more is left unresolved (below). -/
theorem C150_paths_partial (hX : SourceModel n m B L X) (hac : Acyclic (Edge n B 0))
    (hf : ∀ i j, TrueAncestor n B j i → X i j ≠ 0) {c : Cfg} {pk : PK} (hpk : c.pk = some pk) (htrue : TruePrior n B pk)
    (hpaths : ∀ i j, pk i j ≠ 0) (ht : RightTests n m σ X c) {lasso : Direct.Lasso ℚ} (h0 : n ≠ 0) {fuel : Nat} {o : Order}
    {B' : Nat → Nat → Option ℚ} (h : fit c lasso n fuel = some (.ok (o, B'))) (a b : Nat) (hab : TrueAncestor n B a b) :
    Before o.flat a b ∨ (a ∈ o.block ∧ b ∈ o.block) := by
  obtain ⟨ho, _⟩ := fit_order h0 h
  obtain ⟨po, hpo, hn1, hs, _, _⟩ := fit_ok h
  unfold priorOrders at hpo
  rw [hpk] at hpo
  simp only at hpo
  have hR : ∀ a b, MustPrecede n pk a b → TrueAncestor n B a b := by
    rintro a b ⟨ha, hb, hp⟩
    rcases hp with hp | ⟨hp, _⟩
    · exact (htrue b a hb ha).1 hp
    · exact absurd hp (hpaths a b)
  have key := search_paths hX hac hf hpk ht hR fuel [] (List.range n) po o.rest (Part.init n) (by simp; omega)
    (by intro a b; rw [Direct.extract_mem hpo]; simp) (by simp) hs
  rcases List.mem_append.1 ((ho.2 a).2 hab.lt_left) with ha | ha
  · rcases List.mem_append.1 ((ho.2 b).2 hab.lt_right) with hb | hb
    · exact Or.inr ⟨ha, hb⟩
    · exact Or.inl (Before.of_mem_append ha hb)
  · exact Or.inl ((key a b hab ha).of_append_right)

theorem fit_of_search {F : Type} [Field F] {c : Cfg} {lasso : Direct.Lasso F} {n fuel : Nat} {po : List (Nat × Nat)}
    {K : List Nat} (hpo : priorOrders c n = .ok po) (hn : n ≠ 1)
    (hs : searchOrder c (c.alpha / ((n : ℚ) - 1)) fuel [] (List.range n) po = some (.ok K)) :
    ∃ o B', fit c lasso n fuel = some (.ok (o, B')) ∧ o.rest = K ∧
      o.block = (let res := (List.range n).filter (fun i => decide (i ∉ K)); if 1 < res.length then res else []) := by
  unfold fit
  rw [hpo]
  simp only [if_neg hn, hs]
  exact ⟨_, _, rfl, rfl, rfl⟩

/-- `0 → 1`; 2 is unrelated. -/
def revB : Nat → Nat → ℚ := Rcd.weights [(1, 0, 1)]
def revX : Nat → Nat → ℚ := Rcd.rows [[1], [1, 1], [0, 0, 1]]
/-- "2 has no path to 1". -/
def revPk : PK := fun i j => if i = 1 ∧ j = 2 then 0 else -1

theorem rev_model : SourceModel 3 3 revB (fun _ _ => 0) revX := ⟨by omega, by decide +kernel⟩
theorem rev_acyclic : Acyclic (Edge 3 revB 0) := Rcd.acyclic_of_lt (by decide +kernel)

theorem rev_ancestor {a b : Nat} (h : TrueAncestor 3 revB a b) : a = 0 ∧ b = 1 := by
  have key : ∀ x, x < 3 → ∀ y, y < 3 → revB y x ≠ 0 → x = 0 ∧ y = 1 := by decide +kernel
  induction h with
  | single h => exact key _ h.1 _ h.2.1 (abs_pos.1 h.2.2)
  | tail _ h ih =>
    have := key _ h.1 _ h.2.1 (abs_pos.1 h.2.2)
    omega

theorem rev_edge : TrueAncestor 3 revB 0 1 := .single ⟨by omega, by omega, by decide +kernel⟩

theorem rev_prior : TruePrior 3 revB revPk := by
  intro i j hi hj
  unfold revPk
  constructor
  · split <;> intro h <;> omega
  · split
    · rename_i hij
      rintro - h
      have := rev_ancestor h
      omega
    · intro h; omega

/-- C150 (violated): no hidden cause, all tests right, all regressions right, and the only thing stated in advance is that
variable 2 has no path to variable 1, which is true. Then variable 1 is placed before its cause 0 and the matrix shows an
effect of 1 on 0 and none of 0 on 1, the reverse of the truth. -/
theorem C150_reversed_violated (lasso : Direct.Lasso ℚ) (hl : RightCoef 3 3 (fun _ => 1) revX lasso) :
    ∃ (c : Cfg) (o : Order) (B' : Nat → Nat → Option ℚ), c.pk = some revPk ∧ TruePrior 3 revB revPk ∧
      RightTests 3 3 (fun _ => 1) revX c ∧ TrueAncestor 3 revB 0 1 ∧ fit c lasso 3 3 = some (.ok (o, B')) ∧
      o.block = [] ∧ o.rest = [1, 2, 0] ∧ B' 1 0 = some 0 ∧ ∃ w, w ≠ 0 ∧ B' 0 1 = some w := by
  have hpo : priorOrders (popCfg 3 (fun _ => 1) revX (some revPk) true) 3 = .ok [(1, 2)] := by decide +kernel
  obtain ⟨o, B', h, hr, hb⟩ := fit_of_search (lasso := lasso) (fuel := 3) (K := [1, 2, 0]) hpo (by omega) (by decide +kernel)
  have hb' : o.block = [] := by rw [hb]; decide +kernel
  have hflat : o.flat = [1, 2, 0] := by unfold Order.flat; rw [hb', hr]; rfl
  refine ⟨_, o, B', rfl, rev_prior, popCfg_right (fun _ _ => one_pos) (by omega) revX (some revPk) true, rev_edge, h, hb', hr,
    ?_, ?_⟩
  · rw [C32_rows (by omega) h [] [2, 0] 1 hflat (by rw [hr]; simp) 0]
    rw [if_neg (by unfold Direct.predictors; decide +kernel)]
  · obtain ⟨r, hc, ho⟩ := hl [1, 2] 0 (by simp) (by simp) (by omega)
    have hpred : Direct.predictors (popCfg 3 (fun _ => 1) revX (some revPk) true).pk [1, 2] 0 = [1, 2] := by decide +kernel
    refine ⟨lasso [1, 2] 0 1, ?_, ?_⟩
    · intro h0
      have e := ho 1 (by simp)
      have hr0 := hc 0 (by omega)
      have hr1 := hc 1 (by omega)
      have hs : ∀ k, ∑ h ∈ ([1, 2] : List Nat).toFinset, lasso [1, 2] 0 h * revX h k =
          lasso [1, 2] 0 1 * revX 1 k + lasso [1, 2] 0 2 * revX 2 k := by
        intro k
        rw [show ([1, 2] : List Nat).toFinset = {1, 2} from rfl, sum_pair (by omega)]
      rw [hs, h0] at hr0 hr1
      have v00 : revX 0 0 = 1 := by decide +kernel
      have v01 : revX 0 1 = 0 := by decide +kernel
      have v10 : revX 1 0 = 1 := by decide +kernel
      have v11 : revX 1 1 = 1 := by decide +kernel
      have v12 : revX 1 2 = 0 := by decide +kernel
      have v20 : revX 2 0 = 0 := by decide +kernel
      have v21 : revX 2 1 = 0 := by decide +kernel
      unfold popCov at e
      rw [sum_range_succ, sum_range_succ, sum_range_succ, sum_range_zero] at e
      rw [v00, v20] at hr0
      rw [v01, v21] at hr1
      rw [hr0, hr1, v10, v11, v12] at e
      norm_num at e
    · rw [C32_rows (by omega) h [1, 2] [] 0 hflat (by rw [hr]; simp) 1, hpred, if_pos (by simp)]

/-- `0 → 1`, `0 → 2`. -/
def forkB : Nat → Nat → ℚ := Rcd.weights [(1, 0, 1), (2, 0, 1)]
def forkX : Nat → Nat → ℚ := Rcd.rows [[1], [1, 1], [1, 0, 1]]
/-- "0 has a path to 1". -/
def forkPk : PK := fun i j => if i = 1 ∧ j = 0 then 1 else -1

theorem fork_model : SourceModel 3 3 forkB (fun _ _ => 0) forkX := ⟨by omega, by decide +kernel⟩
theorem fork_acyclic : Acyclic (Edge 3 forkB 0) := Rcd.acyclic_of_lt (by decide +kernel)
theorem fork_edge : TrueAncestor 3 forkB 0 1 := .single ⟨by omega, by omega, by decide +kernel⟩

theorem fork_prior : TruePrior 3 forkB forkPk := by
  intro i j hi hj
  unfold forkPk
  constructor
  · split
    · rename_i hij
      intro _
      rw [hij.1, hij.2]; exact fork_edge
    · intro h; omega
  · split <;> intro h <;> omega

theorem fork_faithful : ∀ i j, TrueAncestor 3 forkB j i → forkX i j ≠ 0 := by
  intro i j h
  have base : ∀ x, x < 3 → ∀ y, y < 3 → forkB y x ≠ 0 → forkX y x ≠ 0 := by decide +kernel
  have step : ∀ x, x < 3 → ∀ y, y < 3 → ∀ z, z < 3 → forkX y x ≠ 0 ∧ forkB z y ≠ 0 → forkX z x ≠ 0 := by decide +kernel
  have hj := h.lt_left
  induction h with
  | single h => exact base _ h.1 _ h.2.1 (abs_pos.1 h.2.2)
  | tail _ h ih => exact step _ hj _ h.1 _ h.2.1 ⟨ih, abs_pos.1 h.2.2⟩

/-- C150 (violated): no hidden cause, all tests right. Without prior knowledge everything is resolved; stating the true path
from 0 to 1 leaves all three variables unresolved, even the pair the statement is about. -/
theorem C150_lost_violated (lasso : Direct.Lasso ℚ) : ∃ (c c0 : Cfg) (o o0 : Order) (B' B0 : Nat → Nat → Option ℚ),
    c = { c0 with pk := some forkPk } ∧ c0.pk = none ∧ TruePrior 3 forkB forkPk ∧
      RightTests 3 3 (fun _ => 1) forkX c0 ∧ RightTests 3 3 (fun _ => 1) forkX c ∧
      fit c0 lasso 3 3 = some (.ok (o0, B0)) ∧ o0.block = [] ∧
      fit c lasso 3 3 = some (.ok (o, B')) ∧ o.block = [0, 1, 2] ∧ B' 1 0 = none := by
  obtain ⟨o0, B0, h0, hr0, hb0⟩ := fit_of_search (c := popCfg 3 (fun _ => 1) forkX none true) (lasso := lasso) (n := 3) (fuel := 3)
    (K := [0, 2, 1]) (po := []) (by decide +kernel) (by omega) (by decide +kernel)
  obtain ⟨o, B', h, hr, hb⟩ := fit_of_search (c := popCfg 3 (fun _ => 1) forkX (some forkPk) true) (lasso := lasso) (n := 3) (fuel := 3)
    (K := []) (po := [(0, 1)]) (by decide +kernel) (by omega) (by decide +kernel)
  have hb' : o.block = [0, 1, 2] := by rw [hb]; decide +kernel
  refine ⟨_, _, o, o0, B', B0, rfl, rfl, fork_prior, popCfg_right (fun _ _ => one_pos) (by omega) forkX none true,
    popCfg_right (fun _ _ => one_pos) (by omega) forkX (some forkPk) true, h0, by rw [hb0]; decide +kernel, h, hb', ?_⟩
  exact ((C32_matrix (by omega) h 1 0 (by omega)).1).2 (by rw [hb']; simp)

/-! ### Concrete cases meeting the hypotheses -/

/-- C149 with a hidden cause (source 3) of 0 and 1, and `1 → 2`: right tests and coefficients exist, the pair 0, 1 is left
unresolved and 2 is resolved. -/
example : SourceModel 3 4 Rcd.hidB Rcd.hidL Rcd.hidX ∧ Acyclic (Edge 3 Rcd.hidB 0) ∧
    (∀ i j, TrueAncestor 3 Rcd.hidB j i → Rcd.hidX i j ≠ 0) ∧
    RightTests 3 4 (fun _ => 1) Rcd.hidX (popCfg 4 (fun _ => 1) Rcd.hidX none false) ∧
    (∃ lasso, RightCoef 3 4 (fun _ => 1) Rcd.hidX lasso) ∧
    (fit (popCfg 4 (fun _ => 1) Rcd.hidX none false) (fun _ _ _ => (0 : ℚ)) 3 3).map
      (fun r => r.toOption.map (fun r => (r.1.block, r.1.rest))) = some (some ([0, 1], [2])) := by
  refine ⟨Rcd.hid_model, Rcd.hid_acyclic, ?_, popCfg_right (fun _ _ => one_pos) (by omega) _ _ _,
    rightCoef_exists (fun _ _ => one_pos) 3 _, by decide +kernel⟩
  intro i j h
  have base : ∀ x, x < 3 → ∀ y, y < 3 → Rcd.hidB y x ≠ 0 → Rcd.hidX y x ≠ 0 := by decide +kernel
  have step : ∀ x, x < 3 → ∀ y, y < 3 → ∀ z, z < 3 → Rcd.hidX y x ≠ 0 ∧ Rcd.hidB z y ≠ 0 → Rcd.hidX z x ≠ 0 := by
    decide +kernel
  have hj := h.lt_left
  induction h with
  | single h => exact base _ h.1 _ h.2.1 (abs_pos.1 h.2.2)
  | tail _ h ih => exact step _ hj _ h.1 _ h.2.1 ⟨ih, abs_pos.1 h.2.2⟩

/-- C149 without hidden causes and C150 with true paths: the fork meets all hypotheses. -/
example : SourceModel 3 3 forkB (fun _ _ => 0) forkX ∧ Acyclic (Edge 3 forkB 0) ∧
    (∀ i j, TrueAncestor 3 forkB j i → forkX i j ≠ 0) ∧
    RightTests 3 3 (fun _ => 1) forkX (popCfg 3 (fun _ => 1) forkX none true) ∧
    (∃ lasso, RightCoef 3 3 (fun _ => 1) forkX lasso) ∧ TruePrior 3 forkB forkPk ∧ (∀ i j, forkPk i j ≠ 0) ∧
    RightTests 3 3 (fun _ => 1) forkX (popCfg 3 (fun _ => 1) forkX (some forkPk) true) :=
  ⟨fork_model, fork_acyclic, fork_faithful, popCfg_right (fun _ _ => one_pos) (by omega) _ _ _,
    rightCoef_exists (fun _ _ => one_pos) 3 _, fork_prior, by intro i j; unfold forkPk; split <;> omega,
    popCfg_right (fun _ _ => one_pos) (by omega) _ _ _⟩

/-- C150: with all three paths of a chain stated the search succeeds (every step has a single candidate). -/
example : (fit (popCfg 3 (fun _ => 1) (Rcd.rows [[1], [1, 1], [1, 1, 1]])
    (some (fun i j => if j < i then 1 else -1)) true) (fun _ _ _ => (0 : ℚ)) 3 3).map
      (fun r => r.toOption.map (fun r => (r.1.block, r.1.rest))) = some (some ([], [0, 1, 2])) := by decide +kernel

end Verif.Parce
