import Verif.Proofs.CamGroups
import Verif.Props.CamPopulation
import Verif.Props.MultiGroup

/-!
# MultiGroupCAMUV with right tests on linear models (C195)

Several data sets over the same variables; each follows a linear model with independent non-Gaussian sources, hidden causes
allowed, and all have a common causal order.  Coefficients, edges and hidden causes may differ between the data sets.
-/
set_option linter.unusedSectionVars false
set_option autoImplicit false
namespace Verif.Camuv
open Finset
open Rcd (Anc weights rows acyclic_of_lt combos mem_combos)

section
variable {n : Nat} {gs : List Pop} {c : Cfg}

/-- The state at the end of the search, before the pruning. -/
theorem search_endG (ho : CommonOrder n gs) (ht : PooledRight n gs c) {maxnum fuel : Nat}
    (hm : maxnum ≤ 2) {P : Anc} (h : findParents c n maxnum fuel = some P) :
    ∃ Q, P = prune c n Q ∧ SoundG n gs Q ∧
      ∀ V ∈ combos 2 (List.range n), body c (neighborhoods c n) (Q, false) V = (Q, false) := by
  unfold findParents at h
  cases hl : loop c (neighborhoods c n) n maxnum fuel 2 (fun _ => ∅) with
  | none => rw [hl] at h; cases h
  | some Q =>
    rw [hl] at h
    simp only [Option.some.injEq] at h
    obtain ⟨_, h2, h3⟩ := loop_pairs ht.iter hm (SoundG n gs) (fun P V b _ hV hs => body_soundG ho ht b hV hs)
      (good_empty c (neighborhoods c n) n 2) (fun i j hj => absurd hj (by simp)) hl
    exact ⟨Q, h.symm, h2, h3⟩

/-- C195: whatever the hidden causes and the prior knowledge, everything reported as a parent is a cause (along edges that
exist in some of the data sets), so the directed edges contain no cycle. -/
theorem C195_parents_are_causes (ho : CommonOrder n gs) (ht : PooledRight n gs c)
    {maxnum fuel : Nat} (hm : maxnum ≤ 2) {P : Anc} {A : Nat → Nat → Option ℚ} (h : fit c n maxnum fuel = some (P, A)) :
    (∀ i j, A i j = some 1 → GroupAncestor n gs j i) ∧ Acyclic (fun a b => A b a = some 1) := by
  obtain ⟨h1, h2⟩ := fit_parts h
  obtain ⟨Q, rfl, hs, _⟩ := search_endG ho ht hm h1
  have hA : ∀ i j, A i j = some 1 → GroupAncestor n gs j i := by
    intro i j hij
    rw [h2] at hij
    exact hs i j (foldl_prune_subset c _ _ i (adjacency_one hij))
  exact ⟨hA, fun i hi => ho.acyc_anc i (Relation.TransGen.mono (fun a b hab => hA b a hab) i i hi)⟩

/-- C195: a variable such that in no data set a hidden cause acts on it or on a cause of it gets exactly the variables that
are direct causes in at least one data set, and entries between two such variables are 1 for these and 0 elsewhere — provided
no effect cancels in all data sets at once and the prior knowledge excludes no cause. -/
theorem C195_exact_without_hidden_causes (ho : CommonOrder n gs) (ht : PooledRight n gs c)
    (hacc : ∀ i, i < n → CleanAbove n gs i → GroupFaithful n gs i)
    (hprior : ∀ ps, c.prior = some ps → ∀ i j, GroupAncestor n gs j i → (j, i) ∉ ps)
    {maxnum fuel : Nat} (hm : maxnum ≤ 2) {P : Anc} {A : Nat → Nat → Option ℚ} (h : fit c n maxnum fuel = some (P, A))
    {i : Nat} (hi : i < n) (hc : CleanAbove n gs i) :
    (∀ j, j < n → (A i j = some 1 ↔ GroupEdge n gs j i)) ∧
      ∀ j, j < n → CleanAbove n gs j → A i j ≠ none := by
  obtain ⟨h1, h2⟩ := fit_parts h
  obtain ⟨Q, rfl, hs, hend⟩ := search_endG ho ht hm h1
  have hfound := clean_parents_foundG ho ht hacc (fun i j hij ⟨ps, hps, hmem⟩ => hprior ps hps i j hij hmem) hs hend
  have hpr := clean_pruneG ho ht hacc hs hfound
  have hsP : SoundG n gs (prune c n Q) := fun i j hj => hs i j (foldl_prune_subset c _ _ i hj)
  refine ⟨fun j hj => ((C29_matrix h hi hj).2.1).trans (hpr i hi hc j), ?_⟩
  intro j hj hcj hnone
  obtain ⟨hij, _, _, _, hdep⟩ := (C29_matrix h hi hj).1.1 hnone
  have hind : ∀ x y, x < n → y < n → CleanAbove n gs x → CleanAbove n gs y → x ≠ y →
      isInd c (c.val x (prune c n Q x) [(y, prune c n Q y)]) = true := by
    intro x y hx hy hcx hcy hxy
    rw [ht.pair hx hy (soundG_range hsP x) (soundG_range hsP y)]
    intro g hg
    refine ⟨_, _, cleanG_eq ho hg hx hcx (fun s hs => hsP x s hs) (fun q hE => (hpr x hx hcx q).2 hE),
      cleanG_eq ho hg hy hcy (fun s hs => hsP y s hs) (fun q hE => (hpr y hy hcy q).2 hE), ?_⟩
    intro k _
    by_cases hk : k = x
    · right; exact if_neg (by rw [hk]; exact hxy)
    · left; exact if_neg hk
  rcases lt_or_gt_of_ne hij with h' | h'
  · rw [min_eq_left h'.le, max_eq_right h'.le, hind i j hi hj hc hcj hij] at hdep
    cases hdep
  · rw [min_eq_right h'.le, max_eq_left h'.le, hind j i hj hi hcj hc hij.symm] at hdep
    cases hdep

/-- C195: with F-correlation the joint test is right as soon as the F-correlation of every single data set is below the
threshold exactly for independent residuals. -/
theorem C195_fcorr (F : MultiGroup.Fisher) (alpha : ℚ) {indCorr : ℚ} (hpos : 0 < indCorr) (hle : indCorr ≤ 1)
    (prior : Option (List (Nat × Nat))) {iter : List Nat → List Nat} (hiter : ∀ l, (iter l).Perm l)
    (ds : List (MultiGroup.CamData × Pop))
    (hd : ∀ d ∈ ds, ∀ a A l, a < n → A ⊆ range n → (∀ q ∈ l, q.1 < n ∧ q.2 ⊆ range n) →
      (d.1 a A l < indCorr ↔ ∃ r, IsResidual d.2.m d.2.σ d.2.X A (d.2.X a) r ∧
        ∀ q ∈ l, ∃ y, IsResidual d.2.m d.2.σ d.2.X q.2 (d.2.X q.1) y ∧ ShareNoSource d.2.m r y)) :
    PooledRight n (ds.map Prod.snd) (MultiGroup.camCfg F false alpha indCorr prior iter (ds.map Prod.fst)) := by
  refine ⟨hiter, fun h => by simp [MultiGroup.camCfg] at h, fun _ => hle, ?_⟩
  intro a A l ha hA hl
  rw [MultiGroup.C90_camuv_decisions F false alpha indCorr hpos]
  simp only [Bool.false_eq_true, if_false, List.forall_mem_map]
  exact forall₂_congr fun d hdm => hd d hdm a A l ha hA hl

end

/-! ### Concrete cases meeting the hypotheses -/

/-- Enough for `GroupFaithful`: one population has all edges and no accidental cancellation. -/
theorem groupFaithful_of {n : Nat} {gs : List Pop} {g : Pop} (hg : g ∈ gs) {i : Nat}
    (hE : ∀ a b, GroupEdge n gs a b → Edge n g.B 0 a b) (h : NoAccident n g.m g.σ g.B g.X i) : GroupFaithful n gs i := by
  intro S j hS hp
  refine ⟨g, hg, fun r hr => h S j r (fun s hs => ?_) ?_ hr⟩
  · have := hS s hs
    unfold GroupAncestor at this
    exact Relation.TransGen.mono hE s i this
  · unfold GroupAvoiding at hp
    exact Relation.TransGen.mono (fun a b hab => ⟨hE a b hab.1, hab.2⟩) j i hp

/-- The value a right F-correlation could have: 0 for independent, 1 for dependent. -/
def popVal (n : Nat) (g : Pop) : MultiGroup.CamData := fun a A l =>
  if isInd (popCfg n g.m g.σ g.X none) ((popCfg n g.m g.σ g.X none).val a A l) then 0 else 1

/-- Two populations over `0 → 1 → 2` with `0 → 2`; in the first one the effects of 0 on 2 cancel. In the second one a
hidden source acts on 3. -/
def popA : Pop := ⟨4, weights [(1, 0, 1), (2, 1, 1), (2, 0, -1)], fun _ _ => 0, rows [[1], [1, 1], [0, 1, 1], [0, 0, 0, 1]], fun _ => 1⟩
def popB : Pop := ⟨5, weights [(1, 0, 1), (2, 1, 1), (2, 0, 1)], weights [(3, 4, 1)],
  rows [[1], [1, 1], [2, 1, 1], [0, 0, 0, 1, 1]], fun _ => 1⟩

theorem exG_edges : ∀ a b, GroupEdge 4 [popA, popB] a b → Edge 4 popB.B 0 a b := by
  rintro a b ⟨g, hg, ha, hb, hw⟩
  refine ⟨ha, hb, abs_pos.2 ?_⟩
  have hw := abs_pos.1 hw
  simp only [List.mem_cons, List.not_mem_nil, or_false] at hg
  have key : ∀ a, a < 4 → ∀ b, b < 4 → popA.B b a ≠ 0 → popB.B b a ≠ 0 := by decide +kernel
  rcases hg with rfl | rfl
  · exact key a ha b hb hw
  · exact hw

theorem exG_lt : ∀ a b, GroupEdge 4 [popA, popB] a b → a < b ∧ b < 3 := by
  intro a b h
  obtain ⟨ha, hb, hw⟩ := exG_edges a b h
  have key : ∀ a, a < 4 → ∀ b, b < 4 → popB.B b a ≠ 0 → a < b ∧ b < 3 := by decide +kernel
  exact key a ha b hb (abs_pos.1 hw)

theorem exG_order : CommonOrder 4 [popA, popB] := by
  refine ⟨?_, ?_⟩
  · intro g hg
    simp only [List.mem_cons, List.not_mem_nil, or_false] at hg
    rcases hg with rfl | rfl
    · exact ⟨⟨by decide, by decide +kernel⟩, fun _ _ => one_pos⟩
    · exact ⟨⟨by decide, by decide +kernel⟩, fun _ _ => one_pos⟩
  · intro i hi
    have : ∀ a b, Relation.TransGen (GroupEdge 4 [popA, popB]) a b → a < b := by
      intro a b h
      induction h with
      | single h => exact (exG_lt _ _ h).1
      | tail _ h ih => exact ih.trans (exG_lt _ _ h).1
    exact lt_irrefl _ (this i i hi)

/-- C195: all hypotheses are met by the two populations, although the first one alone has an accidental cancellation. -/
example : CommonOrder 4 [popA, popB] ∧
    PooledRight 4 [popA, popB] (MultiGroup.camCfg ⟨fun _ => 0, fun _ _ => 0⟩ false 0 (1 / 2) none id
      [popVal 4 popA, popVal 4 popB]) ∧
    (∀ i, i < 4 → GroupFaithful 4 [popA, popB] i) ∧ CleanAbove 4 [popA, popB] 2 ∧ GroupEdge 4 [popA, popB] 0 2 ∧
    ¬ NoAccident 4 4 popA.σ popA.B popA.X 2 := by
  refine ⟨exG_order, ?_, ?_, ?_, ⟨popB, by simp, by decide, by decide, abs_pos.2 (by decide +kernel)⟩, ?_⟩
  · refine C195_fcorr (n := 4) _ 0 (by norm_num) (by norm_num) none (fun l => List.Perm.refl l)
      [(popVal 4 popA, popA), (popVal 4 popB, popB)] ?_
    intro d hd a A l ha hA hl
    have hr : ∀ g : Pop, (∀ k, k < g.m → 0 < g.σ k) → (popVal 4 g a A l < 1 / 2 ↔ ∃ r, IsResidual g.m g.σ g.X A (g.X a) r ∧
        ∀ q ∈ l, ∃ y, IsResidual g.m g.σ g.X q.2 (g.X q.1) y ∧ ShareNoSource g.m r y) := by
      intro g hσ
      rw [← (popCfg_right hσ 4 g.X none).indep a A l ha hA hl]
      unfold popVal
      split
      · rename_i h; simp [h]
      · rename_i h; simp only [h]; norm_num
    simp only [List.mem_cons, List.not_mem_nil, or_false] at hd
    rcases hd with rfl | rfl
    · exact hr popA fun _ _ => one_pos
    · exact hr popB fun _ _ => one_pos
  · intro i hi
    refine groupFaithful_of (g := popB) (by simp) exG_edges ?_
    by_cases h3 : i = 3
    · intro S j r _ hp
      have hp' := AvoidingPath.anc hp
      rcases Relation.TransGen.tail'_iff.1 hp' with ⟨b, _, hb⟩
      have := (exG_lt b i ⟨popB, by simp, hb⟩).2
      omega
    · refine noAccident_of (fun _ _ => one_pos) (by decide) (fun a ha b hb h =>
        (exG_lt a b ⟨popB, by simp, ha, hb, abs_pos.2 h⟩).1) ?_
      have : ∀ i, i < 3 → ∀ l ∈ (List.range 4).sublists, (∀ x ∈ l, x < i) → ∀ j, j < i → j ∉ l →
        residual 5 (fun _ => 1) popB.X l (popB.X i) j ≠ 0 := by decide +kernel
      exact this i (by omega)
  · intro g hg a ha k hk1 hk2
    have ha3 : a < 3 := by
      rcases ha with rfl | ha
      · omega
      · rcases Relation.TransGen.head'_iff.1 ha with ⟨b, hb, _⟩
        have := exG_lt a b hb
        omega
    simp only [List.mem_cons, List.not_mem_nil, or_false] at hg
    rcases hg with rfl | rfl
    · rfl
    · have : ∀ a, a < 3 → ∀ k, k < 5 → 4 ≤ k → popB.L a k = 0 := by decide +kernel
      exact this a ha3 k hk2 hk1
  · intro h
    refine h ∅ 0 (popA.X 2) (by simp) (.single ⟨⟨by decide, by decide, abs_pos.2 (by decide +kernel)⟩, by simp⟩)
      ⟨fun _ => 0, by simp, by simp⟩ (by decide +kernel)

end Verif.Camuv
