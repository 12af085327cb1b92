import Verif.Proofs.CamPopulation
import Verif.Props.Camuv
import Verif.Props.RcdPopulation

/-!
# CAM-UV with right tests on linear models (C182–C184)

The data follow a linear model with independent non-Gaussian sources, hidden causes allowed, and every independence test
gives the right answer (`RightTests`).  `popCfg_right` shows that such tests exist for every model and every prior
knowledge.
-/
set_option linter.unusedSectionVars false
set_option autoImplicit false
namespace Verif.Camuv
open Finset
open Rcd (Anc SoundM weights rows acyclic_of_lt listOf listOf_toFinset combos mem_combos)

section
variable {n m : Nat} {B L X : Nat → Nat → ℚ} {σ : Nat → ℚ} {c : Cfg}

theorem fit_parts {maxnum fuel : Nat} {P : Anc} {A : Nat → Nat → Option ℚ} (h : fit c n maxnum fuel = some (P, A)) :
    findParents c n maxnum fuel = some P ∧ A = adjacency (confoundedPairs c n (neighborhoods c n) P) P := by
  unfold fit at h
  cases hP : findParents c n maxnum fuel with
  | none => rw [hP] at h; cases h
  | some P' =>
    rw [hP] at h
    simp only [Option.some.injEq, Prod.mk.injEq] at h
    exact ⟨by rw [h.1], by rw [← h.2, ← h.1]⟩

/-- The state at the end of the search, before the pruning. -/
theorem search_end (hX : SourceModel n m B L X) (hac : Acyclic (Edge n B 0)) (ht : RightTests n m σ X c) {maxnum fuel : Nat}
    (hm : maxnum ≤ 2) {P : Anc} (h : findParents c n maxnum fuel = some P) :
    ∃ Q, P = prune c n Q ∧ SoundM n B Q ∧
      ∀ V ∈ combos 2 (List.range n), body c (neighborhoods c n) (Q, false) V = (Q, false) := by
  unfold findParents at h
  cases hl : loop c (neighborhoods c n) n maxnum fuel 2 (fun _ => ∅) with
  | none => rw [hl] at h; cases h
  | some Q =>
    rw [hl] at h
    simp only [Option.some.injEq] at h
    obtain ⟨_, h2, h3⟩ := loop_pairs ht.iter hm (SoundM n B) (fun P V b _ hV hs => body_sound hX hac ht b hV hs)
      (good_empty c (neighborhoods c n) n 2) (fun i j hj => absurd hj (by simp)) hl
    exact ⟨Q, h.symm, h2, h3⟩

theorem adjacency_one {U : List (List Nat)} {P : Anc} {i j : Nat} (h : adjacency U P i j = some 1) : j ∈ P i := by
  unfold adjacency at h
  split at h
  · cases h
  · split at h
    · assumption
    · simp at h

/-- C182: whatever the hidden causes and the prior knowledge, with the default number of explanatory variables (1 or 2)
everything reported as a parent is an ancestor in the true graph; so the directed edges contain no cycle. -/
theorem C182_parents_are_causes (hX : SourceModel n m B L X) (hac : Acyclic (Edge n B 0)) (ht : RightTests n m σ X c)
    {maxnum fuel : Nat} (hm : maxnum ≤ 2) {P : Anc} {A : Nat → Nat → Option ℚ} (h : fit c n maxnum fuel = some (P, A)) :
    (∀ i j, A i j = some 1 → TrueAncestor n B j i) ∧ (∀ i j, j ∈ P i → TrueAncestor n B j i) ∧
      Acyclic (fun a b => A b a = some 1) := by
  obtain ⟨h1, h2⟩ := fit_parts h
  obtain ⟨Q, rfl, hs, _⟩ := search_end hX hac ht hm h1
  have hP : ∀ i j, j ∈ prune c n Q i → TrueAncestor n B j i := fun i j hj => hs i j (foldl_prune_subset c _ _ i hj)
  have hA : ∀ i j, A i j = some 1 → TrueAncestor n B j i := by
    intro i j hij
    rw [h2] at hij
    exact hP i j (adjacency_one hij)
  refine ⟨hA, hP, fun i hi => ?_⟩
  exact acyclic_ancestor hac i (Relation.TransGen.mono (fun a b hab => hA b a hab) i i hi)

/-- C183: a variable with no hidden cause acting on it or on an ancestor gets exactly its true parents, and the matrix
entries between two such variables are 1 for the edges, 0 elsewhere and never NaN — provided nothing cancels by accident
(`NoAccident`) and the prior knowledge excludes no true cause. -/
theorem C183_exact_without_hidden_causes (hX : SourceModel n m B L X) (hac : Acyclic (Edge n B 0))
    (hσ : ∀ k, k < m → 0 < σ k) (ht : RightTests n m σ X c)
    (hacc : ∀ i, i < n → NoHiddenAbove n m B L i → NoAccident n m σ B X i)
    (hprior : ∀ ps, c.prior = some ps → ∀ i j, TrueAncestor n B j i → (j, i) ∉ ps)
    {maxnum fuel : Nat} (hm : maxnum ≤ 2) {P : Anc} {A : Nat → Nat → Option ℚ} (h : fit c n maxnum fuel = some (P, A))
    {i : Nat} (hi : i < n) (hc : NoHiddenAbove n m B L i) :
    (∀ j, j ∈ P i ↔ j < n ∧ B i j ≠ 0) ∧ (∀ j, A i j = some 1 ↔ j < n ∧ B i j ≠ 0) ∧
      ∀ j, j < n → NoHiddenAbove n m B L j → A i j = some (if B i j = 0 then 0 else 1) := by
  obtain ⟨h1, h2⟩ := fit_parts h
  obtain ⟨Q, rfl, hs, hend⟩ := search_end hX hac ht hm h1
  have hfound := clean_parents_found hX hac hσ ht hacc
    (fun i j hij ⟨ps, hps, hmem⟩ => hprior ps hps i j hij hmem) hs hend
  have hpr := clean_prune hX hac hσ ht hacc hs hfound
  have hsP : SoundM n B (prune c n Q) := fun i j hj => hs i j (foldl_prune_subset c _ _ i hj)
  -- a pair related by an edge is not listed
  have hU1 : ∀ a b, b ∈ prune c n Q a →
      ¬ ((confoundedPairs c n (neighborhoods c n) (prune c n Q)).any (fun p => (decide (p.getD 0 0 = a) && decide (p.getD 1 0 = b)) ||
        (decide (p.getD 1 0 = a) && decide (p.getD 0 0 = b)))) = true := by
    intro a b hb hcon
    obtain ⟨p, hp, hpe⟩ := List.any_eq_true.1 hcon
    have hpc := (List.mem_filter.1 hp).2
    unfold confounded at hpc
    simp only [Bool.or_eq_true, Bool.and_eq_true, decide_eq_true_eq, Bool.not_eq_true', Bool.or_eq_false_iff,
      decide_eq_false_iff_not] at hpe hpc
    rcases hpe with ⟨e1, e2⟩ | ⟨e1, e2⟩
    · rw [e1, e2] at hpc; exact hpc.1.1.2 hb
    · rw [e1, e2] at hpc; exact hpc.1.1.1 hb
  have hone : ∀ j, A i j = some 1 ↔ j < n ∧ B i j ≠ 0 := by
    intro j
    constructor
    · intro hij
      rw [h2] at hij
      exact (hpr i hi hc j).1 (adjacency_one hij)
    · intro hij
      have hm' := (hpr i hi hc j).2 hij
      rw [h2]
      unfold adjacency
      rw [if_neg (hU1 i j hm'), if_pos hm']
  refine ⟨hpr i hi hc, hone, ?_⟩
  intro j hj hcj
  by_cases hB : B i j = 0
  · rw [if_pos hB, h2]
    have hjn : j ∉ prune c n Q i := fun hh => ((hpr i hi hc j).1 hh).2 hB
    unfold adjacency
    rw [if_neg, if_neg hjn]
    intro hcon
    obtain ⟨p, hp, hpe⟩ := List.any_eq_true.1 hcon
    obtain ⟨hp1, hpc⟩ := List.mem_filter.1 hp
    obtain ⟨hsub, hlen⟩ := mem_combos.1 hp1
    obtain ⟨a, b, rfl⟩ := List.length_eq_two.1 hlen
    have hab : a ≠ b := by simpa using hsub.nodup List.nodup_range
    -- both residuals are the own errors
    have hind : ∀ x y, x < n → y < n → NoHiddenAbove n m B L x → NoHiddenAbove n m B L y → x ≠ y →
        isInd c (c.val x (prune c n Q x) [(y, prune c n Q y)]) = true := by
      intro x y hx hy hcx hcy hxy
      rw [ht.pair hx hy (sound_range hsP x) (sound_range hsP y)]
      refine ⟨_, _, clean_eq (σ := σ) hX hac hx hcx (fun s hs => hsP x s hs) (fun q hq hBq => (hpr x hx hcx q).2 ⟨hq, hBq⟩),
        clean_eq (σ := σ) hX hac hy hcy (fun s hs => hsP y s hs) (fun q hq hBq => (hpr y hy hcy q).2 ⟨hq, hBq⟩), ?_⟩
      intro k _
      by_cases hk : k = x
      · right; exact if_neg (by rw [hk]; exact hxy)
      · left; exact if_neg hk
    unfold confounded at hpc
    simp only [List.getD_cons_zero, List.getD_cons_succ, Bool.or_eq_true, Bool.and_eq_true, decide_eq_true_eq] at hpe hpc
    have hf : isInd c (c.val a (prune c n Q a) [(b, prune c n Q b)]) = true := by
      rcases hpe with ⟨rfl, rfl⟩ | ⟨rfl, rfl⟩
      · exact hind _ _ hi hj hc hcj hab
      · exact hind _ _ hj hi hcj hc hab
    rw [hf] at hpc
    simp at hpc
  · rw [if_neg hB]
    exact (hone j).2 ⟨hj, hB⟩

/-- C183: without any hidden cause the whole matrix is the 0/1 pattern of the true weights, for all sufficient fuel (the
search ends, C28). -/
theorem C183_recovers_graph {B L X : Nat → Nat → ℚ} {σ : Nat → ℚ} (hX : SourceModel n n B L X)
    (hac : Acyclic (Edge n B 0)) (hσ : ∀ k, k < n → 0 < σ k) (ht : RightTests n n σ X c)
    (hacc : ∀ i, i < n → NoAccident n n σ B X i) (hprior : ∀ ps, c.prior = some ps → ∀ i j, TrueAncestor n B j i → (j, i) ∉ ps)
    {maxnum : Nat} (hm : maxnum ≤ 2) :
    ∃ P A, (∀ fuel, (n * n + 1) * max 2 maxnum ≤ fuel → fit c n maxnum fuel = some (P, A)) ∧
      (∀ i j, i < n → (j ∈ P i ↔ j < n ∧ B i j ≠ 0)) ∧
      ∀ i j, i < n → j < n → A i j = some (if B i j = 0 then 0 else 1) := by
  obtain ⟨P, hP, _⟩ := C28_parents_terminate ht.iter n maxnum
  have hcl : ∀ i, NoHiddenAbove n n B L i := fun i k ⟨h1, h2, _⟩ => by omega
  have hfit : ∀ fuel, (n * n + 1) * max 2 maxnum ≤ fuel →
      fit c n maxnum fuel = some (P, adjacency (confoundedPairs c n (neighborhoods c n) P) P) := by
    intro fuel hf
    unfold fit
    rw [hP fuel hf]
  have key := fun i (hi : i < n) => C183_exact_without_hidden_causes hX hac hσ ht (fun i hi _ => hacc i hi) hprior hm
    (hfit _ le_rfl) hi (hcl i)
  exact ⟨P, _, hfit, fun i j hi => (key i hi).1 j, fun i j hi hj => (key i hi).2.2 j hj (hcl j)⟩

end

/-! ### Direct causes -/

/-- `0 → 1 → 2`, and a hidden cause (source 3) of 1 and 2. -/
def indB : Nat → Nat → ℚ := weights [(1, 0, 1), (2, 1, 1)]
def indL : Nat → Nat → ℚ := weights [(1, 3, 1), (2, 3, 1)]
def indX : Nat → Nat → ℚ := rows [[1, 0, 0, 0], [1, 1, 0, 1], [1, 1, 1, 2]]

theorem ind_model : SourceModel 3 4 indB indL indX := by
  refine ⟨by omega, ?_⟩
  decide +kernel

theorem ind_acyclic : Acyclic (Edge 3 indB 0) := acyclic_of_lt (by decide +kernel)

/-- C184 (violated): with right tests and one hidden cause the matrix contains a 1 from 0 to 2 although 0 acts on 2 only
through the observed variable 1, and the true edge from 1 to 2 is replaced by NaN. -/
theorem C184_indirect_cause_reported : ∃ (B L X : Nat → Nat → ℚ) (σ : Nat → ℚ) (c : Cfg) (P : Anc)
    (A : Nat → Nat → Option ℚ), SourceModel 3 4 B L X ∧ Acyclic (Edge 3 B 0) ∧ (∀ k, k < 4 → 0 < σ k) ∧
      RightTests 3 4 σ X c ∧ c.prior = none ∧ fit c 3 2 20 = some (P, A) ∧ A 2 0 = some 1 ∧ B 2 0 = 0 ∧
      A 2 1 = none ∧ B 2 1 ≠ 0 := by
  have key : (fit (popCfg 3 4 (fun _ => 1) indX none) 3 2 20).map (fun r => (r.2 2 0, r.2 2 1)) = some (some 1, none) := by
    decide +kernel
  cases hf : fit (popCfg 3 4 (fun _ => 1) indX none) 3 2 20 with
  | none => rw [hf] at key; cases key
  | some r =>
    rw [hf] at key
    simp only [Option.map_some, Option.some.injEq, Prod.mk.injEq] at key
    exact ⟨indB, indL, indX, fun _ => 1, _, r.1, r.2, ind_model, ind_acyclic, fun _ _ => one_pos,
      popCfg_right (fun _ _ => one_pos) 3 indX none, rfl, hf, key.1, by decide +kernel, key.2, by decide +kernel⟩

/-- C184 (partial): a 1 is a direct cause if no hidden cause acts on the effect or above it. Missing: other effects, where
it fails. -/
theorem C184_direct_without_hidden_causes_partial {n m : Nat} {B L X : Nat → Nat → ℚ} {σ : Nat → ℚ} {c : Cfg}
    (hX : SourceModel n m B L X) (hac : Acyclic (Edge n B 0)) (hσ : ∀ k, k < m → 0 < σ k) (ht : RightTests n m σ X c)
    (hacc : ∀ i, i < n → NoHiddenAbove n m B L i → NoAccident n m σ B X i)
    (hprior : ∀ ps, c.prior = some ps → ∀ i j, TrueAncestor n B j i → (j, i) ∉ ps)
    {maxnum fuel : Nat} (hm : maxnum ≤ 2) {P : Anc} {A : Nat → Nat → Option ℚ} (h : fit c n maxnum fuel = some (P, A))
    {i j : Nat} (hi : i < n) (hc : NoHiddenAbove n m B L i) (hij : A i j = some 1) : B i j ≠ 0 :=
  (((C183_exact_without_hidden_causes hX hac hσ ht hacc hprior hm h hi hc).2.1 j).1 hij).2

/-! ### Accidental cancellation -/

/-- No hidden cause: `1 → 0`, `1 → 2`, `0, 1, 2 → 3`; the direct effect of 1 on 3 cancels the one through 2. -/
def accB : Nat → Nat → ℚ := weights [(0, 1, -1), (2, 1, 1), (3, 0, -1), (3, 1, -1), (3, 2, 1)]
def accX : Nat → Nat → ℚ := rows [[1, -1, 0, 0], [0, 1, 0, 0], [0, 1, 1, 0], [-1, 1, 1, 1]]

theorem acc_model : SourceModel 4 4 accB (fun _ _ => 0) accX := by
  refine ⟨by omega, ?_⟩
  decide +kernel

/-- The pairs of an ancestor and a descendant in this graph. -/
def accAnc : List (Nat × Nat) := [(1, 0), (1, 2), (0, 3), (1, 3), (2, 3)]

theorem acc_ancestor : ∀ a b, TrueAncestor 4 accB a b → (a, b) ∈ accAnc := by
  have key : ∀ x, x < 4 → ∀ y, y < 4 → accB y x ≠ 0 → decide ((x, y) ∈ accAnc) = true := by decide +kernel
  have comp : ∀ p ∈ accAnc, ∀ q ∈ accAnc, p.2 = q.1 → (p.1, q.2) ∈ accAnc := by decide +kernel
  intro a b hab
  induction hab with
  | single h => exact of_decide_eq_true (key _ h.1 _ h.2.1 (abs_pos.1 h.2.2))
  | tail _ h ih => exact comp _ ih _ (of_decide_eq_true (key _ h.1 _ h.2.1 (abs_pos.1 h.2.2))) rfl

theorem acc_acyclic : Acyclic (Edge 4 accB 0) := by
  intro i hi
  have h := acc_ancestor i i hi
  have : ∀ p ∈ accAnc, p.1 ≠ p.2 := by decide +kernel
  exact this _ h rfl

/-- C183 (the condition is needed): without hidden causes, with right tests and with no total effect cancelling, two of
three parents of variable 3 are not reported and the pair (2, 3) is marked as if it had an unobserved common cause; the
population version of RCD recovers this graph (C99). -/
theorem C183_cancellation_matters : ∃ (B X : Nat → Nat → ℚ) (σ : Nat → ℚ) (c : Cfg) (P : Anc)
    (A : Nat → Nat → Option ℚ), SourceModel 4 4 B (fun _ _ => 0) X ∧ Acyclic (Edge 4 B 0) ∧ (∀ k, k < 4 → 0 < σ k) ∧
      (∀ i j, TrueAncestor 4 B j i → X i j ≠ 0) ∧ RightTests 4 4 σ X c ∧ c.prior = none ∧
      fit c 4 2 34 = some (P, A) ∧ B 3 1 ≠ 0 ∧ B 3 2 ≠ 0 ∧ P 3 = {0} ∧ A 3 1 = some 0 ∧ A 3 2 = none := by
  have key : (fit (popCfg 4 4 (fun _ => 1) accX none) 4 2 34).map (fun r => (r.1 3, r.2 3 1, r.2 3 2)) =
      some ({0}, some 0, none) := by
    decide +kernel
  have hanc : ∀ i j, TrueAncestor 4 accB j i → accX i j ≠ 0 := by
    intro i j hij
    have val : ∀ p ∈ accAnc, accX p.2 p.1 ≠ 0 := by decide +kernel
    exact val _ (acc_ancestor j i hij)
  cases hf : fit (popCfg 4 4 (fun _ => 1) accX none) 4 2 34 with
  | none => rw [hf] at key; cases key
  | some r =>
    rw [hf] at key
    simp only [Option.map_some, Option.some.injEq, Prod.mk.injEq] at key
    exact ⟨accB, accX, fun _ => 1, _, r.1, r.2, acc_model, acc_acyclic, fun _ _ => one_pos, hanc,
      popCfg_right (fun _ _ => one_pos) 4 accX none, rfl, hf, by decide +kernel, by decide +kernel, key.1, key.2.1, key.2.2⟩

/-! ### Concrete cases meeting the hypotheses -/

/-- A way to check `NoAccident` when the earlier variables are exactly the candidates. -/
theorem noAccident_of {n m : Nat} {B X : Nat → Nat → ℚ} {σ : Nat → ℚ} (hσ : ∀ k, k < m → 0 < σ k) (hnm : n ≤ m) {i : Nat}
    (hlt : ∀ a, a < n → ∀ b, b < n → B b a ≠ 0 → a < b)
    (h : ∀ l ∈ (List.range n).sublists, (∀ x ∈ l, x < i) → ∀ j, j < i → j ∉ l → residual m σ X l (X i) j ≠ 0) :
    NoAccident n m σ B X i := by
  have hanc : ∀ a b, TrueAncestor n B a b → a < b := by
    intro a b hab
    induction hab with
    | single h => exact hlt _ h.1 _ h.2.1 (abs_pos.1 h.2.2)
    | tail _ h ih => exact ih.trans (hlt _ h.1 _ h.2.1 (abs_pos.1 h.2.2))
  intro S j r hS hp hr
  have hSn : S ⊆ range n := fun s hs => mem_range.2 (hS s hs).lt_left
  have h1 := residual_spec hσ X (listOf n S) (X i)
  rw [listOf_toFinset hSn] at h1
  have hja := AvoidingPath.anc hp
  rw [hr.unique hσ h1 j (hja.lt_left.trans_le hnm)]
  have hmem : ∀ x, x ∈ listOf n S ↔ x ∈ S := by
    intro x
    rw [← List.mem_toFinset, listOf_toFinset hSn]
  refine h _ (List.mem_sublists.2 List.filter_sublist) (fun x hx => hanc x i (hS x ((hmem x).1 hx))) j (hanc j i hja) ?_
  change j ∉ listOf n S
  rw [hmem]
  unfold AvoidingPath at hp
  rw [Relation.TransGen.head'_iff] at hp
  obtain ⟨_, h', _⟩ := hp
  exact h'.2

/-- `0 → 1`, `0, 1 → 2`, `2 → 3`, and a hidden cause (source 5) of 3 and 4. -/
def exB : Nat → Nat → ℚ := weights [(1, 0, 1), (2, 0, 2), (2, 1, 1), (3, 2, 1)]
def exL : Nat → Nat → ℚ := weights [(3, 5, 1), (4, 5, 1)]
def exX : Nat → Nat → ℚ := rows [[1], [1, 1], [3, 1, 1], [3, 1, 1, 1, 0, 1], [0, 0, 0, 0, 1, 1]]

/-- C182, C183, C184: a model with a hidden cause, three variables (one with two parents) without hidden causes above them
and prior knowledge that excludes no true cause meets all hypotheses. -/
example : SourceModel 5 6 exB exL exX ∧ Acyclic (Edge 5 exB 0) ∧
    (∀ i, i < 5 → NoHiddenAbove 5 6 exB exL i → NoAccident 5 6 (fun _ => 1) exB exX i) ∧
    NoHiddenAbove 5 6 exB exL 2 ∧ exB 2 0 ≠ 0 ∧ exB 2 1 ≠ 0 ∧
    RightTests 5 6 (fun _ => 1) exX (popCfg 5 6 (fun _ => 1) exX (some [(4, 3), (2, 0)])) ∧
    ∀ i j, TrueAncestor 5 exB j i → (j, i) ∉ [(4, 3), (2, 0)] := by
  have hlt : ∀ a, a < 5 → ∀ b, b < 5 → exB b a ≠ 0 → a < b ∧ a ≠ 4 := by decide +kernel
  have hanc : ∀ a b, TrueAncestor 5 exB a b → a < b ∧ a ≠ 4 := by
    intro a b hab
    induction hab with
    | single h => exact hlt _ h.1 _ h.2.1 (abs_pos.1 h.2.2)
    | tail _ h ih => exact ⟨ih.1.trans (hlt _ h.1 _ h.2.1 (abs_pos.1 h.2.2)).1, ih.2⟩
  have hL : ∀ a, a < 5 → ∀ k, k < 6 → exL a k ≠ 0 → 3 ≤ a := by decide +kernel
  refine ⟨⟨by omega, by decide +kernel⟩, acyclic_of_lt (by decide +kernel), ?_, ?_, by decide +kernel, by decide +kernel,
    popCfg_right (fun _ _ => one_pos) 5 exX _, ?_⟩
  · intro i hi hc
    have hi3 : i < 3 := by
      by_contra h3
      have h5 : exL i 5 ≠ 0 := by
        have : ∀ a, a < 5 → 3 ≤ a → exL a 5 ≠ 0 := by decide +kernel
        exact this i hi (by omega)
      exact hc 5 ⟨le_rfl, by omega, i, hi, h5, Or.inl rfl⟩
    refine noAccident_of (fun _ _ => one_pos) (by omega) (fun a ha b hb h => (hlt a ha b hb h).1) ?_
    have : ∀ i, i < 3 → ∀ l ∈ (List.range 5).sublists, (∀ x ∈ l, x < i) → ∀ j, j < i → j ∉ l →
      residual 6 (fun _ => 1) exX l (exX i) j ≠ 0 := by decide +kernel
    exact this i hi3
  · rintro k ⟨_, hk, a, ha, hLa, h⟩
    have h3 := hL a ha k hk hLa
    rcases h with h | h
    · omega
    · have := (hanc a 2 h).1; omega
  · intro i j hij
    have := hanc j i hij
    simp only [List.mem_cons, Prod.mk.injEq, List.not_mem_nil, or_false]
    omega

/-- C183: the result on a model where one variable has two parents. -/
example : (fit (popCfg 3 3 (fun _ => 1) exX none) 3 2 20).map (fun r => (r.1 2, r.2 2 0, r.2 2 1, r.2 1 2)) =
    some ({0, 1}, some 1, some 1, some 0) := by
  decide +kernel

end Verif.Camuv
