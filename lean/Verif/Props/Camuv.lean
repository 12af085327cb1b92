import Verif.Proofs.Camuv
import Verif.Props.Rcd
import Mathlib.Tactic.IntervalCases

/-!
# CAM-UV and its multi-group variant (C28–C30, C60)

`c : Cfg` ranges over every configuration, every data set (through the values of the independence measure) and every
iteration order of Python sets.
-/
set_option linter.unusedSectionVars false
set_option autoImplicit false
namespace Verif.Camuv

variable {K : Type} [LinearOrder K] [Zero K] [One K]

open Rcd (Anc size)

theorem good_empty (c : Cfg K) (N : Anc) (d maxnum : Nat) : Good c N d maxnum (fun _ => ∅) :=
  ⟨by simp, by simp, by simp, by simp, by simp⟩

theorem search_terminates {c : Cfg K} (hiter : ∀ l, (c.iter l).Perm l) (d maxnum : Nat) :
    ∃ P, (∀ fuel, (d * d + 1) * max 2 maxnum ≤ fuel → loop c (neighborhoods c d) d maxnum fuel 2 (fun _ => ∅) = some P) ∧
      Good c (neighborhoods c d) d maxnum P := by
  have hsz : size d (fun _ => ∅) = 0 := by simp [size]
  obtain ⟨P, h1, h2⟩ := loop_terminates hiter ((d * d + 1) * max 2 maxnum) 2 (fun _ => ∅)
    (good_empty c (neighborhoods c d) d maxnum) le_rfl (le_max_left _ _)
    (by rw [hsz, Nat.sub_zero, Nat.add_mul, one_mul]; omega)
  refine ⟨P, ?_, h2⟩
  intro fuel hf
  induction fuel, hf using Nat.le_induction with
  | base => exact h1
  | succ f _ ih => exact loop_fuel ih

theorem loop_up {c : Cfg K} {N : Anc} {d maxnum t : Nat} {P P' : Anc} {f : Nat} (k : Nat)
    (h : loop c N d maxnum f t P = some P') : loop c N d maxnum (f + k) t P = some P' := by
  induction k with
  | zero => exact h
  | succ k ih => exact loop_fuel ih

theorem search_good {c : Cfg K} (hiter : ∀ l, (c.iter l).Perm l) {d maxnum fuel : Nat} {P : Anc}
    (h : loop c (neighborhoods c d) d maxnum fuel 2 (fun _ => ∅) = some P) : Good c (neighborhoods c d) d maxnum P := by
  obtain ⟨P', h1, h2⟩ := search_terminates hiter d maxnum
  have e1 := loop_up ((d * d + 1) * max 2 maxnum) h
  rw [h1 _ (by omega)] at e1
  cases e1
  exact h2

/-- The two variables were found dependent in the first stage (tested once, in the order of their indices). -/
def Dependent (c : Cfg K) (a b : Nat) : Prop := isInd c (c.val (min a b) ∅ [(max a b, ∅)]) = false

theorem dependent_of_mem {c : Cfg K} {d i j : Nat} (h : j ∈ neighborhoods c d i) : Dependent c i j := by
  unfold Dependent
  rcases mem_neighborhoods.1 h with ⟨h1, _, h2⟩ | ⟨h1, _, h2⟩
  · rwa [min_eq_left h1.le, max_eq_right h1.le]
  · rwa [min_eq_right h1.le, max_eq_left h1.le]

/-- C28: the parent search terminates (within `(d² + 1) · max(2, num_explanatory_vals)` passes) with a result that does
not depend on the fuel; parents are variables, nothing is its own parent, no two variables are parents of each other,
parents are marginally dependent on their child and never excluded by the prior knowledge. -/
theorem C28_parents_terminate {c : Cfg K} (hiter : ∀ l, (c.iter l).Perm l) (d maxnum : Nat) :
    ∃ P, (∀ fuel, (d * d + 1) * max 2 maxnum ≤ fuel → findParents c d maxnum fuel = some P) ∧
      (∀ i j, j ∈ P i → i < d ∧ j < d) ∧ (∀ i, i ∉ P i) ∧ (∀ i j, j ∈ P i → i ∉ P j) ∧
      (∀ i j, j ∈ P i → Dependent c i j) ∧ (∀ ps, c.prior = some ps → ∀ i j, j ∈ P i → (j, i) ∉ ps) := by
  obtain ⟨P, h1, h2⟩ := search_terminates hiter d maxnum
  have hsub : ∀ k, prune c d P k ⊆ P k := foldl_prune_subset c _ _
  refine ⟨prune c d P, ?_, ?_, ?_, ?_, ?_, ?_⟩
  · intro fuel hf
    unfold findParents
    rw [h1 fuel hf]
  · exact fun i j h => h2.range i j (hsub i h)
  · exact fun i h => h2.asymm i i (hsub i h) (hsub i h)
  · exact fun i j h h' => h2.asymm i j (hsub i h) (hsub j h')
  · exact fun i j h => dependent_of_mem (h2.nbr i j (hsub i h))
  · exact fun ps hps i j h h' => h2.prior i j (hsub i h) ⟨ps, hps, h'⟩

/-- C28: every parent is backed by tests. There are parents `Q` of the search stage such that `j ∈ P i` exactly if
`j ∈ Q i` and the residual of `i` on `Q i \ {j}` is dependent on the residual of `j`; and every `j ∈ Q i` comes from a
set `V` of at most `max(2, num_explanatory_vals)` variables and parents `P0` known at the time such that the residual of
`i` on `V \ {i}` and `P0 i` is independent of the others' residuals, with a value at least as good as that of any other
admissible child in `V`, while without `V \ {i}` the residual of `i` depends on each of them. -/
theorem C28_parents_justified {c : Cfg K} (hiter : ∀ l, (c.iter l).Perm l) {d maxnum fuel : Nat} {P : Anc}
    (h : findParents c d maxnum fuel = some P) :
    ∃ Q : Anc,
      (∀ i j, i < d → (j ∈ P i ↔ j ∈ Q i ∧ isInd c (c.val i (Q i \ {j}) [(j, if j < i then P j else Q j)]) = false)) ∧
      ∀ i j, j ∈ Q i → ∃ (V : List Nat) (P0 : Anc) (v : K), V.Sublist (List.range d) ∧ 2 ≤ V.length ∧
        V.length ≤ max 2 maxnum ∧ i ∈ V ∧ j ∈ V ∧ j ≠ i ∧ (∀ k, P0 k ⊆ Q k) ∧
        c.val i ((V.filter (fun x => decide (x ≠ i))).toFinset ∪ P0 i)
          ((V.filter (fun x => decide (x ≠ i))).map (fun p => (p, P0 p))) = some v ∧
        isInd c (some v) = true ∧
        (∀ p ∈ V, p ≠ i → isInd c (c.val i (P0 i) [(p, P0 p)]) = false) ∧
        ∀ x ∈ V, (∀ p ∈ V, p ≠ x → ¬ Forbidden c p x ∧ Dependent c p x) →
          isIndBy c (c.val x ((V.filter (fun y => decide (y ≠ x))).toFinset ∪ P0 x)
            ((V.filter (fun y => decide (y ≠ x))).map (fun p => (p, P0 p)))) v = false := by
  unfold findParents at h
  cases hl : loop c (neighborhoods c d) d maxnum fuel 2 (fun _ => ∅) with
  | none => rw [hl] at h; cases h
  | some Q =>
    rw [hl] at h
    simp only [Option.some.injEq] at h
    subst h
    have hg := search_good hiter hl
    refine ⟨Q, ?_, ?_⟩
    · intro i j hi
      by_cases hij : i = j
      · subst hij
        have h1 : i ∉ Q i := fun h => hg.asymm i i h h
        have h2 : i ∉ prune c d Q i := fun h => h1 (foldl_prune_subset c _ _ i h)
        simp [h1, h2]
      · exact mem_prune hi hij
    · intro i j hj
      obtain ⟨V, P0, v, h1, h2, h3, h4, h5, h6, h7, h8, h9, h10, h11⟩ := hg.just i j hj
      refine ⟨V, P0, v, h1, h2, h3, h4, h5, h6, h7, h8, h9, h10, ?_⟩
      intro x hx hel
      refine h11 x hx ⟨hx, fun p hp hpx => ⟨(hel p hp hpx).1, ?_⟩⟩
      have hlt : ∀ y ∈ V, y < d := fun y hy => List.mem_range.1 (h1.subset hy)
      have hd := (hel p hp hpx).2
      unfold Dependent at hd
      rw [mem_neighborhoods]
      rcases lt_or_gt_of_ne hpx with hlt' | hlt'
      · rw [min_eq_left hlt'.le, max_eq_right hlt'.le] at hd
        exact Or.inr ⟨hlt', hlt x hx, hd⟩
      · rw [min_eq_right hlt'.le, max_eq_left hlt'.le] at hd
        exact Or.inl ⟨hlt', hlt p hp, hd⟩

theorem mem_any_pair {U : List (List Nat)} (hU : ∀ p ∈ U, p.length = 2) {i j : Nat} :
    U.any (fun p => (decide (p.getD 0 0 = i) && decide (p.getD 1 0 = j)) ||
      (decide (p.getD 1 0 = i) && decide (p.getD 0 0 = j))) = true ↔ [i, j] ∈ U ∨ [j, i] ∈ U := by
  rw [List.any_eq_true]
  constructor
  · rintro ⟨p, hp, h⟩
    obtain ⟨a, b, rfl⟩ := List.length_eq_two.1 (hU p hp)
    simp only [List.getD_cons_zero, List.getD_cons_succ, Bool.or_eq_true, Bool.and_eq_true, decide_eq_true_eq] at h
    rcases h with ⟨rfl, rfl⟩ | ⟨rfl, rfl⟩
    · exact Or.inl hp
    · exact Or.inr hp
  · rintro (h | h)
    · exact ⟨_, h, by simp⟩
    · exact ⟨_, h, by simp⟩

/-- C29: the adjacency matrix has NaN exactly at the pairs (in both directions) of variables that are dependent, are not
in a parent relation, and whose residuals given their parents are dependent; 1 exactly at the parents; 0 elsewhere. The
three cases exclude each other by definition of the first. -/
theorem C29_matrix {c : Cfg K} {d maxnum fuel : Nat} {P : Anc} {B : Nat → Nat → Option ℚ}
    (h : fit c d maxnum fuel = some (P, B)) {i j : Nat} (hi : i < d) (hj : j < d) :
    (B i j = none ↔ i ≠ j ∧ i ∉ P j ∧ j ∉ P i ∧ Dependent c i j ∧
      isInd c (c.val (min i j) (P (min i j)) [(max i j, P (max i j))]) = false) ∧
    (B i j = some 1 ↔ j ∈ P i) ∧ (B i j = none ∨ B i j = some 0 ∨ B i j = some 1) := by
  unfold fit at h
  cases hf : findParents c d maxnum fuel with
  | none => rw [hf] at h; cases h
  | some P' =>
    rw [hf] at h
    simp only [Option.some.injEq, Prod.mk.injEq] at h
    obtain ⟨rfl, rfl⟩ := h
    have hlen : ∀ p ∈ confoundedPairs c d (neighborhoods c d) P', p.length = 2 := fun p hp =>
      (Rcd.mem_combos.1 (List.mem_filter.1 hp).1).2
    have hmem : ∀ a b, [a, b] ∈ confoundedPairs c d (neighborhoods c d) P' ↔ a < b ∧ b < d ∧ a ∉ P' b ∧ b ∉ P' a ∧
        Dependent c a b ∧ isInd c (c.val a (P' a) [(b, P' b)]) = false := by
      intro a b
      unfold confoundedPairs
      rw [List.mem_filter, Rcd.mem_combos, Rcd.pair_sublist_range]
      unfold confounded
      simp only [List.getD_cons_zero, List.getD_cons_succ, Bool.and_eq_true, Bool.not_eq_true', Bool.or_eq_false_iff,
        decide_eq_false_iff_not, not_not, List.length_cons, List.length_nil, and_true]
      constructor
      · rintro ⟨⟨h1, h2⟩, ⟨⟨h3, h4⟩, h5, h6⟩, h7⟩
        exact ⟨h1, h2, h3, h4, dependent_of_mem h6, h7⟩
      · rintro ⟨h1, h2, h3, h4, h5, h6⟩
        have hn : b ∈ neighborhoods c d a := by
          unfold Dependent at h5
          rw [min_eq_left h1.le, max_eq_right h1.le] at h5
          exact mem_neighborhoods.2 (Or.inl ⟨h1, h2, h5⟩)
        exact ⟨⟨h1, h2⟩, ⟨⟨h3, h4⟩, neighborhoods_symm hn, hn⟩, h6⟩
    have hDs : ∀ a b, Dependent c a b ↔ Dependent c b a := by
      intro a b; unfold Dependent; rw [min_comm, max_comm]
    have hU : [i, j] ∈ confoundedPairs c d (neighborhoods c d) P' ∨ [j, i] ∈ confoundedPairs c d (neighborhoods c d) P' ↔
        i ≠ j ∧ i ∉ P' j ∧ j ∉ P' i ∧ Dependent c i j ∧
        isInd c (c.val (min i j) (P' (min i j)) [(max i j, P' (max i j))]) = false := by
      rw [hmem, hmem]
      constructor
      · rintro (⟨h1, h2, h3, h4, h5, h6⟩ | ⟨h1, h2, h3, h4, h5, h6⟩)
        · refine ⟨h1.ne, h3, h4, h5, ?_⟩
          rwa [min_eq_left h1.le, max_eq_right h1.le]
        · refine ⟨h1.ne', h4, h3, (hDs _ _).1 h5, ?_⟩
          rwa [min_eq_right h1.le, max_eq_left h1.le]
      · rintro ⟨h1, h2, h3, h4, h5⟩
        rcases lt_or_gt_of_ne h1 with hlt | hlt
        · rw [min_eq_left hlt.le, max_eq_right hlt.le] at h5
          exact Or.inl ⟨hlt, hj, h2, h3, h4, h5⟩
        · rw [min_eq_right hlt.le, max_eq_left hlt.le] at h5
          exact Or.inr ⟨hlt, hi, h3, h2, (hDs _ _).1 h4, h5⟩
    unfold adjacency
    simp only [mem_any_pair hlen]
    by_cases hc : [i, j] ∈ confoundedPairs c d (neighborhoods c d) P' ∨ [j, i] ∈ confoundedPairs c d (neighborhoods c d) P'
    · rw [if_pos hc]
      rw [hU] at hc
      simp [hc]
    · rw [if_neg hc]
      rw [hU] at hc
      by_cases hp : j ∈ P' i
      · simp [hp]
      · rw [if_neg hp]
        refine ⟨⟨fun h => (by cases h), fun h => absurd h hc⟩, ⟨fun h => ?_, fun h => absurd h hp⟩, Or.inr (Or.inl rfl)⟩
        simp at h

/-! ### Acyclicity -/

/-- The directed edges of the matrix. -/
def Directed (d : Nat) (B : Nat → Nat → Option ℚ) (a b : Nat) : Prop := a < d ∧ b < d ∧ B b a = some 1

theorem fit_good {c : Cfg K} (hiter : ∀ l, (c.iter l).Perm l) {d maxnum fuel : Nat} {P : Anc} {B : Nat → Nat → Option ℚ}
    (h : fit c d maxnum fuel = some (P, B)) : (∀ i j, j ∈ P i → i ∉ P j) ∧ (∀ i j, j ∈ P i → Dependent c i j) ∧
      (∀ i j, j ∈ P i → ¬ Forbidden c j i) := by
  have hf : findParents c d maxnum fuel = some P := by
    unfold fit at h
    cases hf : findParents c d maxnum fuel with
    | none => rw [hf] at h; cases h
    | some P' => rw [hf] at h; simp only [Option.some.injEq, Prod.mk.injEq] at h; rw [h.1]
  unfold findParents at hf
  cases hl : loop c (neighborhoods c d) d maxnum fuel 2 (fun _ => ∅) with
  | none => rw [hl] at hf; cases hf
  | some Q =>
    rw [hl] at hf
    simp only [Option.some.injEq] at hf
    subst hf
    have hg := search_good hiter hl
    have hsub : ∀ k, prune c d Q k ⊆ Q k := foldl_prune_subset c _ _
    exact ⟨fun i j h h' => hg.asymm i j (hsub i h) (hsub j h'), fun i j h => dependent_of_mem (hg.nbr i j (hsub i h)),
      fun i j h => hg.prior i j (hsub i h)⟩

/-- C30 (partial): the graph has no cycle of length one or two, and it is acyclic if the user's prior knowledge leaves
only an acyclic relation of possible causes (among dependent variables). Missing: longer cycles without such prior
knowledge, which can occur (next theorem). -/
theorem C30_acyclic_partial {c : Cfg K} (hiter : ∀ l, (c.iter l).Perm l) {d maxnum fuel : Nat} {P : Anc}
    {B : Nat → Nat → Option ℚ} (h : fit c d maxnum fuel = some (P, B)) :
    (∀ a b, ¬ Directed d B a a ∧ ¬ (Directed d B a b ∧ Directed d B b a)) ∧
    (Acyclic (fun a b => a < d ∧ b < d ∧ Dependent c b a ∧ ¬ Forbidden c a b) → Acyclic (Directed d B)) := by
  obtain ⟨h1, h2, h3⟩ := fit_good hiter h
  have key : ∀ a b, Directed d B a b → a ∈ P b := fun a b hab => (C29_matrix h hab.2.1 hab.1).2.1.1 hab.2.2
  refine ⟨fun a b => ⟨fun haa => h1 a a (key a a haa) (key a a haa), fun hab => h1 b a (key _ _ hab.1) (key _ _ hab.2)⟩, ?_⟩
  intro hac i hi
  refine hac i (Relation.TransGen.mono ?_ i i hi)
  exact fun a b hab => ⟨hab.1, hab.2.1, h2 b a (key a b hab), h3 b a (key a b hab)⟩

/-- Test values on three variables: regressing on the other member of the pair makes 1 independent of 0, 2 of 1 and 0
of 2; everything else is dependent. -/
def cycCfg : Cfg where
  hsic := true
  alpha := 1 / 100
  indCorr := 1 / 2
  prior := none
  val a A l := match l with
    | [(p, _)] => if p ∈ A ∧ ((a = 1 ∧ p = 0) ∨ (a = 2 ∧ p = 1) ∨ (a = 0 ∧ p = 2)) then some (1 / 2) else some 0
    | _ => some 0
  iter l := l

/-- C30 (violated): for some values of the independence measure the estimated graph is the cycle `0 → 1 → 2 → 0`. -/
theorem C30_cycle_possible : ∃ (c : Cfg) (P : Anc) (B : Nat → Nat → Option ℚ), (∀ l, (c.iter l).Perm l) ∧
    fit c 3 2 20 = some (P, B) ∧ Directed 3 B 0 1 ∧ Directed 3 B 1 2 ∧ Directed 3 B 2 0 := by
  have key : (fit cycCfg 3 2 20).map (fun r => (r.2 1 0, r.2 2 1, r.2 0 2)) = some (some 1, some 1, some 1) := by
    decide +kernel
  cases hf : fit cycCfg 3 2 20 with
  | none => rw [hf] at key; cases key
  | some r =>
    obtain ⟨P, B⟩ := r
    rw [hf] at key
    simp only [Option.map_some, Option.some.injEq, Prod.mk.injEq] at key
    exact ⟨cycCfg, P, B, fun l => List.Perm.refl l, hf, ⟨by omega, by omega, key.1⟩, ⟨by omega, by omega, key.2.1⟩,
      ⟨by omega, by omega, key.2.2⟩⟩

/-! ### The number of explanatory variables -/

/-- C60 (partial): parents are only ever found in sets of at most `max(2, num_explanatory_vals)` variables *including the
child*, so the settings 1 and 2 are the same. -/
theorem C60_one_equals_two_partial (c : Cfg K) (d fuel : Nat) : fit c d 1 fuel = fit c d 2 fuel := by
  have hl : ∀ (fuel t : Nat) (P : Anc), 2 ≤ t →
      loop c (neighborhoods c d) d 1 fuel t P = loop c (neighborhoods c d) d 2 fuel t P := by
    intro fuel
    induction fuel with
    | zero => intros; rfl
    | succ f ih =>
      intro t P ht
      unfold loop
      simp only
      split
      · exact ih 2 _ le_rfl
      · rw [if_pos (by omega), if_pos (by omega)]
  unfold fit findParents
  rw [hl fuel 2 _ le_rfl]

/-- Test values on three variables: 2 becomes independent of 0 and 1 only when both are regressed out together. -/
def jointCfg (k : Nat) : Cfg where
  hsic := true
  alpha := 1 / 100
  indCorr := 1 / 2
  prior := none
  val a A l := if a = k ∧ l.length = 2 ∧ A.card = 2 then some (1 / 2) else some 0
  iter l := l

/-- C60 (violated): a child whose two parents only explain it together is missed with `num_explanatory_vals = 2` (its
documented meaning is two explanatory variables) and found with 3. -/
theorem C60_two_explanatory_variables_not_tried :
    (fit (jointCfg 2) 3 2 40).map (fun r => (r.2 2 0, r.2 2 1)) = some (none, none) ∧
    (fit (jointCfg 2) 3 3 40).map (fun r => (r.2 2 0, r.2 2 1)) = some (some 1, some 1) := by
  constructor <;> decide +kernel

/-! ### Concrete cases meeting the hypotheses -/

/-- C28: prior knowledge "0 is not a cause of 1" changes the result of `cycCfg`: the edge disappears. -/
example : (fit { cycCfg with prior := some [(0, 1)] } 3 2 20).map (fun r => (r.1 1, r.1 2, r.1 0)) = some (∅, {1}, {2}) := by
  decide +kernel

/-- C29: a matrix with a NaN pair and an edge. -/
example : (fit { cycCfg with prior := some [(0, 1)] } 3 2 20).map (fun r => (r.2 1 0, r.2 0 1, r.2 2 1, r.2 1 1)) =
    some (none, none, some 1, some 0) := by
  decide +kernel

/-- C30: prior knowledge that excludes every cause with a larger index than its effect. -/
example : ∃ c : Cfg, (∀ l, (c.iter l).Perm l) ∧ (fit c 3 2 20).map (fun r => (r.2 1 0, r.2 2 1)) = some (some 1, some 1) ∧
    Acyclic (fun a b => a < 3 ∧ b < 3 ∧ Dependent c b a ∧ ¬ Forbidden c a b) := by
  refine ⟨{ cycCfg with prior := some [(0, 0), (1, 0), (2, 0), (1, 1), (2, 1), (2, 2)] }, fun l => List.Perm.refl l,
    by decide +kernel, ?_⟩
  have hlt : ∀ a b, Relation.TransGen (fun a b => a < 3 ∧ b < 3 ∧ Dependent { cycCfg with
      prior := some [(0, 0), (1, 0), (2, 0), (1, 1), (2, 1), (2, 2)] } b a ∧ ¬ Forbidden { cycCfg with
      prior := some [(0, 0), (1, 0), (2, 0), (1, 1), (2, 1), (2, 2)] } a b) a b → a < b := by
    have step : ∀ a b, a < 3 → b < 3 → ¬ Forbidden { cycCfg with
      prior := some [(0, 0), (1, 0), (2, 0), (1, 1), (2, 1), (2, 2)] } a b → a < b := by
      intro a b ha hb h
      by_contra hc
      refine h ⟨_, rfl, ?_⟩
      interval_cases a <;> interval_cases b <;> simp_all
    intro a b h
    induction h with
    | single h => exact step _ _ h.1 h.2.1 h.2.2.2
    | tail _ h ih => exact ih.trans (step _ _ h.1 h.2.1 h.2.2.2)
  intro i hi
  exact lt_irrefl _ (hlt i i hi)

end Verif.Camuv
