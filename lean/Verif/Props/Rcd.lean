import Verif.Proofs.Rcd
import Verif.Props.Paths

/-!
# RCD and its multi-group variant (C25–C27, C59)

`t : Tests` ranges over every behaviour of the statistical tests on every data set (or list of data sets).
-/
set_option linter.unusedSectionVars false
set_option autoImplicit false
namespace Verif.Rcd

theorem good_empty (t : Tests) (n maxNum : Nat) : Good t n maxNum (fun _ => ∅) :=
  ⟨by simp, by simp, by simp⟩

/-- C25: the ancestor search terminates (within `n² · max + max` passes), its result does not depend on how much longer
one waits, all recorded indices are variables, nothing is its own ancestor and no two variables are ancestors of each
other. -/
theorem C25_ancestors_terminate (t : Tests) (n : Nat) {maxNum : Nat} (hm : 0 < maxNum) :
    ∃ M, (∀ fuel, n * n * maxNum + maxNum ≤ fuel → extractAncestors t n maxNum fuel = some M) ∧
      (∀ i j, j ∈ M i → i < n ∧ j < n) ∧ (∀ i, i ∉ M i) ∧ ∀ i j, j ∈ M i → i ∉ M j := by
  have hsz : size n (fun _ => ∅) = 0 := by simp [size]
  obtain ⟨M, h1, h2⟩ := loop_terminates (n * n * maxNum + maxNum) 1 ⟨fun _ => ∅, [], false⟩
    (good_empty t n maxNum) le_rfl hm (by rw [hsz, Nat.sub_zero]; omega)
  refine ⟨M, ?_, h2.range, h2.irrefl, h2.asymm⟩
  intro fuel hf
  induction fuel, hf using Nat.le_induction with
  | base => exact h1
  | succ f _ ih => exact loop_fuel ih

theorem extract_good {t : Tests} {n maxNum fuel : Nat} (hm : 0 < maxNum) {M : Anc}
    (h : extractAncestors t n maxNum fuel = some M) : Good t n maxNum M := by
  have hsz : size n (fun _ => ∅) = 0 := by simp [size]
  obtain ⟨M', h1, h2⟩ := loop_terminates (n * n * maxNum + maxNum) 1 ⟨fun _ => ∅, [], false⟩
    (good_empty t n maxNum) le_rfl hm (by rw [hsz, Nat.sub_zero]; omega)
  have up : ∀ {f : Nat} {N : Anc} (k : Nat), extractAncestors t n maxNum f = some N →
      extractAncestors t n maxNum (f + k) = some N := by
    intro f N k hf
    induction k with
    | zero => exact hf
    | succ k ih => exact loop_fuel ih
  have e1 := up (n * n * maxNum + maxNum) h
  have e2 := up fuel (show extractAncestors t n maxNum (n * n * maxNum + maxNum) = some M' from h1)
  rw [Nat.add_comm, e2] at e1
  cases e1
  exact h2

/-- C25: every recorded ancestor is backed by tests: there is a set `U` of at most `max_explanatory_num + 1` variables
containing both, and a set `H` of recorded common ancestors of `U`, such that given `H` all of `U` are non-Gaussian and
pairwise correlated, the residual of `i` on the rest of `U` is independent of them, and no other member of `U` is a
possible sink (its test fails, or it is a recorded ancestor in `U`, or all others are its ancestors). -/
theorem C25_ancestors_justified {t : Tests} {n maxNum fuel : Nat} (hm : 0 < maxNum) {M : Anc}
    (h : extractAncestors t n maxNum fuel = some M) (i j : Nat) (hj : j ∈ M i) :
    ∃ (U : List Nat) (H : Finset Nat), U.Sublist (List.range n) ∧ 2 ≤ U.length ∧ U.length ≤ maxNum + 1 ∧ i ∈ U ∧ j ∈ U ∧
      j ≠ i ∧ (∀ h ∈ H, ∀ x ∈ U, h ∈ M x) ∧ (∀ x ∈ U, t.nonGauss H x = true) ∧
      (∀ a b, [a, b].Sublist U → t.corr H a H b = true) ∧ t.indep H i (U.filter (fun x => decide (x ≠ i))) = true ∧
      ∀ x ∈ U, x ≠ i → t.indep H x (U.filter (fun y => decide (y ≠ x))) = false ∨ (∃ y ∈ U, y ≠ x ∧ x ∈ M y) ∨
        ∀ y ∈ U, y ≠ x → y ∈ M x :=
  (extract_good hm h).just i j hj

/-- C26: structure of the result of `fit`, in terms of the observable ancestors and matrix only:
NaN entries are symmetric and off the diagonal, the NaN partner of a pair has no directed edge, entries other than 0
and NaN only occur for ancestors, and no two variables have edges in both directions. -/
theorem C26_matrix_structure {t : Tests} {coef : Coef} {n maxNum fuel : Nat} (hm : 0 < maxNum) {M : Anc}
    {B : Nat → Nat → Option ℚ} (h : fit t coef n maxNum fuel = some (M, B)) {i j : Nat} (hi : i < n) (hj : j < n) :
    (B i j = none → B j i = none) ∧ B i i = some 0 ∧
      (∀ v, B i j = some v → v ≠ 0 → j ∈ M i ∧ B j i = some 0) := by
  unfold fit at h
  cases hM : extractAncestors t n maxNum fuel with
  | none => simp [hM] at h
  | some M' =>
    simp only [hM, Option.some.injEq, Prod.mk.injEq] at h
    obtain ⟨rfl, rfl⟩ := h
    have hg := extract_good hm hM
    generalize hP : extractParents t n M' = P
    have hPM : ∀ a b, b ∈ P a → b ∈ M' a := by
      intro a b hb
      rw [← hP] at hb
      unfold extractParents at hb
      split at hb
      · exact (Finset.mem_filter.1 hb).1
      · simp at hb
    have hsymm : ∀ a b, b ∈ extractConfounded t n P a → a ∈ extractConfounded t n P b := by
      intro a b hb
      rw [mem_extractConfounded] at hb ⊢
      exact hb.symm
    have hdis : ∀ a b, b ∈ P a → a ∉ extractConfounded t n P b := by
      intro a b hb hc
      rcases mem_extractConfounded.1 hc with ⟨_, _, h⟩ | ⟨_, _, h⟩
      · exact h.1 hb
      · exact h.2.1 hb
    unfold adjacency
    simp only [hi, hj, if_true]
    refine ⟨?_, ?_, ?_⟩
    · intro h
      split at h
      · rename_i hc; rw [if_pos (hsymm _ _ hc)]
      · split at h <;> cases h
    · rw [if_neg, if_neg]
      · intro hc; exact hg.irrefl i (hPM _ _ hc)
      · intro hc
        rcases mem_extractConfounded.1 hc with ⟨h, _⟩ | ⟨h, _⟩ <;> omega
    · intro v hv hv0
      split at hv
      · cases hv
      · split at hv
        · rename_i hp
          refine ⟨hPM _ _ hp, ?_⟩
          rw [if_neg (hdis _ _ hp), if_neg]
          intro hq
          exact hg.asymm i j (hPM _ _ hp) (hPM _ _ hq)
        · cases hv; exact absurd rfl hv0

/-- C26: exactly when an entry is NaN. `P i` are the variables with `j ∈ P i` iff `j` passed the parent test. -/
theorem C26_nan_iff {t : Tests} {coef : Coef} {n maxNum fuel : Nat} {M : Anc} {B : Nat → Nat → Option ℚ}
    (h : fit t coef n maxNum fuel = some (M, B)) {i j : Nat} (hi : i < n) (hj : j < n) (hij : i < j) :
    (B i j = none ∧ B j i = none ↔ ∃ P : Nat → Finset Nat,
      (∀ a b, a < n → (b ∈ P a ↔ b ∈ M a ∧ t.corr (M a ∩ M b) b (M a \ {b}) a = true)) ∧
      i ∉ P j ∧ j ∉ P i ∧ t.corr (P i) i (P j) j = true) := by
  unfold fit at h
  cases hM : extractAncestors t n maxNum fuel with
  | none => simp [hM] at h
  | some M' =>
    simp only [hM, Option.some.injEq, Prod.mk.injEq] at h
    obtain ⟨rfl, rfl⟩ := h
    have hPs : ∀ a b, a < n → (b ∈ extractParents t n M' a ↔ b ∈ M' a ∧ t.corr (M' a ∩ M' b) b (M' a \ {b}) a = true) := by
      intro a b ha
      unfold extractParents isParent
      rw [if_pos ha, Finset.mem_filter]
    have hB : ∀ a b, a < n → (adjacency coef n (extractParents t n M') (extractConfounded t n (extractParents t n M')) a b = none
        ↔ b ∈ extractConfounded t n (extractParents t n M') a) := by
      intro a b ha
      unfold adjacency
      simp only [ha, if_true]
      split
      · simpa
      · rename_i hc
        simp only [hc, iff_false]
        split <;> simp
    rw [hB i j hi, hB j i hj, mem_extractConfounded, mem_extractConfounded]
    constructor
    · rintro ⟨(⟨_, _, h⟩ | ⟨h, _⟩), _⟩
      · exact ⟨_, hPs, h⟩
      · omega
    · rintro ⟨P, hP, h1, h2, h3⟩
      have e : ∀ a, a < n → P a = extractParents t n M' a := by
        intro a ha; ext b; rw [hP a b ha, hPs a b ha]
      rw [e i hi] at h2 h3
      rw [e j hj] at h1 h3
      exact ⟨Or.inl ⟨hij, hj, h1, h2, h3⟩, Or.inr ⟨hij, hj, h1, h2, h3⟩⟩

/-- C26, multi-group: matrices fitted for different data sets with the same tests have the same NaN entries and the same
entries forced to zero (those that are not parents). -/
theorem C26_same_pattern {t : Tests} {coef coef' : Coef} {n maxNum fuel : Nat} {M M' : Anc} {B B' : Nat → Nat → Option ℚ}
    (h : fit t coef n maxNum fuel = some (M, B)) (h' : fit t coef' n maxNum fuel = some (M', B')) :
    M = M' ∧ ∀ i j, (B i j = none ↔ B' i j = none) := by
  unfold fit at h h'
  cases hM : extractAncestors t n maxNum fuel with
  | none => simp [hM] at h
  | some M0 =>
    simp only [hM, Option.some.injEq, Prod.mk.injEq] at h h'
    obtain ⟨rfl, rfl⟩ := h
    obtain ⟨rfl, rfl⟩ := h'
    refine ⟨rfl, fun i j => ?_⟩
    unfold adjacency
    repeat' split
    all_goals simp

/-! ### Acyclicity -/

/-- The directed edges: entries that are numbers different from zero. -/
def Directed (n : Nat) (B : Nat → Nat → Option ℚ) (a b : Nat) : Prop :=
  a < n ∧ b < n ∧ ∃ v, B b a = some v ∧ v ≠ 0

/-- C27 (partial): no cycle of length one or two. Missing: longer cycles, which can occur (next theorem). -/
theorem C27_no_short_cycles_partial {t : Tests} {coef : Coef} {n maxNum fuel : Nat} (hm : 0 < maxNum) {M : Anc}
    {B : Nat → Nat → Option ℚ} (h : fit t coef n maxNum fuel = some (M, B)) (a b : Nat) :
    ¬ Directed n B a a ∧ ¬ (Directed n B a b ∧ Directed n B b a) := by
  constructor
  · rintro ⟨ha, _, v, hv, hv0⟩
    have := (C26_matrix_structure hm h ha ha).2.1
    rw [hv] at this
    cases this
    exact hv0 rfl
  · rintro ⟨⟨ha, hb, v, hv, hv0⟩, ⟨_, _, w, hw, hw0⟩⟩
    have := ((C26_matrix_structure hm h hb ha).2.2 v hv hv0).2
    rw [hw] at this
    cases this
    exact hw0 rfl

/-- C27: with recorded ancestors that are transitively closed the result is acyclic. -/
theorem C27_acyclic_if_transitive_partial {t : Tests} {coef : Coef} {n maxNum fuel : Nat} (hm : 0 < maxNum) {M : Anc}
    {B : Nat → Nat → Option ℚ} (h : fit t coef n maxNum fuel = some (M, B))
    (htr : ∀ i j k, j ∈ M i → k ∈ M j → k ∈ M i) : Acyclic (Directed n B) := by
  have hM : extractAncestors t n maxNum fuel = some M := by
    unfold fit at h
    cases hM : extractAncestors t n maxNum fuel with
    | none => simp [hM] at h
    | some M0 => simp only [hM, Option.some.injEq, Prod.mk.injEq] at h; rw [h.1]
  have hT : ∀ a b, Relation.TransGen (Directed n B) a b → a ∈ M b := by
    intro a b hab
    induction hab with
    | single h' =>
      obtain ⟨ha, hb, v, hv, hv0⟩ := h'
      exact ((C26_matrix_structure hm h hb ha).2.2 v hv hv0).1
    | tail _ h' ih =>
      obtain ⟨ha, hb, v, hv, hv0⟩ := h'
      exact htr _ _ _ ((C26_matrix_structure hm h hb ha).2.2 v hv hv0).1 ih
  intro i hi
  exact (extract_good hm hM).irrefl i (hT i i hi)

/-- Outcomes of the tests on three variables that make 1 a sink of {0,1}, 2 a sink of {1,2} and 0 a sink of {0,2}. -/
def cycTests : Tests where
  nonGauss _ _ := true
  corr _ _ _ _ := true
  indep _ x l := decide ((x = 1 ∧ l = [0]) ∨ (x = 2 ∧ l = [1]) ∨ (x = 0 ∧ l = [2]))

/-- C27 (violated): for some outcomes of the tests the estimated graph is the cycle `0 → 1 → 2 → 0`. -/
theorem C27_cycle_possible : ∃ (t : Tests) (coef : Coef) (M : Anc) (B : Nat → Nat → Option ℚ),
    fit t coef 3 2 20 = some (M, B) ∧ Directed 3 B 0 1 ∧ Directed 3 B 1 2 ∧ Directed 3 B 2 0 := by
  have key : (fit cycTests (fun _ _ _ => (1 : ℚ)) 3 2 20).map (fun r => (r.2 1 0, r.2 2 1, r.2 0 2)) =
      some (some 1, some 1, some 1) := by decide +kernel
  cases hf : fit cycTests (fun _ _ _ => (1 : ℚ)) 3 2 20 with
  | none => rw [hf] at key; cases key
  | some r =>
    obtain ⟨M, B⟩ := r
    rw [hf] at key
    simp only [Option.map_some, Option.some.injEq, Prod.mk.injEq] at key
    exact ⟨cycTests, fun _ _ _ => 1, M, B, hf, ⟨by omega, by omega, 1, key.1, one_ne_zero⟩,
      ⟨by omega, by omega, 1, key.2.1, one_ne_zero⟩, ⟨by omega, by omega, 1, key.2.2, one_ne_zero⟩⟩

/-! ### Total effects stored by the bootstrap -/

/-- C59 (partial): what `bootstrap` stores for one sample: for a recorded ancestor the value of
`estimate_total_effect2`, 0 for every other pair. Missing: the total effect of pairs joined by a directed path that are
not recorded as ancestors (next theorem). -/
theorem C59_bootstrap_totals_partial {n : Nat} {M : Anc} {B T : Nat → Nat → Option ℚ}
    (h : bootstrapTotals n M B = some (.ok T)) {i j : Nat} (hi : i < n) (hjn : j < n) :
    (j ∈ M i → (∃ k, k < n ∧ B j k = none) → T i j = none) ∧
    (j ∈ M i → (∀ k, k < n → B j k ≠ none) → Paths.calcTotalEffect n B j i = some (.ok (T i j))) ∧
    (j ∉ M i → T i j = some 0) := by
  obtain ⟨h1, h2⟩ := fillTotals_spec h i j
  rw [mem_ancestorPairs] at h1 h2
  have hany : (List.range n).any (fun k => (B j k).isNone) = true ↔ ∃ k, k < n ∧ B j k = none := by
    simp [List.any_eq_true, Option.isNone_iff_eq_none]
  refine ⟨?_, ?_, ?_⟩
  · intro hj hk
    have := h1 ⟨hi, hjn, hj⟩
    unfold totalEffect2 at this
    rw [if_pos (hany.2 hk)] at this
    simp only [Option.some.injEq, Except.ok.injEq] at this
    exact this.symm
  · intro hj hk
    have := h1 ⟨hi, hjn, hj⟩
    unfold totalEffect2 at this
    rwa [if_neg] at this
    rw [hany]
    rintro ⟨k, hk', h0⟩
    exact hk k hk' h0
  · intro hj
    exact h2 (fun h => hj h.2.2)

/-- Tests on three variables that make 1 a sink of {0,1} and 2 a sink of {1,2} only. -/
def chainTests : Tests where
  nonGauss _ _ := true
  corr A _ B _ := decide (A = B ∨ A = ∅ ∧ B = ∅)
  indep _ x l := decide ((x = 1 ∧ l = [0]) ∨ (x = 2 ∧ l = [1]))

/-- C59 (violated): the matrix contains `0 → 1 → 2` with total effect 6 of 0 on 2, but the bootstrap stores 0. -/
theorem C59_indirect_effect_lost : ∃ (t : Tests) (coef : Coef) (M : Anc) (B T : Nat → Nat → Option ℚ),
    fit t coef 3 2 20 = some (M, B) ∧ bootstrapTotals 3 M B = some (.ok T) ∧
      Paths.calcTotalEffect 3 B 0 2 = some (.ok (some 6)) ∧ T 2 0 = some 0 := by
  have key : (fit chainTests (fun _ x _ => if x = 1 then (2 : ℚ) else 3) 3 2 20).bind (fun r =>
      match bootstrapTotals 3 r.1 r.2, Paths.calcTotalEffect 3 r.2 0 2 with
      | some (.ok T), some (.ok v) => some (T 2 0, v)
      | _, _ => none) = some (some 0, some 6) := by decide +kernel
  cases hf : fit chainTests (fun _ x _ => if x = 1 then (2 : ℚ) else 3) 3 2 20 with
  | none => rw [hf] at key; cases key
  | some r =>
    obtain ⟨M, B⟩ := r
    rw [hf] at key
    simp only [Option.bind_some] at key
    split at key
    · rename_i T v hT hv
      simp only [Option.some.injEq, Prod.mk.injEq] at key
      refine ⟨chainTests, _, M, B, T, hf, hT, ?_, key.1⟩
      rw [hv, key.2]
    · cases key

/-! ### Concrete cases meeting the hypotheses -/

/-- C25, C26: the search with `chainTests` finishes and records 0 as an ancestor of 1. -/
example : (fit chainTests (fun _ _ _ => 1) 3 2 20).map (fun r => (r.1 1, r.2 1 0)) = some ({0}, some 1) := by
  decide +kernel

end Verif.Rcd
