import Verif.Proofs.RcdPopulation
import Verif.Props.Rcd

/-!
# RCD with perfect tests (C99–C101)

The data follow a linear model with independent non-Gaussian sources and every statistical test gives the right answer
(`PerfectTests`).  `popTests_perfect` shows that such tests exist for every model.
-/
set_option linter.unusedSectionVars false
set_option autoImplicit false
namespace Verif.Rcd
open Finset

theorem histOk_start (n : Nat) (B : Nat → Nat → ℚ) : HistOk n B ⟨fun _ => ∅, [], false⟩ :=
  fun _ _ _ _ _ h => absurd h (by simp)

/-- C99: no hidden common causes, no total effect of an ancestor cancels, `max_explanatory_num` 1 or 2 (the default):
`fit` finishes, `ancestors_list_` contains exactly the ancestors and `adjacency_matrix_` is the true matrix, without any
NaN. -/
theorem C99_rcd_recovers_model {n : Nat} {B L X : Nat → Nat → ℚ} {σ : Nat → ℚ} (hX : SourceModel n n B L X)
    (hac : Acyclic (Edge n B 0)) (hσ : ∀ k, k < n → 0 < σ k) (hf : ∀ i j, TrueAncestor n B j i → X i j ≠ 0)
    {t : Tests} (ht : PerfectTests n n σ X t) {coef : Coef} (hcoef : PerfectCoef n n σ X coef) {maxNum : Nat}
    (hm : maxNum = 1 ∨ maxNum = 2) :
    ∃ M B', (∀ fuel, n * n * maxNum + maxNum ≤ fuel → fit t coef n maxNum fuel = some (M, B')) ∧
      (∀ i j, j ∈ M i ↔ TrueAncestor n B j i) ∧ ∀ i j, i < n → j < n → B' i j = some (B i j) := by
  obtain ⟨M, hM, _⟩ := C25_ancestors_terminate t n (maxNum := maxNum) (by omega)
  have hex : ExactM n B M := by
    refine loop_exact hX hac hσ hf ht (by omega) (by omega) (good_empty t n maxNum)
      (Or.inl ⟨rfl, fun i j h => absurd h (by simp), histOk_start n B⟩) (hM _ le_rfl)
  refine ⟨M, adjacency coef n (extractParents t n M) (extractConfounded t n (extractParents t n M)), ?_, hex, ?_⟩
  · intro fuel hfu
    unfold fit
    rw [hM fuel hfu]
  · intro i j hi hj
    exact adjacency_exact hX hac hσ ht hcoef hex hi hj

/-- C99: and then the total effects stored for the fitted matrix are the true ones for every ancestor. -/
theorem C99_total_effects {n : Nat} {B L X : Nat → Nat → ℚ} (hX : SourceModel n n B L X)
    (hac : Acyclic (Edge n B 0)) {B' : Nat → Nat → Option ℚ} (hB : ∀ i j, i < n → j < n → B' i j = some (B i j))
    (src dst : Fin n) (hne : src ≠ dst) : Paths.calcTotalEffect n B' src dst = some (.ok (some (X dst src))) := by
  have hcl : ∀ i j, i < n → j < n → Paths.clean B' i j = B i j := by
    intro i j hi hj
    unfold Paths.clean Paths.nan0
    rw [hB i j hi hj]
    rfl
  have hE : Acyclic (Edge n (Paths.clean B') 0) := by
    intro i hi
    refine hac i (Relation.TransGen.mono ?_ i i hi)
    rintro a b ⟨ha, hb, h⟩
    exact ⟨ha, hb, by rwa [hcl b a hb ha] at h⟩
  rw [Paths.C13_total_effect_is_inverse_entry n B' src dst hE hne]
  have hmul : (1 - Matrix.of fun i j : Fin n => Paths.clean B' i j) * (Matrix.of fun i k : Fin n => X i k) = 1 := by
    ext i k
    rw [sub_mul, one_mul, Matrix.sub_apply, Matrix.mul_apply]
    simp only [Matrix.of_apply]
    have h1 := hX.2 i i.2 k k.2
    rw [if_pos k.2] at h1
    have h2 : ∑ j : Fin n, Paths.clean B' i j * X j k = ∑ j ∈ range n, B i j * X j k := by
      rw [Finset.sum_range]
      exact sum_congr rfl fun j _ => by rw [hcl i j i.2 j.2]
    rw [h2, h1, Matrix.one_apply]
    by_cases hik : i = k
    · rw [if_pos hik, if_pos (by rw [hik])]; ring
    · rw [if_neg hik, if_neg (fun h => hik (Fin.ext h.symm))]; ring
  rw [Matrix.inv_eq_right_inv hmul]
  rfl

/-- C100 (partial): hidden common causes are allowed. With `max_explanatory_num = 1` every recorded ancestor is an
ancestor, so every directed edge of the result points from an ancestor and the result has no cycle. Missing: larger
`max_explanatory_num`, where it fails (C101). -/
theorem C100_pair_search_sound_partial {n m : Nat} {B L X : Nat → Nat → ℚ} {σ : Nat → ℚ} (hX : SourceModel n m B L X)
    (hac : Acyclic (Edge n B 0)) (hσ : ∀ k, k < m → 0 < σ k) {t : Tests} (ht : PerfectTests n m σ X t) {coef : Coef}
    {fuel : Nat} {M : Anc} {B' : Nat → Nat → Option ℚ} (h : fit t coef n 1 fuel = some (M, B')) :
    (∀ i j, j ∈ M i → TrueAncestor n B j i) ∧ (∀ a b, Directed n B' a b → TrueAncestor n B a b) ∧
      Acyclic (Directed n B') := by
  have hM : extractAncestors t n 1 fuel = some M := by
    unfold fit at h
    cases hM : extractAncestors t n 1 fuel with
    | none => simp [hM] at h
    | some M0 => simp only [hM, Option.some.injEq, Prod.mk.injEq] at h; rw [h.1]
  have hs : SoundM n B M := loop_sound_one hX hac hσ ht (fun i j h => absurd h (by simp)) hM
  have hd : ∀ a b, Directed n B' a b → TrueAncestor n B a b := by
    rintro a b ⟨ha, hb, v, hv, hv0⟩
    exact hs b a ((C26_matrix_structure (by omega) h hb ha).2.2 v hv hv0).1
  refine ⟨hs, hd, fun i hi => ?_⟩
  exact acyclic_ancestor hac i (Relation.TransGen.mono hd i i hi)

/-- C101 (partial): without hidden causes going from 1 to 2 explanatory variables changes nothing. Missing: hidden causes
and larger sets, where it fails (below). -/
theorem C101_one_or_two_partial {n : Nat} {B L X : Nat → Nat → ℚ} {σ : Nat → ℚ} (hX : SourceModel n n B L X)
    (hac : Acyclic (Edge n B 0)) (hσ : ∀ k, k < n → 0 < σ k) (hf : ∀ i j, TrueAncestor n B j i → X i j ≠ 0)
    {t : Tests} (ht : PerfectTests n n σ X t) {f1 f2 : Nat} {M1 M2 : Anc}
    (h1 : extractAncestors t n 1 f1 = some M1) (h2 : extractAncestors t n 2 f2 = some M2) : M1 = M2 := by
  have e1 : ExactM n B M1 := loop_exact hX hac hσ hf ht le_rfl (by omega) (good_empty t n 1)
    (Or.inl ⟨rfl, fun i j h => absurd h (by simp), histOk_start n B⟩) h1
  have e2 : ExactM n B M2 := loop_exact hX hac hσ hf ht (by omega) le_rfl (good_empty t n 2)
    (Or.inl ⟨rfl, fun i j h => absurd h (by simp), histOk_start n B⟩) h2
  funext i
  ext j
  rw [e1 i j, e2 i j]

/-! ### Concrete models -/

/-- Coefficients given as a list of `(target, source, weight)`. -/
def weights (l : List (Nat × Nat × ℚ)) : Nat → Nat → ℚ := fun i j =>
  ((l.find? (fun e => decide (e.1 = i ∧ e.2.1 = j))).map (fun e => e.2.2)).getD 0

/-- A matrix given by rows. -/
def rows (l : List (List ℚ)) : Nat → Nat → ℚ := fun i k => (l.getD i []).getD k 0

theorem acyclic_of_lt {n : Nat} {B : Nat → Nat → ℚ} (h : ∀ i, i < n → ∀ j, j < n → B i j ≠ 0 → j < i) :
    Acyclic (Edge n B 0) := by
  intro i hi
  have : ∀ a b, Relation.TransGen (Edge n B 0) a b → a < b := by
    intro a b hab
    induction hab with
    | single h' => exact h _ h'.2.1 _ h'.1 (abs_pos.1 h'.2.2)
    | tail _ h' ih => exact ih.trans (h _ h'.2.1 _ h'.1 (abs_pos.1 h'.2.2))
  exact absurd (this i i hi) (lt_irrefl i)

/-- `1 → 2`, and a hidden cause (source 3) of 0 and 1. -/
def hidB : Nat → Nat → ℚ := weights [(2, 1, 1)]
def hidL : Nat → Nat → ℚ := weights [(0, 3, 1), (1, 3, 1)]
def hidX : Nat → Nat → ℚ := rows [[1, 0, 0, 1], [0, 1, 0, 1], [0, 1, 1, 1]]

theorem hid_model : SourceModel 3 4 hidB hidL hidX := by
  refine ⟨by omega, ?_⟩
  decide +kernel

theorem hid_acyclic : Acyclic (Edge 3 hidB 0) := acyclic_of_lt (by decide +kernel)

theorem hid_not_ancestor : ¬ TrueAncestor 3 hidB 0 2 := by
  intro h
  have : ∀ a b, TrueAncestor 3 hidB a b → a = 1 := by
    intro a b hab
    have key : ∀ x, x < 3 → ∀ y, y < 3 → hidB y x ≠ 0 → x = 1 := by decide +kernel
    induction hab with
    | single h => exact key _ h.1 _ h.2.1 (abs_pos.1 h.2.2)
    | tail _ _ ih => exact ih
  exact absurd (this 0 2 h) (by omega)

/-- C101 (violated): with one hidden common cause, correct tests and the default `max_explanatory_num = 2`,
`ancestors_list_[2]` contains 0 although 0 has no effect on 2 at all. -/
theorem C101_false_ancestor_hidden : ∃ (B L X : Nat → Nat → ℚ) (σ : Nat → ℚ) (t : Tests) (M : Anc),
    SourceModel 3 4 B L X ∧ Acyclic (Edge 3 B 0) ∧ (∀ k, k < 4 → 0 < σ k) ∧ PerfectTests 3 4 σ X t ∧
      extractAncestors t 3 2 20 = some M ∧ 0 ∈ M 2 ∧ ¬ TrueAncestor 3 B 0 2 := by
  have key : (extractAncestors (popTests 3 4 (fun _ => 1) hidX) 3 2 20).map (fun M => M 2) = some {0, 1} := by
    decide +kernel
  cases hM : extractAncestors (popTests 3 4 (fun _ => 1) hidX) 3 2 20 with
  | none => rw [hM] at key; cases key
  | some M =>
    rw [hM] at key
    simp only [Option.map_some, Option.some.injEq] at key
    exact ⟨hidB, hidL, hidX, fun _ => 1, _, M, hid_model, hid_acyclic, fun _ _ => one_pos,
      popTests_perfect (fun _ _ => one_pos) 3 hidX, hM, by rw [key]; simp, hid_not_ancestor⟩

/-- No hidden cause: `0, 1 → 2`, `0, 1 → 3`, `2 → 4`. -/
def obsB : Nat → Nat → ℚ := weights [(2, 0, 1), (2, 1, 1), (3, 0, 1), (3, 1, 1), (4, 2, 1)]
def obsX : Nat → Nat → ℚ := rows [[1], [0, 1], [1, 1, 1], [1, 1, 0, 1], [1, 1, 1, 0, 1]]

theorem obs_model : SourceModel 5 5 obsB (fun _ _ => 0) obsX := by
  refine ⟨by omega, ?_⟩
  decide +kernel

theorem obs_acyclic : Acyclic (Edge 5 obsB 0) := acyclic_of_lt (by decide +kernel)

theorem obs_not_ancestor : ¬ TrueAncestor 5 obsB 3 4 := by
  intro h
  have : ∀ a b, TrueAncestor 5 obsB a b → a ≠ 3 := by
    intro a b hab
    have key : ∀ x, x < 5 → ∀ y, y < 5 → obsB y x ≠ 0 → x ≠ 3 := by decide +kernel
    induction hab with
    | single h => exact key _ h.1 _ h.2.1 (abs_pos.1 h.2.2)
    | tail _ _ ih => exact ih
  exact this 3 4 h rfl

/-- C101 (violated): even without hidden causes, `max_explanatory_num = 3` records 3 as an ancestor of 4, while the
default 2 does not (C99). -/
theorem C101_false_ancestor_observed : ∃ (B L X : Nat → Nat → ℚ) (σ : Nat → ℚ) (t : Tests) (M : Anc),
    SourceModel 5 5 B L X ∧ Acyclic (Edge 5 B 0) ∧ (∀ k, k < 5 → 0 < σ k) ∧ PerfectTests 5 5 σ X t ∧
      extractAncestors t 5 3 20 = some M ∧ 3 ∈ M 4 ∧ ¬ TrueAncestor 5 B 3 4 := by
  have key : (extractAncestors (popTests 5 5 (fun _ => 1) obsX) 5 3 20).map (fun M => M 4) = some {0, 1, 2, 3} := by
    decide +kernel
  cases hM : extractAncestors (popTests 5 5 (fun _ => 1) obsX) 5 3 20 with
  | none => rw [hM] at key; cases key
  | some M =>
    rw [hM] at key
    simp only [Option.map_some, Option.some.injEq] at key
    exact ⟨obsB, fun _ _ => 0, obsX, fun _ => 1, _, M, obs_model, obs_acyclic, fun _ _ => one_pos,
      popTests_perfect (fun _ _ => one_pos) 5 obsX, hM, by rw [key]; simp, obs_not_ancestor⟩

/-- C99: regressions with population coefficients exist. -/
theorem perfectCoef_exists {m : Nat} {σ : Nat → ℚ} (hσ : ∀ k, k < m → 0 < σ k) (n : Nat) (X : Nat → Nat → ℚ) :
    ∃ coef : Coef, PerfectCoef n m σ X coef := by
  classical
  choose r hr using fun (ps : List Nat) (x : Nat) => exists_residual hσ X ps.toFinset (X x)
  choose c hc using hr
  exact ⟨c, fun ps x _ _ => ⟨r ps x, hc ps x⟩⟩

/-- C99: the model `obsB` meets all hypotheses; 1 is an ancestor of 4. -/
example : SourceModel 5 5 obsB (fun _ _ => 0) obsX ∧ Acyclic (Edge 5 obsB 0) ∧
    (∀ i j, TrueAncestor 5 obsB j i → obsX i j ≠ 0) ∧ TrueAncestor 5 obsB 1 4 ∧
    PerfectTests 5 5 (fun _ => 1) obsX (popTests 5 5 (fun _ => 1) obsX) ∧
    ∃ coef, PerfectCoef 5 5 (fun _ => 1) obsX coef := by
  refine ⟨obs_model, obs_acyclic, ?_, ?_, popTests_perfect (fun _ _ => one_pos) 5 obsX,
    perfectCoef_exists (fun _ _ => one_pos) 5 obsX⟩
  · intro i j h
    have base : ∀ x, x < 5 → ∀ y, y < 5 → obsB y x ≠ 0 → obsX y x ≠ 0 := by decide +kernel
    have step : ∀ x, x < 5 → ∀ y, y < 5 → ∀ z, z < 5 → obsX y x ≠ 0 ∧ obsB z y ≠ 0 → obsX z x ≠ 0 := by
      decide +kernel
    have hj := h.lt_left
    induction h with
    | single h => exact base _ h.1 _ h.2.1 (abs_pos.1 h.2.2)
    | tail _ h ih => exact step _ hj _ h.1 _ h.2.1 ⟨ih, abs_pos.1 h.2.2⟩
  · exact .tail (.single (b := 2) ⟨by omega, by omega, by decide +kernel⟩) ⟨by omega, by omega, by decide +kernel⟩

/-- C100: a model with a hidden cause and a finished search. -/
example : (fit (popTests 3 4 (fun _ => 1) hidX) (fun _ _ _ => 1) 3 1 20).map (fun r => (r.1 2, r.2 2 1)) =
    some ({1}, some 1) := by decide +kernel

end Verif.Rcd
