import Verif.Model.DataUtils
import Verif.Spec.DataUtils
import Verif.Spec.Lsem
import Mathlib.Algebra.BigOperators.Field
import Mathlib.Algebra.Order.BigOperators.Ring.Finset
import Mathlib.Tactic.Linarith
import Mathlib.Tactic.Ring
import Mathlib.Tactic.NormNum

set_option autoImplicit false
set_option linter.unusedSectionVars false
namespace Verif.DataUtils

variable {N : Nat}

/-- What the regression promises: the normal equations with an intercept. -/
def NormalEquations (m : List ℚ × ℚ) (cols : List (Fin N → ℚ)) (y : Fin N → ℚ) : Prop :=
  m.1.length = cols.length ∧ ∑ r, (y r - predict m cols r) = 0 ∧ ∀ c ∈ cols, ∑ r, (y r - predict m cols r) * c r = 0

theorem removeStep_same {fit : Fit N} {t : DType} {S : List Nat} (s : (Nat → Fin N → ℚ) × (Nat → List ℚ)) (f : Nat) :
    (removeStep fit t S s f).1 f = (fun r => store t (s.1 f r - predict (fit (S.map s.1) (s.1 f)) (S.map s.1) r)) ∧
      (removeStep fit t S s f).2 f = (fit (S.map s.1) (s.1 f)).1 := by
  simp [removeStep]

theorem removeStep_other {fit : Fit N} {t : DType} {S : List Nat} (s : (Nat → Fin N → ℚ) × (Nat → List ℚ)) {f j : Nat} (h : j ≠ f) :
    (removeStep fit t S s f).1 j = s.1 j ∧ (removeStep fit t S s f).2 j = s.2 j := by
  simp [removeStep, h]

theorem map_removeStep {fit : Fit N} {t : DType} {S : List Nat} (s : (Nat → Fin N → ℚ) × (Nat → List ℚ)) {f : Nat} (h : f ∉ S) :
    S.map (removeStep fit t S s f).1 = S.map s.1 :=
  List.map_congr_left fun j hj => (removeStep_other s (by rintro rfl; exact h hj)).1

theorem fold_spec {fit : Fit N} {t : DType} {S : List Nat} : ∀ (fs : List Nat) (s : (Nat → Fin N → ℚ) × (Nat → List ℚ)),
    fs.Nodup → (∀ f ∈ fs, f ∉ S) →
    (∀ j, j ∉ fs → (fs.foldl (removeStep fit t S) s).1 j = s.1 j ∧ (fs.foldl (removeStep fit t S) s).2 j = s.2 j) ∧
    ∀ j ∈ fs, (fs.foldl (removeStep fit t S) s).1 j =
        (fun r => store t (s.1 j r - predict (fit (S.map s.1) (s.1 j)) (S.map s.1) r)) ∧
      (fs.foldl (removeStep fit t S) s).2 j = (fit (S.map s.1) (s.1 j)).1
  | [], s, _, _ => ⟨fun _ _ => ⟨rfl, rfl⟩, fun _ h => by simp at h⟩
  | f :: fs, s, hn, hS => by
    obtain ⟨hf, hn⟩ := List.nodup_cons.1 hn
    have hfS := hS f (by simp)
    obtain ⟨h1, h2⟩ := fold_spec (t := t) (fit := fit) fs (removeStep fit t S s f) hn (fun g hg => hS g (by simp [hg]))
    constructor
    · intro j hj
      rw [List.mem_cons, not_or] at hj
      have ho := removeStep_other (fit := fit) (t := t) (S := S) s hj.1
      rw [List.foldl_cons, (h1 j hj.2).1, (h1 j hj.2).2]
      exact ho
    · intro j hj
      rw [List.foldl_cons]
      by_cases hjf : j = f
      · subst hjf
        rw [(h1 j hf).1, (h1 j hf).2]
        exact removeStep_same s j
      · have hj' : j ∈ fs := by simpa [hjf] using hj
        rw [(h2 j hj').1, (h2 j hj').2, map_removeStep s hfS, (removeStep_other s hjf).1]
        exact ⟨rfl, rfl⟩

theorem removeEffect_spec {fit : Fit N} {t : DType} {n : Nat} {S : List Nat} {X Y : Nat → Fin N → ℚ} {co : Nat → List ℚ}
    (h : removeEffect fit t n S X = some (Y, co)) :
    (∀ j, (¬ j < n ∨ j ∈ S) → Y j = X j) ∧ ∀ j, j < n → j ∉ S →
      Y j = (fun r => store t (X j r - predict (fit (S.map X) (X j)) (S.map X) r)) ∧ co j = (fit (S.map X) (X j)).1 := by
  unfold removeEffect at h
  simp only at h
  split_ifs at h
  obtain ⟨h1, h2⟩ := fold_spec (fit := fit) (t := t) (S := S) ((List.range n).filter (fun i => decide (i ∉ S))) (X, fun _ => [])
    (List.nodup_range.filter _) (by intro f hf; simpa using (List.mem_filter.1 hf).2)
  have hY := Option.some.inj h
  rw [hY] at h1 h2
  constructor
  · intro j hj
    refine (h1 j ?_).1
    simp only [List.mem_filter, List.mem_range, decide_eq_true_eq]
    rintro ⟨ha, hb⟩
    rcases hj with hj | hj
    · exact hj ha
    · exact hb hj
  · intro j hj hS
    exact h2 j (by simp [hj, hS])

/-! ### Regression residuals -/

section
variable {K : Type} [Field K]

theorem const_mem (S : List Nat) (X : Nat → Fin N → K) (c : K) : (fun _ => c) ∈ affineSpan S X := by
  have : (fun _ : Fin N => c) = c • (fun _ : Fin N => (1 : K)) := by funext r; simp
  rw [this]
  exact Submodule.smul_mem _ _ (Submodule.subset_span (.inl rfl))

theorem col_mem {S : List Nat} {X : Nat → Fin N → K} {j : Nat} (hj : j ∈ S) : X j ∈ affineSpan S X :=
  Submodule.subset_span (.inr ⟨j, hj, rfl⟩)

end

theorem predict_mem (S : List Nat) (X : Nat → Fin N → ℚ) (m : List ℚ × ℚ) : predict m (S.map X) ∈ affineSpan S X := by
  have key : ∀ (cs : List ℚ) (T : List Nat), (∀ j ∈ T, j ∈ S) →
      (fun r => ((cs.zip (T.map X)).map (fun p => p.1 * p.2 r)).sum) ∈ affineSpan S X := by
    intro cs
    induction cs with
    | nil => intro T _; simpa using const_mem S X 0
    | cons c cs ih =>
      intro T hT
      cases T with
      | nil => simpa using const_mem S X 0
      | cons j T =>
        have h1 := Submodule.add_mem _ (Submodule.smul_mem (affineSpan S X) c (col_mem (X := X) (hT j (by simp))))
          (ih T fun k hk => hT k (by simp [hk]))
        have : (fun r => (((c :: cs).zip ((j :: T).map X)).map (fun p => p.1 * p.2 r)).sum) =
            c • X j + fun r => ((cs.zip (T.map X)).map (fun p => p.1 * p.2 r)).sum := by
          funext r; simp
        rw [this]; exact h1
  have h := Submodule.add_mem _ (const_mem S X m.2) (key m.1 S fun _ h => h)
  have : predict m (S.map X) = (fun _ => m.2) + fun r => ((m.1.zip (S.map X)).map (fun p => p.1 * p.2 r)).sum := by
    funext r; rfl
  rw [this]; exact h

section
variable {K : Type} [Field K] [LinearOrder K] [IsStrictOrderedRing K]

/-- A vector with mean zero and uncorrelated with the columns is orthogonal to their combinations. -/
theorem orthogonal_span {S : List Nat} {X : Nat → Fin N → K} {res : Fin N → K} (h1 : ∑ r, res r = 0)
    (h2 : ∀ j ∈ S, ∑ r, res r * X j r = 0) {u : Fin N → K} (hu : u ∈ affineSpan S X) : ∑ r, res r * u r = 0 := by
  unfold affineSpan at hu
  induction hu using Submodule.span_induction with
  | mem x hx =>
    rcases hx with hx | ⟨j, hj, hx⟩
    · rw [show x = fun _ => 1 from hx]; simpa using h1
    · rw [hx]; exact h2 j hj
  | zero => simp
  | add x y _ _ hx hy => simp only [Pi.add_apply, mul_add, Finset.sum_add_distrib, hx, hy, add_zero]
  | smul c x _ hx =>
    have : ∀ r, res r * (c • x) r = c * (res r * x r) := by intro r; simp only [Pi.smul_apply, smul_eq_mul]; ring
    simp only [this, ← Finset.mul_sum, hx, mul_zero]

theorem eq_zero_of_sum_sq {u : Fin N → K} (h : ∑ r, u r * u r = 0) : u = 0 := by
  funext r
  have := (Finset.sum_eq_zero_iff_of_nonneg (fun r _ => mul_self_nonneg (u r))).1 h r (Finset.mem_univ r)
  simpa using this

theorem residual_unique {S : List Nat} {X : Nat → Fin N → K} {y a b : Fin N → K} (ha : IsRegressionResidual S X y a)
    (hb : IsRegressionResidual S X y b) : a = b := by
  have hmem : a - b ∈ affineSpan S X := by
    have := Submodule.sub_mem _ hb.1 ha.1
    have e : y - b - (y - a) = a - b := by abel
    rwa [e] at this
  have h1 : ∑ r, (a - b) r * (a - b) r = 0 := by
    refine orthogonal_span ?_ ?_ hmem
    · simp [Finset.sum_sub_distrib, ha.2.1, hb.2.1]
    · intro j hj
      simp [sub_mul, Finset.sum_sub_distrib, ha.2.2 j hj, hb.2.2 j hj]
  exact sub_eq_zero.1 (eq_zero_of_sum_sq h1)

end

theorem removed_residual {S : List Nat} {X : Nat → Fin N → ℚ} {y : Fin N → ℚ} {m : List ℚ × ℚ}
    (h : NormalEquations m (S.map X) y) : IsRegressionResidual S X y (fun r => y r - predict m (S.map X) r) := by
  obtain ⟨-, h1, h2⟩ := h
  refine ⟨?_, h1, fun j hj => h2 (X j) (List.mem_map_of_mem hj)⟩
  have : (y - fun r => y r - predict m (S.map X) r) = predict m (S.map X) := by
    funext r; simp
  rw [this]; exact predict_mem S X _

/-- Residuals depend on the removed columns only through their combinations. -/
theorem affineSpan_congr {S S' : List Nat} {X X' : Nat → Fin N → ℚ} (h : ∀ j ∈ S, ∃ k ∈ S', X j = X' k)
    (h' : ∀ j ∈ S', ∃ k ∈ S, X' j = X k) : affineSpan S X = affineSpan S' X' := by
  unfold affineSpan
  congr 2
  ext f
  constructor
  · rintro ⟨j, hj, rfl⟩; obtain ⟨k, hk, e⟩ := h j hj; exact ⟨k, hk, e⟩
  · rintro ⟨j, hj, rfl⟩; obtain ⟨k, hk, e⟩ := h' j hj; exact ⟨k, hk, e⟩

theorem residual_congr {S S' : List Nat} {X X' : Nat → Fin N → ℚ} (h : ∀ j ∈ S, ∃ k ∈ S', X j = X' k)
    (h' : ∀ j ∈ S', ∃ k ∈ S, X' j = X k) {y res : Fin N → ℚ} (hr : IsRegressionResidual S X y res) :
    IsRegressionResidual S' X' y res := by
  obtain ⟨h1, h2, h3⟩ := hr
  refine ⟨affineSpan_congr h h' ▸ h1, h2, fun j hj => ?_⟩
  obtain ⟨k, hk, e⟩ := h' j hj
  rw [e]; exact h3 k hk

/-! ### The description -/

theorem exogenous_iff {n : Nat} {A : Nat → Nat → Option ℚ} {i : Nat} : exogenous n (A i) = false ↔ HasRelation n A i := by
  rw [← Bool.not_eq_true]
  unfold exogenous HasRelation
  rw [List.all_eq_true]
  push Not
  refine exists_congr fun j => ?_
  rw [List.mem_range]
  refine and_congr_right fun _ => ?_
  cases h : A i j with
  | none => simp
  | some x => simp [isclose0]

theorem mem_terms {rnd : ℚ → ℚ} {n i : Nat} {row : Nat → Option ℚ} {t : Term} :
    t ∈ terms rnd n i row ↔ ∃ j, j < n ∧ term rnd i j (row j) = some t := by
  simp [terms, List.mem_filterMap]

theorem term_fixed {rnd : ℚ → ℚ} {i j k : Nat} {e : Option ℚ} {c : ℚ} :
    term rnd i j e = some (.fixed c k) ↔ k = j ∧ ∃ x, e = some x ∧ 1 / 100000000 < |x| ∧ c = rnd x := by
  unfold term
  cases e with
  | none => simp only [Option.some.injEq, reduceCtorEq, false_and, exists_false, and_false, iff_false]; split_ifs <;> simp
  | some x =>
    by_cases h : |x| ≤ 1 / 100000000
    · have : isclose0 x = true := by simp only [isclose0, decide_eq_true_eq]; exact h
      simp only [this, if_true, reduceCtorEq, Option.some.injEq, exists_eq_left', false_iff]
      rintro ⟨-, h1, -⟩; exact absurd h (not_le.2 h1)
    · have : isclose0 x = false := by simp only [isclose0, decide_eq_false_iff_not]; exact h
      simp only [this, Bool.false_eq_true, if_false, Option.some.injEq, Term.fixed.injEq, exists_eq_left']
      constructor
      · rintro ⟨rfl, rfl⟩; exact ⟨rfl, not_le.1 h, rfl⟩
      · rintro ⟨rfl, -, rfl⟩; exact ⟨rfl, rfl⟩

theorem term_latent {rnd : ℚ → ℚ} {i j a b : Nat} {e : Option ℚ} :
    term rnd i j e = some (.latent a b) ↔ e = none ∧ a = min i j ∧ b = max i j := by
  unfold term
  cases e with
  | none =>
    by_cases h : i < j
    · simp only [h, if_true, Option.some.injEq, Term.latent.injEq, true_and, min_eq_left h.le, max_eq_right h.le]
      constructor <;> rintro ⟨rfl, rfl⟩ <;> exact ⟨rfl, rfl⟩
    · have h' := not_lt.1 h
      simp only [h, if_false, Option.some.injEq, Term.latent.injEq, true_and, min_eq_right h', max_eq_left h']
      constructor <;> rintro ⟨rfl, rfl⟩ <;> exact ⟨rfl, rfl⟩
  | some x => simp only [reduceCtorEq, false_and, iff_false]; split_ifs <;> simp

theorem foldl_addLatent {ts : List Term} : ∀ {names : List (Nat × Nat)}, names.Nodup →
    (ts.foldl addLatent names).Nodup ∧ ∀ p, p ∈ ts.foldl addLatent names ↔ p ∈ names ∨ Term.latent p.1 p.2 ∈ ts := by
  induction ts with
  | nil => intro names h; exact ⟨h, fun p => by simp⟩
  | cons t ts ih =>
    intro names h
    rw [List.foldl_cons]
    cases t with
    | fixed c j =>
      obtain ⟨h1, h2⟩ := ih (names := names) h
      refine ⟨h1, fun p => ?_⟩
      have h3 := h2 p
      simpa [addLatent] using h3
    | latent i j =>
      by_cases hm : (i, j) ∈ names
      · have e : addLatent names (.latent i j) = names := by simp [addLatent, hm]
        rw [e]
        obtain ⟨h1, h2⟩ := ih h
        refine ⟨h1, fun p => ?_⟩
        rw [h2 p, List.mem_cons]
        constructor
        · rintro (h3 | h3)
          · exact .inl h3
          · exact .inr (.inr h3)
        · rintro (h3 | h3 | h3)
          · exact .inl h3
          · simp only [Term.latent.injEq] at h3
            left
            rw [show p = (i, j) from Prod.ext h3.1 h3.2]; exact hm
          · exact .inr h3
      · have e : addLatent names (.latent i j) = names ++ [(i, j)] := by simp [addLatent, hm]
        rw [e]
        obtain ⟨h1, h2⟩ := ih (names := names ++ [(i, j)]) (by
          rw [List.nodup_append]
          refine ⟨h, by simp, ?_⟩
          intro a ha b hb; simp at hb; subst hb; rintro rfl; exact hm ha)
        refine ⟨h1, fun p => ?_⟩
        rw [h2 p, List.mem_cons, List.mem_append, List.mem_singleton]
        constructor
        · rintro ((h3 | h3) | h3)
          · exact .inl h3
          · rw [h3]; exact .inr (.inl rfl)
          · exact .inr (.inr h3)
        · rintro (h3 | h3 | h3)
          · exact .inl (.inl h3)
          · simp only [Term.latent.injEq] at h3
            exact .inl (.inr (Prod.ext h3.1 h3.2))
          · exact .inr h3

end Verif.DataUtils
