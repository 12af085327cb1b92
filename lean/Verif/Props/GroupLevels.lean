import Verif.Props.Levels
import Verif.Props.GroupRcdData
import Verif.Props.FCorr

/-! C234 for RCD with the F-correlation, and for MultiGroupRCD. -/
set_option autoImplicit false
set_option linter.unusedSectionVars false

namespace Verif.RcdData

variable {N : Nat}

/-- C234: RCD with `independence='fcorr'` and `ind_corr = 0` draws no arrow, and reports exactly the correlated pairs as confounded. -/
theorem C234_rcd_fcorr_zero {L : Lib N} {c : Cfg} {n maxNum fuel : Nat} (hm : 0 < maxNum) {X : Nat → Fin N → ℝ} (hL : FCorr.Exact L.R)
    (hh : c.hsic = false) (hi0 : c.indCorr ≤ 0) {M : Rcd.Anc} {B : Nat → Nat → Option ℝ} (h : fit L c n maxNum fuel X = some (M, B)) :
    (∀ i, M i = ∅) ∧ ∀ i j, i < n → j < n →
      B i j = if i ≠ j ∧ isCorrelated L c (X (min i j)) (X (max i j)) = true then none else some 0 := by
  have hdep : ∀ a b : Fin N → ℝ, isIndependent L c a b = false := by
    intro a b
    unfold isIndependent
    rw [hh]
    cases hv : FCorr.fcorr L.R a b with
    | none => simp
    | some v =>
      have := (FCorr.C147_range hL hv).1
      simp only [Bool.false_eq_true, if_false, decide_eq_false_iff_not, not_lt]
      exact hi0.trans this
  have hM : ∀ i, M i = ∅ := by
    intro i
    by_contra hne
    obtain ⟨j, hj⟩ := Finset.nonempty_iff_ne_empty.2 hne
    have hE : Rcd.extractAncestors (tests L c n X) n maxNum fuel = some M := by
      unfold fit Rcd.fit at h
      cases hE : Rcd.extractAncestors (tests L c n X) n maxNum fuel with
      | none => rw [hE] at h; cases h
      | some M' => rw [hE] at h; simp only [Option.some.injEq, Prod.mk.injEq] at h; rw [h.1]
    obtain ⟨U, H, _, _, _, _, hjU, hji, _, _, _, hind, _⟩ := Rcd.C25_ancestors_justified hm hE i j hj
    have hmem : j ∈ U.filter (fun x => decide (x ≠ i)) := List.mem_filter.2 ⟨hjU, by simpa using hji⟩
    have hall : ∀ r : Fin N → ℝ, (U.filter (fun x => decide (x ≠ i))).all (fun y => isIndependent L c r (without L n X H y)) = false := by
      intro r
      rw [List.all_eq_false]
      exact ⟨j, hmem, by rw [hdep]; decide⟩
    have e : (tests L c n X).indep H i (U.filter (fun x => decide (x ≠ i))) =
        isIndependentOfResid L c (without L n X H) i (U.filter (fun x => decide (x ≠ i))) := rfl
    rw [e] at hind
    unfold isIndependentOfResid at hind
    rw [hall, hall] at hind
    simp at hind
  refine ⟨hM, fun i j hi hj => ?_⟩
  rw [fit_no_ancestors h hM hi hj]
  rfl

example (L : Lib N) (hL : FCorr.Exact L.R) (X : Nat → Fin N → ℝ) :
    ∃ fuel M B, fit L ⟨1 / 100, 1 / 100, 1 / 100, false, false, 0⟩ 3 2 fuel X = some (M, B) ∧ M 0 = ∅ := by
  obtain ⟨fuel, M, B, h⟩ := fit_exists L ⟨1 / 100, 1 / 100, 1 / 100, false, false, 0⟩ 3 (maxNum := 2) (by omega) X
  exact ⟨fuel, M, B, h, (C234_rcd_fcorr_zero (by omega) hL rfl le_rfl h).1 0⟩

end Verif.RcdData

namespace Verif.GroupRcd
open RcdData

variable {k : Nat} {N : Fin k → Nat} {L : ∀ i, Lib (N i)} {sf : Nat → WithTop ℝ → ℝ} {g : Cfg} {n maxNum fuel : Nat}
  {X : ∀ i, Nat → Fin (N i) → ℝ} {M : Rcd.Anc} {B : Fin k → Nat → Nat → Option ℝ}

/-- The two columns count as correlated in the data sets together: the combined p-value is a number below `cor_alpha`. -/
def TogetherCorrelated (L : ∀ i, Lib (N i)) (sf : Nat → WithTop ℝ → ℝ) (g : Cfg) (X : ∀ i, Nat → Fin (N i) → ℝ) (a b : Nat) : Prop :=
  ∃ p, fisherP sf (fun i => pearsonP (L i) (X i a) (X i b)) = some p ∧ p < g.corAlpha

theorem fisherP_value {ps : Fin k → Option ℝ} {p : ℝ} (h : fisherP sf ps = some p) : ∃ s, p = sf (2 * k) s := by
  unfold fisherP at h
  cases hs : fisherStat ps with
  | none => rw [hs] at h; cases h
  | some s => rw [hs] at h; exact ⟨s, (Option.some.inj h).symm⟩

theorem corr_iff {a b : Nat} : (testsP L sf g n X).corr ∅ a ∅ b = true ↔ TogetherCorrelated L sf g X a b := by
  show (match corrP L sf n X ∅ a ∅ b with | some p => decide (p < g.corAlpha) | none => false) = true ↔ _
  have e : corrP L sf n X ∅ a ∅ b = fisherP sf (fun i => pearsonP (L i) (X i a) (X i b)) := by
    unfold corrP without
    simp
  rw [e]
  unfold TogetherCorrelated
  cases fisherP sf (fun i => pearsonP (L i) (X i a) (X i b)) <;> simp

theorem fit_parts (h : fit L sf g n maxNum fuel X = some (M, B)) : Rcd.extractAncestors (testsA L sf g n X) n maxNum fuel = some M ∧
    B = fun i => Rcd.adjacency (coef (L i) (X i)) n (Rcd.extractParents (testsP L sf g n X) n M)
      (Rcd.extractConfounded (testsP L sf g n X) n (Rcd.extractParents (testsP L sf g n X) n M)) := by
  unfold fit at h
  cases hE : Rcd.extractAncestors (testsA L sf g n X) n maxNum fuel with
  | none => rw [hE] at h; cases h
  | some M' =>
    rw [hE] at h
    simp only [Option.some.injEq, Prod.mk.injEq] at h
    obtain ⟨rfl, rfl⟩ := h
    exact ⟨rfl, rfl⟩

/-- Without parents exactly the correlated pairs are NaN, in every data set. -/
theorem no_parents (h : fit L sf g n maxNum fuel X = some (M, B)) (hP : Rcd.extractParents (testsP L sf g n X) n M = fun _ => ∅) (s : Fin k)
    {i j : Nat} (hi : i < n) (hj : j < n) :
    (B s i j = none ↔ i ≠ j ∧ TogetherCorrelated L sf g X (min i j) (max i j)) ∧ (B s i j ≠ none → B s i j = some 0) := by
  obtain ⟨_, rfl⟩ := fit_parts h
  rw [hP]
  unfold Rcd.adjacency
  beta_reduce
  rw [if_pos hi]
  simp only [Finset.notMem_empty, if_false]
  have key : j ∈ Rcd.extractConfounded (testsP L sf g n X) n (fun _ => ∅) i ↔
      i ≠ j ∧ TogetherCorrelated L sf g X (min i j) (max i j) := by
    rw [Rcd.mem_extractConfounded]
    unfold Rcd.Conf
    simp only [Finset.notMem_empty, not_false_eq_true, true_and]
    rcases lt_trichotomy i j with hlt | heq | hlt
    · rw [min_eq_left hlt.le, max_eq_right hlt.le, ← corr_iff (n := n)]
      constructor
      · rintro (⟨_, _, hc⟩ | ⟨h1, _⟩)
        · exact ⟨hlt.ne, hc⟩
        · omega
      · rintro ⟨_, hc⟩; exact Or.inl ⟨hlt, hj, hc⟩
    · subst heq; simp
    · rw [min_eq_right hlt.le, max_eq_left hlt.le, ← corr_iff (n := n)]
      constructor
      · rintro (⟨h1, _⟩ | ⟨_, _, hc⟩)
        · omega
        · exact ⟨hlt.ne', hc⟩
      · rintro ⟨_, hc⟩; exact Or.inr ⟨hlt, hi, hc⟩
  by_cases hmem : j ∈ Rcd.extractConfounded (testsP L sf g n X) n (fun _ => ∅) i
  · rw [if_pos hmem]
    exact ⟨⟨fun _ => key.1 hmem, fun _ => rfl⟩, fun h => absurd rfl h⟩
  · rw [if_neg hmem]
    exact ⟨⟨fun h => (nomatch h), fun h => absurd (key.2 h) hmem⟩, fun _ => rfl⟩

/-- C234: MultiGroupRCD with `cor_alpha = 0` reports nothing at all: all matrices are zero. -/
theorem C234_group_correlation (hsf : ∀ d x, 0 ≤ sf d x) (h0 : g.corAlpha ≤ 0) (h : fit L sf g n maxNum fuel X = some (M, B)) (s : Fin k)
    {i j : Nat} (hi : i < n) (hj : j < n) : B s i j = some 0 := by
  have hP : Rcd.extractParents (testsP L sf g n X) n M = fun _ => ∅ := by
    funext x
    unfold Rcd.extractParents
    split
    · rw [Finset.filter_eq_empty_iff]
      intro y _
      unfold Rcd.isParent
      show ¬ (match corrP L sf n X (M x ∩ M y) y (M x \ {y}) x with | some p => decide (p < g.corAlpha) | none => false) = true
      cases hc : corrP L sf n X (M x ∩ M y) y (M x \ {y}) x with
      | none => simp
      | some p =>
        obtain ⟨t, rfl⟩ := fisherP_value hc
        simpa using h0.trans (hsf _ t)
    · rfl
  obtain ⟨h1, h2⟩ := no_parents h hP s hi hj
  refine h2 fun hn => ?_
  obtain ⟨_, p, hp, hlt⟩ := h1.1 hn
  obtain ⟨t, rfl⟩ := fisherP_value hp
  exact absurd (hsf _ t) (not_le.2 (hlt.trans_le h0))

/-- C234: MultiGroupRCD finds no arrow in any data when `shapiro_alpha` is below every combined p-value of the normality test, when no combined
p-value exceeds `ind_alpha` (1 or more, with HSIC), or with the F-correlation and `ind_corr = 0`: no variable has an ancestor, and exactly the
correlated pairs are reported as confounded, in every data set. -/
theorem C234_group_nothing (hm : 0 < maxNum)
    (hx : (∀ H x p, fisherP sf (fun i => some ((L i).shapiro (without (L i) n (X i) H x))) = some p → g.shapiroAlpha < p) ∨
      (g.hsic = true ∧ ∀ d x, sf d x ≤ g.indAlpha) ∨ (g.hsic = false ∧ g.indCorr ≤ 0 ∧ ∀ i, FCorr.Exact (L i).R))
    (h : fit L sf g n maxNum fuel X = some (M, B)) :
    (∀ i, M i = ∅) ∧ ∀ s i j, i < n → j < n →
      (B s i j = none ↔ i ≠ j ∧ TogetherCorrelated L sf g X (min i j) (max i j)) ∧ (B s i j ≠ none → B s i j = some 0) := by
  have hM : ∀ i, M i = ∅ := by
    intro i
    by_contra hne
    obtain ⟨j, hj⟩ := Finset.nonempty_iff_ne_empty.2 hne
    obtain ⟨U, H, _, _, _, hiU, hjU, hji, _, hg, _, hind, _⟩ := Rcd.C25_ancestors_justified hm (fit_parts h).1 i j hj
    have hdep : (∀ a b, isIndependent L sf g a b = false) → False := by
      intro hdep
      have hmem : j ∈ U.filter (fun x => decide (x ≠ i)) := List.mem_filter.2 ⟨hjU, by simpa using hji⟩
      have hall : ∀ r : ∀ s, Fin (N s) → ℝ, (U.filter (fun x => decide (x ≠ i))).all
          (fun y => isIndependent L sf g r (fun s => without (L s) n (X s) H y)) = false := by
        intro r
        rw [List.all_eq_false]
        exact ⟨j, hmem, by rw [hdep]; decide⟩
      have e : (testsA L sf g n X).indep H i (U.filter (fun x => decide (x ≠ i))) =
          isIndependentOfResid L sf g (fun s => without (L s) n (X s) H) i (U.filter (fun x => decide (x ≠ i))) := rfl
      rw [e] at hind
      unfold isIndependentOfResid at hind
      rw [hall, hall] at hind
      simp at hind
    rcases hx with hs | ⟨hh, hs⟩ | ⟨hh, h0, hL⟩
    · have := hg i hiU
      have e : (testsA L sf g n X).nonGauss H i =
        (match fisherP sf (fun s => some ((L s).shapiro (without (L s) n (X s) H i))) with
          | some p => !decide (g.shapiroAlpha < p)
          | none => true) := rfl
      rw [e] at this
      cases hp : fisherP sf (fun s => some ((L s).shapiro (without (L s) n (X s) H i))) with
      | none =>
        unfold fisherP fisherStat at hp
        rw [if_neg (by simp)] at hp
        cases hp
      | some p =>
        rw [hp] at this
        simp only [decide_eq_true (hs H i p hp)] at this
        cases this
    · refine hdep fun a b => ?_
      unfold isIndependent
      rw [if_pos hh]
      cases hp : fisherP sf (fun i => hsicP (L i) (a i) (b i)) with
      | none => rfl
      | some p =>
        obtain ⟨t, rfl⟩ := fisherP_value hp
        simpa using hs _ t
    · refine hdep fun a b => ?_
      unfold isIndependent
      rw [if_neg (by rw [hh]; decide)]
      cases hp : lastOf (fun i => FCorr.fcorr (L i).R (a i) (b i)) with
      | none => rfl
      | some v =>
        unfold lastOf at hp
        split at hp
        · simpa using h0.trans (FCorr.C147_range (hL _) hp).1
        · cases hp
  have hP : Rcd.extractParents (testsP L sf g n X) n M = fun _ => ∅ := by
    funext x
    unfold Rcd.extractParents
    rw [hM x]
    simp
  exact ⟨hM, fun s i j hi hj => no_parents h hP s hi hj⟩

example (L : ∀ i, Lib (N i)) (hs : ∀ d x, sf d x ≤ 1) (hs' : ∀ d x, 0 ≤ sf d x) (X : ∀ i, Nat → Fin (N i) → ℝ) (s : Fin k) :
    ∃ M B, fit L sf ⟨0, 1, 1 / 100, false, true, 1 / 2⟩ 3 2 40 X = some (M, B) ∧ M 0 = ∅ ∧ B s 0 1 = some 0 := by
  obtain ⟨M, B, h⟩ := fit_exists (L := L) (sf := sf) (g := ⟨0, 1, 1 / 100, false, true, 1 / 2⟩) (X := X) 3 (maxNum := 2) (fuel := 40)
    (by omega) (by omega)
  exact ⟨M, B, h, (C234_group_nothing (by omega) (Or.inr (Or.inl ⟨rfl, hs⟩)) h).1 0, C234_group_correlation hs' le_rfl h s (by omega) (by omega)⟩

example (L : ∀ i, Lib (N i)) (hL : ∀ i, FCorr.Exact (L i).R) (X : ∀ i, Nat → Fin (N i) → ℝ) :
    ∃ M B, fit L sf ⟨1 / 100, 1 / 100, 1 / 100, false, false, 0⟩ 3 2 40 X = some (M, B) ∧ M 0 = ∅ := by
  obtain ⟨M, B, h⟩ := fit_exists (L := L) (sf := sf) (g := ⟨1 / 100, 1 / 100, 1 / 100, false, false, 0⟩) (X := X) 3 (maxNum := 2) (fuel := 40)
    (by omega) (by omega)
  exact ⟨M, B, h, (C234_group_nothing (by omega) (Or.inr (Or.inr ⟨rfl, le_rfl, hL⟩)) h).1 0⟩

end Verif.GroupRcd
