import Verif.Props.FisherLevel
import Verif.Props.RcdPair

/-! C248: MultiGroupRCD for two variables, one of which is in every data set a linear function of the other plus an error that is exactly
independent of it. -/
set_option autoImplicit false
set_option linter.unusedSectionVars false
namespace Verif.GroupRcd
open Finset RcdData

variable {k : Nat} {N : Fin k → Nat} {L : ∀ i, Lib (N i)} {sf : Nat → WithTop ℝ → ℝ} {g : Cfg} {X : ∀ i, Nat → Fin (N i) → ℝ}

/-- What the data sets must show together for an arrow from `c` to `d`: the combined p-values reject normality of both variables and their lack
of correlation, and do not let the residual of `c` pass for independent of `d`. -/
def ShowArrow (L : ∀ i, Lib (N i)) (sf : Nat → WithTop ℝ → ℝ) (g : Cfg) (X : ∀ i, Nat → Fin (N i) → ℝ) (c d : Nat) : Prop :=
  (∀ x, x = c ∨ x = d → ∃ p, fisherP sf (fun i => some ((L i).shapiro (X i x))) = some p ∧ p ≤ g.shapiroAlpha) ∧
  (∃ p, fisherP sf (fun i => pearsonP (L i) (X i c) (X i d)) = some p ∧ p < g.corAlpha) ∧
  ¬ ∃ p, fisherP sf (fun i => hsicP (L i) (resid (L i) (X i) c [d]) (X i d)) = some p ∧ g.indAlpha < p

theorem pearsonP_comm {R : Nat} (l : Lib R) (a b : Fin R → ℝ) : pearsonP l a b = pearsonP l b a := by
  unfold pearsonP
  rw [codev_comm a b, mul_comm (Real.sqrt (codev a a))]
  simp only [or_comm]

theorem isIndependent_hsic (hh : g.hsic = true) (a b : ∀ i, Fin (N i) → ℝ) : isIndependent L sf g a b = true ↔
    ∃ p, fisherP sf (fun i => hsicP (L i) (a i) (b i)) = some p ∧ g.indAlpha < p := by
  unfold isIndependent
  rw [if_pos hh]
  rcases fisherP sf (fun i => hsicP (L i) (a i) (b i)) with _ | p <;> simp

theorem indep_single (x y : Nat) : (testsA L sf g 2 X).indep ∅ x [y] =
    isIndependent L sf g (fun i => resid (L i) (X i) x [y]) (fun i => X i y) := by
  have hw : (fun i => without (L i) 2 (X i) ∅) = X := by
    funext i x
    exact if_pos rfl
  show isIndependentOfResid L sf g (fun i => without (L i) 2 (X i) ∅) x [y] = _
  rw [hw]
  unfold isIndependentOfResid
  rcases hq : isIndependent L sf g (fun i => resid (L i) (X i) x [y]) (fun i => X i y) <;> simp [hq]

/-- **C248.** In every data set one variable is a linear function of the other plus an error that is exactly independent of it, with coefficients and
errors of its own.  Then MultiGroupRCD (HSIC) never reports an arrow from the effect to the cause; it reports the arrow from the cause to the
effect, with the exact coefficient of every data set, if and only if the combined p-values reject normality of both variables and their lack
of correlation and the residual of the cause is found to depend on the effect; otherwise it reports a common cause if the two are found to be
correlated, and nothing if not. -/
theorem C248_pair (hsf : ChiSquaredTail sf) (hk : 0 < k) (hL : ∀ i, OlsRight (L i)) (hg : ∀ i a b, 0 < a → 0 < b → (L i).gammaSf 0 a b = 1)
    (hh : g.hsic = true) (ha : g.indAlpha < 1) {e : ∀ i, Fin (N i) → ℝ} {b : Fin k → ℝ} {c d : Nat}
    (hcd : (c = 0 ∧ d = 1) ∨ (c = 1 ∧ d = 0)) (hX : ∀ i r, X i d r = b i * X i c r + e i r) (he : ∀ i, SampleIndependent (e i) (X i c))
    (hrep : ∀ i, ∃ s p, Hsic.test (L i).gammaSf (Mlhsicr.col (fun r => e i r - mean (e i))) (Mlhsicr.col (X i c)) = .ok (some s, some p))
    (hvar : ∀ i, pearsonP (L i) (X i c) (X i d) ≠ none)
    {m fuel : Nat} {M : Rcd.Anc} {B : Fin k → Nat → Nat → Option ℝ} (h : fit L sf g 2 m fuel X = some (M, B)) :
    (ShowArrow L sf g X c d → M d = {c} ∧ M c = ∅ ∧ ∀ i, B i d c = some (b i) ∧ B i c d = some 0) ∧
    (¬ ShowArrow L sf g X c d → M d = ∅ ∧ M c = ∅ ∧
      ((∃ p, fisherP sf (fun i => pearsonP (L i) (X i c) (X i d)) = some p ∧ p < g.corAlpha) → ∀ i, B i d c = none ∧ B i c d = none) ∧
      ((¬ ∃ p, fisherP sf (fun i => pearsonP (L i) (X i c) (X i d)) = some p ∧ p < g.corAlpha) →
        ∀ i, B i d c = some 0 ∧ B i c d = some 0)) := by
  have hreg := fun i => effect_regression (hL i) (hX i) (he i)
  have hi : (testsA L sf g 2 X).indep ∅ d [c] = true := by
    rw [indep_single, isIndependent_hsic hh]
    have : (fun i => hsicP (L i) (resid (L i) (X i) d [c]) (X i c)) = fun _ => some 1 := by
      funext i
      obtain ⟨s, p, hp⟩ := hrep i
      rw [(hreg i).1]
      unfold hsicP
      rw [hp]
      exact congrArg some (Hsic.C231_accepted (hg i) hp (ParceData.pair_col.2 (ResitData.independent_shift (he i) _)))
    rw [this, fisherP_eq hsf hk (q := fun _ => 1) fun _ => ⟨zero_le_one, le_rfl⟩]
    refine ⟨_, rfl, ?_⟩
    obtain ⟨k, rfl⟩ : ∃ m, k = m + 1 := ⟨k - 1, by omega⟩
    rw [prod_const_one, if_neg one_ne_zero, Real.log_one, neg_zero, tail_zero]
    exact ha
  obtain ⟨q, hq⟩ : ∃ q, fisherP sf (fun i => pearsonP (L i) (X i c) (X i d)) = some q := by
    unfold fisherP fisherStat
    rw [if_neg (by rintro ⟨i, h0⟩; exact hvar i h0)]
    exact ⟨_, rfl⟩
  have hcp : ∀ x y, (x = c ∧ y = d) ∨ (x = d ∧ y = c) → corrP L sf 2 X ∅ x ∅ y = some q := by
    rintro x y (⟨rfl, rfl⟩ | ⟨rfl, rfl⟩)
    · exact hq
    · rw [← hq]
      unfold corrP
      congr 1
      funext i
      exact pearsonP_comm (L i) _ _
  have hcA : ∀ x y, (x = c ∧ y = d) ∨ (x = d ∧ y = c) → (testsA L sf g 2 X).corr ∅ x ∅ y = decide (q < g.corAlpha) := by
    intro x y hxy
    show (match corrP L sf 2 X ∅ x ∅ y with
        | some p => !decide (g.corAlpha ≤ p) | none => true) = _
    rw [hcp x y hxy]
    simp only [← not_lt, decide_not, Bool.not_not]
  have hcP : ∀ x y, (x = c ∧ y = d) ∨ (x = d ∧ y = c) → (testsP L sf g 2 X).corr ∅ x ∅ y = decide (q < g.corAlpha) := by
    intro x y hxy
    show (match corrP L sf 2 X ∅ x ∅ y with
        | some p => decide (p < g.corAlpha) | none => false) = _
    rw [hcp x y hxy]
  have h01 : ((0 : Nat) = c ∧ 1 = d) ∨ ((0 : Nat) = d ∧ 1 = c) := by omega
  have h10 : ((1 : Nat) = c ∧ 0 = d) ∨ ((1 : Nat) = d ∧ 0 = c) := by omega
  have hng : ∀ x, (testsA L sf g 2 X).nonGauss ∅ x = true ↔
      ∃ p, fisherP sf (fun i => some ((L i).shapiro (X i x))) = some p ∧ p ≤ g.shapiroAlpha := by
    intro x
    show (match fisherP sf (fun i => some ((L i).shapiro (X i x))) with
      | some p => !decide (g.shapiroAlpha < p)
      | none => true) = true ↔ _
    obtain ⟨v, hv⟩ : ∃ v, fisherP sf (fun i => some ((L i).shapiro (X i x))) = some v := by
      unfold fisherP fisherStat
      rw [if_neg (by rintro ⟨i, h0⟩; cases h0)]
      exact ⟨_, rfl⟩
    rw [hv]
    simp
  have hcor : (∃ p, fisherP sf (fun i => pearsonP (L i) (X i c) (X i d)) = some p ∧ p < g.corAlpha) ↔ q < g.corAlpha := by
    rw [hq]
    simp
  have hs : ((testsA L sf g 2 X).nonGauss ∅ c && (testsA L sf g 2 X).nonGauss ∅ d && decide (q < g.corAlpha) &&
      !(testsA L sf g 2 X).indep ∅ c [d]) = true ↔ ShowArrow L sf g X c d := by
    unfold ShowArrow
    rw [Bool.and_eq_true, Bool.and_eq_true, Bool.and_eq_true, hng, hng, hcor, Bool.not_eq_true', indep_single, ← isIndependent_hsic hh,
      Bool.not_eq_true, decide_eq_true_iff]
    constructor
    · rintro ⟨⟨⟨h1, h2⟩, h3⟩, h4⟩
      exact ⟨fun x hx => by rcases hx with rfl | rfl <;> assumption, h3, h4⟩
    · rintro ⟨h1, h3, h4⟩
      exact ⟨⟨⟨h1 c (Or.inl rfl), h1 d (Or.inr rfl)⟩, h3⟩, h4⟩
  unfold fit at h
  rcases hM : Rcd.extractAncestors (testsA L sf g 2 X) 2 m fuel with _ | M'
  · rw [hM] at h
    cases h
  rw [hM] at h
  simp only [Option.some.injEq, Prod.mk.injEq] at h
  obtain ⟨rfl, rfl⟩ := h
  have hMe := ancestors_two hM
  rw [body_two, hcA 0 1 h01] at hMe
  have hsym : (testsP L sf g 2 X).corr ∅ 0 ∅ 1 = (testsP L sf g 2 X).corr ∅ 1 ∅ 0 := by rw [hcP 0 1 h01, hcP 1 0 h10]
  constructor
  · intro hsh
    have hb := hs.2 hsh
    simp only [Bool.and_eq_true, Bool.not_eq_true'] at hb
    obtain ⟨⟨⟨g1, g2⟩, g3⟩, g4⟩ := hb
    have hMb : M' c = ∅ ∧ M' d = {c} := by
      rw [hMe]
      rcases hcd with ⟨rfl, rfl⟩ | ⟨rfl, rfl⟩ <;> simp [g1, g2, g3, g4, hi, Rcd.addAncestors]
    refine ⟨hMb.2, hMb.1, fun i => ?_⟩
    have := (adjacency_two hcd hsym (coef (L i) (X i)) hMb.1).1 hMb.2 (by rw [hcP c d (Or.inl ⟨rfl, rfl⟩)]; exact g3)
    refine ⟨?_, this.2⟩
    refine this.1.trans (congrArg some ((hreg i).2 ?_))
    intro h0
    exact hvar i (by unfold pearsonP; exact if_pos (Or.inl h0))
  · intro hsh
    have hb : ((testsA L sf g 2 X).nonGauss ∅ c && (testsA L sf g 2 X).nonGauss ∅ d && decide (q < g.corAlpha) &&
      !(testsA L sf g 2 X).indep ∅ c [d]) = false := by
      rw [← Bool.not_eq_true, hs]
      exact hsh
    have hMb : M' c = ∅ ∧ M' d = ∅ := by
      rw [hMe]
      rcases hcd with ⟨rfl, rfl⟩ | ⟨rfl, rfl⟩
      · rcases h0 : (testsA L sf g 2 X).nonGauss ∅ 0 <;> rcases h1 : (testsA L sf g 2 X).nonGauss ∅ 1 <;>
          rcases h2 : decide (q < g.corAlpha) <;> rcases h3 : (testsA L sf g 2 X).indep ∅ 0 [1] <;>
          simp_all
      · rcases h0 : (testsA L sf g 2 X).nonGauss ∅ 0 <;> rcases h1 : (testsA L sf g 2 X).nonGauss ∅ 1 <;>
          rcases h2 : decide (q < g.corAlpha) <;> rcases h3 : (testsA L sf g 2 X).indep ∅ 1 [0] <;>
          simp_all
    refine ⟨hMb.2, hMb.1, fun hc i => ?_, fun hc i => ?_⟩
    · have := (adjacency_two hcd hsym (coef (L i) (X i)) hMb.1).2 hMb.2
      rw [hcP c d (Or.inl ⟨rfl, rfl⟩), if_pos (decide_eq_true (hcor.1 hc))] at this
      exact this
    · have := (adjacency_two hcd hsym (coef (L i) (X i)) hMb.1).2 hMb.2
      rw [hcP c d (Or.inl ⟨rfl, rfl⟩), if_neg (by rw [decide_eq_true_iff]; exact fun h => hc (hcor.2 h))] at this
      exact this

/-- The data set of C239 and the same data set with the cause in units of another size. -/
noncomputable def twoCoins (i : Fin 2) : Nat → Fin 8 → ℝ := fun j r => (if i = 1 ∧ j = 0 then 1 / 2 else 1) * ResitData.coinX j r + 0

/-- C248: two data sets with the coefficients 1 and 2. -/
example : ∃ (l : Lib 8) (sf : Nat → WithTop ℝ → ℝ) (M : Rcd.Anc) (B : Fin 2 → Nat → Nat → Option ℝ), ChiSquaredTail sf ∧ OlsRight l ∧
    (∀ a b, 0 < a → 0 < b → l.gammaSf 0 a b = 1) ∧
    fit (fun _ : Fin 2 => l) sf ⟨1 / 100, 1 / 100, 1 / 100, false, true, 1 / 2⟩ 2 2 10 twoCoins = some (M, B) ∧
    M 1 = {0} ∧ B 0 1 0 = some 1 ∧ B 1 1 0 = some 2 ∧ ∀ i, B i 0 1 = some 0 := by
  choose b c h using fun (q : Nat) (Z : Fin q → Fin 8 → ℝ) (y : Fin 8 → ℝ) => exists_best_fit q (fun r k => Z k r) y
  let L : Lib 8 :=
    { ols := c, shapiro := fun _ => 0, pearsonSf := fun _ => 0, gammaSf := fun x _ _ => if x = 0 then 1 else 0,
      R := ⟨fun _ M => (0, M), fun _ _ l => l, fun _ _ => 0⟩, opt := fun _ _ x => x }
  have hL : OlsRight L := fun q Z y => ⟨b q Z y, fun b' c' => by
    have := h q Z y b' c'
    simpa only [sub_sub] using this⟩
  obtain ⟨sf, hsf⟩ := exists_tail
  have rep : ∀ a b : Fin 8 → ℝ, a 0 = a 1 → b 0 = b 1 → a 0 ≠ a 2 → b 0 ≠ b 4 →
      ∃ s p, Hsic.test L.gammaSf (Mlhsicr.col a) (Mlhsicr.col b) = .ok (some s, some p) := by
    intro a b h1 h2 h3 h4
    exact Hsic.C231_reported (by norm_num) _ ⟨0, 2, by decide, by decide, fun h => h3 (congrFun h 0)⟩
      ⟨0, 4, by decide, by decide, fun h => h4 (congrFun h 0)⟩ (i := 0) (j := 1) (by decide) (by funext _; exact h1) (by funext _; exact h2)
  have hc : ∀ (i : Fin 2) (j : Nat), (if i = 1 ∧ j = 0 then (1 / 2 : ℝ) else 1) ≠ 0 := by
    intro i j
    split <;> norm_num
  have hu : ∀ i, OtherUnits (fun j => if i = 1 ∧ j = 0 then (1 / 2 : ℝ) else 1) (fun _ => 0) ResitData.coinX (twoCoins i) := fun i j r => rfl
  have hp : ∀ i, pearsonP L (twoCoins i 0) (twoCoins i 1) = some 0 := by
    intro i
    refine (pearsonP_affine _ _ (hc i 0) (hc i 1) 0 0).trans ?_
    unfold pearsonP
    rw [if_neg]
    unfold codev mean ResitData.coinX
    simp only [if_true, if_neg one_ne_zero, Fin.sum_univ_eight]
    norm_num [Hsic.coinA, Hsic.coinB]
  have hq : ∀ i, hsicP L (resid L (twoCoins i) 0 [1]) (twoCoins i 1) = some 0 := by
    intro i
    have e : resid L (twoCoins i) 0 [1] = fun r => (if i = 1 ∧ (0 : Nat) = 0 then (1 / 2 : ℝ) else 1) * resid L ResitData.coinX 0 [1] r + 0 := by
      funext r
      rw [resid_units hL (hc i) (hu i), add_zero]
    rw [e]
    refine (hsicP_affine _ _ (hc i 0) (hc i 1) 0 0).trans ?_
    obtain ⟨s', p', ht'⟩ := rep (resid L ResitData.coinX 0 [1]) (ResitData.coinX 1) (by rw [coin_cause hL]; norm_num [Hsic.coinA, Hsic.coinB])
      (by norm_num [ResitData.coinX, Hsic.coinA, Hsic.coinB]) (by rw [coin_cause hL]; norm_num [Hsic.coinA, Hsic.coinB])
      (by norm_num [ResitData.coinX, Hsic.coinA, Hsic.coinB])
    have hdep : ¬ SampleIndependent (Mlhsicr.col (resid L ResitData.coinX 0 [1])) (Mlhsicr.col (ResitData.coinX 1)) := by
      intro hi
      have := (ParceData.pair_col.1 hi) (fun v => v ^ 2) (fun v => if v = 1 then 1 else 0)
      rw [coin_cause hL] at this
      simp only [Fin.sum_univ_eight, ResitData.coinX, if_neg one_ne_zero] at this
      norm_num [Hsic.coinA, Hsic.coinB] at this
    obtain ⟨h0, _⟩ := Hsic.C231_dependent (sf := L.gammaSf) (fun x _ _ hx _ _ => by simp only [L]; rw [if_neg hx.ne']; norm_num) ht' hdep
    obtain ⟨_, _, a', b', _, _, _, _, _, _, rfl, _⟩ := Hsic.C116_hsic_p_value _ _ _ _ _ ht'
    unfold hsicP
    rw [ht']
    simp only [L, if_neg h0.ne']
  have h00 : fisherP sf (fun _ : Fin 2 => some 0) = some 0 := by
    rw [fisherP_eq hsf (by norm_num) (q := fun _ => 0) fun _ => ⟨le_rfl, zero_le_one⟩]
    simp
  obtain ⟨M, B, hf⟩ := fit_exists (L := fun _ : Fin 2 => L) (sf := sf) (g := ⟨1 / 100, 1 / 100, 1 / 100, false, true, 1 / 2⟩)
    (X := twoCoins) 2 (maxNum := 2) (fuel := 10) (by omega) (by omega)
  have key := (C248_pair (e := fun _ r => Hsic.coinB r 0) (b := fun i => if i = 1 then 2 else 1) hsf (by norm_num) (fun _ => hL)
    (fun _ _ _ _ _ => if_pos rfl) rfl (by norm_num) (Or.inl ⟨rfl, rfl⟩)
    (fun i r => by
      by_cases hi : i = 1 <;> simp [twoCoins, ResitData.coinX, hi])
    (fun i f g => by
      have := ParceData.independent_symm Hsic.coins_independent (fun v => f (v 0))
        (fun v => g ((if i = 1 ∧ (0 : Nat) = 0 then (1 / 2 : ℝ) else 1) * v 0 + 0))
      exact this)
    (fun i => rep _ _ (by norm_num [Hsic.coinB]) (by norm_num [twoCoins, ResitData.coinX, Hsic.coinA])
      (fun h => by
        have : Hsic.coinB 0 0 = Hsic.coinB 2 0 := sub_left_injective h
        norm_num [Hsic.coinB] at this)
      (fun h => by
        have h2 : ResitData.coinX 0 0 = ResitData.coinX 0 4 := mul_left_cancel₀ (hc i 0) (add_right_cancel h)
        norm_num [ResitData.coinX, Hsic.coinA] at h2))
    (fun i => by rw [hp i]; exact Option.some_ne_none _) hf).1
  have hsh : ShowArrow (fun _ : Fin 2 => L) sf ⟨1 / 100, 1 / 100, 1 / 100, false, true, 1 / 2⟩ twoCoins 0 1 := by
    refine ⟨fun x _ => ⟨0, h00, by norm_num⟩, ⟨0, ?_, by norm_num⟩, ?_⟩
    · rw [← h00]
      exact congrArg _ (funext hp)
    · rintro ⟨p, h1, h2⟩
      have : fisherP sf (fun i => hsicP L (resid L (twoCoins i) 0 [1]) (twoCoins i 1)) = some 0 := by
        rw [← h00]
        exact congrArg _ (funext hq)
      rw [this, Option.some.injEq] at h1
      subst h1
      norm_num at h2
  obtain ⟨k1, _, k3⟩ := key hsh
  exact ⟨L, sf, M, B, hsf, hL, fun _ _ _ _ => if_pos rfl, hf, k1, (k3 0).1, (k3 1).1, fun i => (k3 i).2⟩

end Verif.GroupRcd
