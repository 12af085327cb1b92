import Verif.Props.ParceNoise
import Verif.Props.Inputs
import Verif.Proofs.RcdPopulation

/-! C239: RCD for two variables, one of which is a linear function of the other plus an error that is exactly independent of it. -/
set_option autoImplicit false
set_option linter.unusedSectionVars false
namespace Verif.RcdData
open Finset

/-! ### The search with two variables -/

theorem pass_two (t : Rcd.Tests) (s : Rcd.St) : Rcd.pass t 2 1 s = Rcd.body t { s with changed := false } [0, 1] := rfl

/-- The ancestors after the search are those after the first look at the pair. -/
theorem ancestors_two {t : Rcd.Tests} {m fuel : Nat} {M : Rcd.Anc} (h : Rcd.extractAncestors t 2 m fuel = some M) :
    M = (Rcd.body t ⟨fun _ => ∅, [], false⟩ [0, 1]).M := by
  have key : ∀ fuel (s : Rcd.St) M, (Rcd.pass t 2 1 s).changed = false → Rcd.loop t 2 m fuel 1 s = some M → M = (Rcd.pass t 2 1 s).M := by
    intro fuel s M hc h
    cases fuel with
    | zero => cases h
    | succ fuel =>
      unfold Rcd.loop at h
      simp only [hc, Bool.false_eq_true, if_false] at h
      split at h
      · exact Inputs.loop_tail m fuel 2 _ M le_rfl h
      · exact (Option.some.inj h).symm
  unfold Rcd.extractAncestors at h
  by_cases hc : (Rcd.pass t 2 1 ⟨fun _ => ∅, [], false⟩).changed = false
  · exact key fuel _ M hc h
  · cases fuel with
    | zero => cases h
    | succ fuel =>
      unfold Rcd.loop at h
      rw [Bool.not_eq_false] at hc
      simp only [hc, if_true] at h
      set s := Rcd.pass t 2 1 ⟨fun _ => ∅, [], false⟩ with hs
      have hb : s = Rcd.body t ⟨fun _ => ∅, [], false⟩ [0, 1] := hs
      rw [← hb]
      have hn : Rcd.pass t 2 1 s = { s with changed := false } := by
        rw [pass_two]
        rcases Rcd.body_cases t ⟨fun _ => ∅, [], false⟩ [0, 1] with ⟨h0, _⟩ | ⟨_, _, hM, hh⟩
        · rw [hb, h0] at hc
          cases hc
        · have hE : Rcd.commonAncestors s.M [0, 1] = ∅ := by
            rw [hb, hM, Finset.eq_empty_iff_forall_notMem]
            intro j hj
            have hj' := (Rcd.mem_commonAncestors (by simp)).1 hj
            have h0 := Rcd.mem_applySink.1 (hj' 0 (by simp))
            have h1 := Rcd.mem_applySink.1 (hj' 1 (by simp))
            simp only [Finset.notMem_empty, false_or] at h0 h1
            rw [h0.1] at h1
            simp at h1
          have hl : Rcd.St.lookup { s with changed := false } [0, 1] = some (Rcd.commonAncestors s.M [0, 1]) := by
            rw [hE]
            unfold Rcd.St.lookup
            simp only
            rw [hb, hh]
            rfl
          unfold Rcd.body
          simp only
          rw [if_pos hl]
      have := key fuel s M (by rw [hn]) h
      rw [hn] at this
      exact this

/-- The first look at the pair. -/
theorem body_two (t : Rcd.Tests) : (Rcd.body t ⟨fun _ => ∅, [], false⟩ [0, 1]).M =
    if (t.nonGauss ∅ 0 && t.nonGauss ∅ 1 && t.corr ∅ 0 ∅ 1) = true then
      if (t.indep ∅ 0 [1] && !t.indep ∅ 1 [0]) = true then Rcd.addAncestors (fun _ => ∅) 0 [1]
      else if (t.indep ∅ 1 [0] && !t.indep ∅ 0 [1]) = true then Rcd.addAncestors (fun _ => ∅) 1 [0] else fun _ => ∅
    else fun _ => ∅ := by
  have e : Rcd.commonAncestors (fun _ => ∅) [0, 1] = ∅ := by simp [Rcd.commonAncestors]
  have o0 : Rcd.others [0, 1] 0 = [1] := rfl
  have o1 : Rcd.others [0, 1] 1 = [0] := rfl
  have c2 : Rcd.combos 2 [0, 1] = [[0, 1]] := rfl
  have hl : Rcd.St.lookup ⟨fun _ => ∅, [], false⟩ [0, 1] = none := rfl
  have x0 : Rcd.existsAncestor (fun _ => ∅) 0 [1] = false := by simp [Rcd.existsAncestor]
  have x1 : Rcd.existsAncestor (fun _ => ∅) 1 [0] = false := by simp [Rcd.existsAncestor]
  unfold Rcd.body
  simp only [e, hl, Rcd.allCorrelated, c2, Rcd.sinkSet]
  rcases h0 : t.nonGauss ∅ 0 <;> rcases h1 : t.nonGauss ∅ 1 <;> rcases h2 : t.corr ∅ 0 ∅ 1 <;> rcases h3 : t.indep ∅ 0 [1] <;>
    rcases h4 : t.indep ∅ 1 [0] <;>
    simp [h0, h1, h2, h3, h4, o0, o1, x0, x1, Rcd.applySink]

/-- The rows of the adjacency matrix for two variables, from the ancestors. -/
theorem adjacency_two {K : Type} [Zero K] {t : Rcd.Tests} {c d : Nat} (hcd : (c = 0 ∧ d = 1) ∨ (c = 1 ∧ d = 0))
    (hsym : t.corr ∅ 0 ∅ 1 = t.corr ∅ 1 ∅ 0) (coef : List Nat → Nat → Nat → K) {M : Rcd.Anc} (hc : M c = ∅) :
    (M d = {c} → t.corr ∅ c ∅ d = true →
      Rcd.adjacency coef 2 (Rcd.extractParents t 2 M) (Rcd.extractConfounded t 2 (Rcd.extractParents t 2 M)) d c = some (coef [c] d c) ∧
      Rcd.adjacency coef 2 (Rcd.extractParents t 2 M) (Rcd.extractConfounded t 2 (Rcd.extractParents t 2 M)) c d = some 0) ∧
    (M d = ∅ →
      Rcd.adjacency coef 2 (Rcd.extractParents t 2 M) (Rcd.extractConfounded t 2 (Rcd.extractParents t 2 M)) d c =
        (if t.corr ∅ c ∅ d then none else some 0) ∧
      Rcd.adjacency coef 2 (Rcd.extractParents t 2 M) (Rcd.extractConfounded t 2 (Rcd.extractParents t 2 M)) c d =
        (if t.corr ∅ c ∅ d then none else some 0)) := by
  have c2 : Rcd.combos 2 [0, 1] = [[0, 1]] := rfl
  have r2 : List.range 2 = [0, 1] := rfl
  constructor
  · intro hd hcor
    rcases hcd with ⟨rfl, rfl⟩ | ⟨rfl, rfl⟩ <;>
      simp [Rcd.adjacency, Rcd.extractParents, Rcd.extractConfounded, c2, r2, Rcd.confStep, Rcd.isParent, hc, hd, hcor, Finset.filter_singleton]
  · intro hd
    rcases hcd with ⟨rfl, rfl⟩ | ⟨rfl, rfl⟩ <;> rcases h2 : t.corr ∅ 0 ∅ 1 <;> rw [h2] at hsym <;>
      simp [Rcd.adjacency, Rcd.extractParents, Rcd.extractConfounded, c2, r2, Rcd.confStep, hc, hd, h2, ← hsym, Rcd.addAncestors]

/-- Everything for two variables: `c` is the cause, and the residual of the effect `d` passes the test. -/
theorem fit_two {K : Type} [Zero K] {t : Rcd.Tests} {c d : Nat} (hcd : (c = 0 ∧ d = 1) ∨ (c = 1 ∧ d = 0)) (hi : t.indep ∅ d [c] = true)
    (hsym : t.corr ∅ 0 ∅ 1 = t.corr ∅ 1 ∅ 0) (coef : List Nat → Nat → Nat → K) {m fuel : Nat} {M : Rcd.Anc} {B : Nat → Nat → Option K}
    (h : Rcd.fit t coef 2 m fuel = some (M, B)) :
      ((t.nonGauss ∅ c && t.nonGauss ∅ d && t.corr ∅ c ∅ d && !t.indep ∅ c [d]) = true →
        M d = {c} ∧ M c = ∅ ∧ B d c = some (coef [c] d c) ∧ B c d = some 0) ∧
      ((t.nonGauss ∅ c && t.nonGauss ∅ d && t.corr ∅ c ∅ d && !t.indep ∅ c [d]) = false →
        M d = ∅ ∧ M c = ∅ ∧ B d c = (if t.corr ∅ c ∅ d then none else some 0) ∧ B c d = (if t.corr ∅ c ∅ d then none else some 0)) := by
  unfold Rcd.fit at h
  rcases hM : Rcd.extractAncestors t 2 m fuel with _ | M'
  · rw [hM] at h
    cases h
  rw [hM] at h
  simp only [Option.some.injEq, Prod.mk.injEq] at h
  obtain ⟨rfl, rfl⟩ := h
  have hMe := ancestors_two hM
  rw [body_two] at hMe
  constructor
  · intro hg
    simp only [Bool.and_eq_true, Bool.not_eq_true'] at hg
    obtain ⟨⟨⟨g1, g2⟩, g3⟩, g4⟩ := hg
    have hb : M' c = ∅ ∧ M' d = {c} := by
      rw [hMe]
      rcases hcd with ⟨rfl, rfl⟩ | ⟨rfl, rfl⟩
      · simp [g1, g2, g3, g4, hi, Rcd.addAncestors]
      · rw [← hsym] at g3
        simp [g1, g2, g3, g4, hi, Rcd.addAncestors]
    have := (adjacency_two hcd hsym coef hb.1).1 hb.2 g3
    exact ⟨hb.2, hb.1, this⟩
  · intro hg
    have hb : M' c = ∅ ∧ M' d = ∅ := by
      rw [hMe]
      rcases hcd with ⟨rfl, rfl⟩ | ⟨rfl, rfl⟩
      · rcases h0 : t.nonGauss ∅ 0 <;> rcases h1 : t.nonGauss ∅ 1 <;> rcases h2 : t.corr ∅ 0 ∅ 1 <;> rcases h3 : t.indep ∅ 0 [1] <;>
          simp_all
      · rcases h0 : t.nonGauss ∅ 0 <;> rcases h1 : t.nonGauss ∅ 1 <;> rcases h2 : t.corr ∅ 0 ∅ 1 <;> rcases h3 : t.indep ∅ 1 [0] <;>
          simp_all
    exact ⟨hb.2, hb.1, (adjacency_two hcd hsym coef hb.1).2 hb.2⟩

/-! ### The tests on the data -/

variable {N : Nat} {L : Lib N} {g : Cfg}

theorem codev_comm (a b : Fin N → ℝ) : codev a b = codev b a := Finset.sum_congr rfl fun _ _ => mul_comm _ _

theorem isCorrelated_comm (a b : Fin N → ℝ) : isCorrelated L g a b = isCorrelated L g b a := by
  have : pearsonP L a b = pearsonP L b a := by
    unfold pearsonP
    rw [codev_comm a b, mul_comm (Real.sqrt (codev a a))]
    simp only [or_comm]
  unfold isCorrelated
  rw [this]

/-- The residual of the effect is the centred error, and the coefficient is the true one unless the cause is constant. -/
theorem effect_regression (hL : OlsRight L) {X : Nat → Fin N → ℝ} {e : Fin N → ℝ} {b : ℝ} {c d : Nat} (hX : ∀ r, X d r = b * X c r + e r)
    (he : SampleIndependent e (X c)) :
    resid L X d [c] = (fun r => e r - mean e) ∧ (codev (X c) (X c) ≠ 0 → coef L X [c] d c = b) := by
  have hr : resid L X d [c] = fun r => e r - mean e := by
    funext r
    refine ResitData.fit_residual (q := [c].length) (Z := fun r k => X ([c].get k) r) (b := fun _ => b) (hL _ _ _) (fun r => ?_) (fun k => ?_) r
    · have : ∑ k : Fin [c].length, b * X ([c].get k) r = b * X c r := Fin.sum_univ_one _
      rw [this, hX]
    · have : k = ⟨0, by simp⟩ := Fin.ext (Nat.lt_one_iff.1 k.isLt)
      subst this
      exact he (fun v => v) (fun v => v)
  refine ⟨hr, fun hne => ?_⟩
  have hc : coef L X [c] d c = L.ols 1 (cols X [c]) (X d) 0 := by
    unfold coef
    rw [dif_pos (by simp)]
    congr 1
    exact Fin.ext (by simp)
  set k := L.ols 1 (cols X [c]) (X d) 0 with hk
  by_contra hb
  apply hne
  have hN : N ≠ 0 := by
    rintro rfl
    exact hne (by simp [codev])
  have hmean : mean (X d) = b * mean (X c) + mean e := by
    unfold mean
    rw [Finset.sum_congr rfl fun r _ => hX r, Finset.sum_add_distrib, ← Finset.mul_sum]
    ring
  refine Finset.sum_eq_zero fun r _ => ?_
  have h := congrFun hr r
  have h' : resid L X d [c] r = X d r - (k * X c r + (mean (X d) - k * mean (X c))) := by
    unfold resid residOf
    rw [show ∑ q : Fin [c].length, L.ols [c].length (cols X [c]) (X d) q * cols X [c] q r = k * X c r from Fin.sum_univ_one _,
      show ∑ q : Fin [c].length, L.ols [c].length (cols X [c]) (X d) q * mean (cols X [c] q) = k * mean (X c) from Fin.sum_univ_one _]
  rw [h', hX, hmean] at h
  have : (b - k) * (X c r - mean (X c)) = 0 := by linarith
  rcases mul_eq_zero.1 this with h0 | h0
  · exact absurd (by linarith) hb
  · rw [h0]; ring

/-- What the data must show for an arrow from `c` to `d`. -/
def ShowsArrow (L : Lib N) (g : Cfg) (X : Nat → Fin N → ℝ) (c d : Nat) : Prop :=
  L.shapiro (X c) ≤ g.shapiroAlpha ∧ L.shapiro (X d) ≤ g.shapiroAlpha ∧ (∃ p, pearsonP L (X c) (X d) = some p ∧ p < g.corAlpha) ∧
    ¬ ∃ s p, Hsic.test L.gammaSf (Mlhsicr.col (resid L X c [d])) (Mlhsicr.col (X d)) = .ok (s, some p) ∧ g.indAlpha < p

theorem isCorrelated_iff (a b : Fin N → ℝ) : isCorrelated L g a b = true ↔ ∃ p, pearsonP L a b = some p ∧ p < g.corAlpha := by
  unfold isCorrelated
  rcases pearsonP L a b with _ | p <;> simp

theorem isIndependent_iff (hh : g.hsic = true) (a b : Fin N → ℝ) : isIndependent L g a b = true ↔
    ∃ s p, Hsic.test L.gammaSf (Mlhsicr.col a) (Mlhsicr.col b) = .ok (s, some p) ∧ g.indAlpha < p := by
  unfold isIndependent
  rw [if_pos hh]
  rcases Hsic.test L.gammaSf (Mlhsicr.col a) (Mlhsicr.col b) with _ | ⟨s, _ | p⟩ <;> simp

theorem indep_pair (X : Nat → Fin N → ℝ) (x y : Nat) : (tests L g 2 X).indep ∅ x [y] = isIndependent L g (resid L X x [y]) (X y) := by
  have hw : without L 2 X ∅ = X := by
    funext x
    exact if_pos rfl
  show isIndependentOfResid L g (without L 2 X ∅) x [y] = _
  rw [hw]
  unfold isIndependentOfResid
  rcases hq : isIndependent L g (resid L X x [y]) (X y) <;> simp [hq]

/-- **C239.** One variable is a linear function of the other plus an error that is exactly independent of it, and the independence of
the two can be tested by HSIC.  Then RCD never reports an arrow from the effect to the cause; it reports the arrow from the cause to the
effect, with the exact coefficient, if and only if the Shapiro test rejects normality of both, the two are found to be correlated, and the
residual of the cause is found to depend on the effect; otherwise it reports a common cause if the two are found to be correlated, and
nothing if not. -/
theorem C239_pair (hL : OlsRight L) (hg : ∀ a b, 0 < a → 0 < b → L.gammaSf 0 a b = 1) (hh : g.hsic = true) (ha : g.indAlpha < 1)
    {X : Nat → Fin N → ℝ} {e : Fin N → ℝ} {b : ℝ} {c d : Nat} (hcd : (c = 0 ∧ d = 1) ∨ (c = 1 ∧ d = 0))
    (hX : ∀ r, X d r = b * X c r + e r) (he : SampleIndependent e (X c))
    (hrep : ∃ s p, Hsic.test L.gammaSf (Mlhsicr.col (fun r => e r - mean e)) (Mlhsicr.col (X c)) = .ok (some s, some p))
    {m fuel : Nat} {M : Rcd.Anc} {B : Nat → Nat → Option ℝ} (h : fit L g 2 m fuel X = some (M, B)) :
    (ShowsArrow L g X c d → M d = {c} ∧ M c = ∅ ∧ B d c = some b ∧ B c d = some 0) ∧
    (¬ ShowsArrow L g X c d → M d = ∅ ∧ M c = ∅ ∧
      ((∃ p, pearsonP L (X c) (X d) = some p ∧ p < g.corAlpha) → B d c = none ∧ B c d = none) ∧
      ((¬ ∃ p, pearsonP L (X c) (X d) = some p ∧ p < g.corAlpha) → B d c = some 0 ∧ B c d = some 0)) := by
  obtain ⟨hr, hb⟩ := effect_regression hL hX he
  have hi : (tests L g 2 X).indep ∅ d [c] = true := by
    rw [indep_pair, isIndependent_iff hh, hr]
    obtain ⟨s, p, hp⟩ := hrep
    refine ⟨some s, p, hp, ?_⟩
    rw [Hsic.C231_accepted hg hp (ParceData.pair_col.2 (ResitData.independent_shift he _))]
    exact ha
  have hco : ∀ x y, (tests L g 2 X).corr ∅ x ∅ y = isCorrelated L g (X x) (X y) := fun x y => rfl
  have hng : ∀ x, (tests L g 2 X).nonGauss ∅ x = true ↔ L.shapiro (X x) ≤ g.shapiroAlpha := fun x => by
    show (!decide (g.shapiroAlpha < L.shapiro (X x))) = true ↔ _
    simp
  have hsym : (tests L g 2 X).corr ∅ 0 ∅ 1 = (tests L g 2 X).corr ∅ 1 ∅ 0 := by rw [hco, hco, isCorrelated_comm]
  obtain ⟨h1, h2⟩ := fit_two hcd hi hsym (coef L X) h
  have hs : ((tests L g 2 X).nonGauss ∅ c && (tests L g 2 X).nonGauss ∅ d && (tests L g 2 X).corr ∅ c ∅ d &&
      !(tests L g 2 X).indep ∅ c [d]) = true ↔ ShowsArrow L g X c d := by
    unfold ShowsArrow
    rw [Bool.and_eq_true, Bool.and_eq_true, Bool.and_eq_true, hng, hng, hco, isCorrelated_iff, Bool.not_eq_true', indep_pair,
      ← isIndependent_iff hh, Bool.not_eq_true]
    tauto
  constructor
  · intro hsh
    obtain ⟨g1, g2, g3, g4⟩ := h1 (hs.2 hsh)
    refine ⟨g1, g2, ?_, g4⟩
    rw [g3, hb]
    obtain ⟨_, _, ⟨p, hp, _⟩, _⟩ := hsh
    intro h0
    unfold pearsonP at hp
    rw [if_pos (Or.inl h0)] at hp
    cases hp
  · intro hsh
    obtain ⟨g1, g2, g3, g4⟩ := h2 (by rw [← Bool.not_eq_true, hs]; exact hsh)
    refine ⟨g1, g2, fun hc => ?_, fun hc => ?_⟩
    · rw [hco, if_pos ((isCorrelated_iff _ _).2 hc)] at g3 g4
      exact ⟨g3, g4⟩
    · rw [hco, if_neg (fun h => hc ((isCorrelated_iff _ _).1 h))] at g3 g4
      exact ⟨g3, g4⟩

/-! ### A case meeting the hypotheses: the sum of two throws of a coin -/

theorem coin_cause {L : Lib 8} (hL : OlsRight L) : resid L ResitData.coinX 0 [1] = fun r => (Hsic.coinA r 0 - Hsic.coinB r 0) / 2 := by
  funext r
  have h := ResitData.fit_residual (q := [1].length) (Z := fun r k => ResitData.coinX ([1].get k) r) (y := ResitData.coinX 0)
    (b := fun _ => 1 / 2) (ε := fun r => (Hsic.coinA r 0 - Hsic.coinB r 0) / 2) (hL _ _ _)
    (fun r => by
      have : ∑ k : Fin [1].length, (1 / 2 : ℝ) * ResitData.coinX ([1].get k) r = 1 / 2 * ResitData.coinX 1 r := Fin.sum_univ_one _
      rw [this]
      simp only [ResitData.coinX, if_true, if_neg one_ne_zero]
      ring)
    (fun k => by
      have : k = ⟨0, by simp⟩ := Fin.ext (Nat.lt_one_iff.1 k.isLt)
      subst this
      norm_num [ResitData.coinX, Hsic.coinA, Hsic.coinB, Fin.sum_univ_eight]) r
  refine Eq.trans h ?_
  norm_num [Hsic.coinA, Hsic.coinB, Fin.sum_univ_eight]

/-- With a library as required the arrow from the first coin to the sum is found, with the coefficient 1, and not the reverse. -/
example : ∃ (L : Lib 8) (M : Rcd.Anc) (B : Nat → Nat → Option ℝ), OlsRight L ∧ (∀ a b, 0 < a → 0 < b → L.gammaSf 0 a b = 1) ∧
    fit L ⟨1 / 100, 1 / 100, 1 / 100, false, true, 1 / 2⟩ 2 2 10 ResitData.coinX = some (M, B) ∧ M 1 = {0} ∧ B 1 0 = some 1 ∧ B 0 1 = some 0 := by
  choose b c h using fun (q : Nat) (Z : Fin q → Fin 8 → ℝ) (y : Fin 8 → ℝ) => exists_best_fit q (fun r k => Z k r) y
  let L : Lib 8 :=
    { ols := c, shapiro := fun _ => 0, pearsonSf := fun _ => 0, gammaSf := fun x _ _ => if x = 0 then 1 else 0,
      R := ⟨fun _ M => (0, M), fun _ _ l => l, fun _ _ => 0⟩, opt := fun _ _ x => x }
  have hL : OlsRight L := fun q Z y => ⟨b q Z y, fun b' c' => by
    have := h q Z y b' c'
    simpa only [sub_sub] using this⟩
  have rep : ∀ a b : Fin 8 → ℝ, a 0 = a 1 → b 0 = b 1 → a 0 ≠ a 2 → b 0 ≠ b 4 →
      ∃ s p, Hsic.test L.gammaSf (Mlhsicr.col a) (Mlhsicr.col b) = .ok (some s, some p) := by
    intro a b h1 h2 h3 h4
    exact Hsic.C231_reported (by norm_num) _ ⟨0, 2, by decide, by decide, fun h => h3 (congrFun h 0)⟩
      ⟨0, 4, by decide, by decide, fun h => h4 (congrFun h 0)⟩ (i := 0) (j := 1) (by decide) (by funext _; exact h1) (by funext _; exact h2)
  obtain ⟨M, hM, _⟩ := Rcd.C25_ancestors_terminate (tests L ⟨1 / 100, 1 / 100, 1 / 100, false, true, 1 / 2⟩ 2 ResitData.coinX) 2 (maxNum := 2) (by omega)
  obtain ⟨B, hf⟩ : ∃ B, fit L ⟨1 / 100, 1 / 100, 1 / 100, false, true, 1 / 2⟩ 2 2 10 ResitData.coinX = some (M, B) := by
    unfold fit Rcd.fit
    rw [hM 10 (by norm_num)]
    exact ⟨_, rfl⟩
  have key := (C239_pair (e := fun r => Hsic.coinB r 0) (b := 1) hL (fun _ _ _ _ => if_pos rfl) rfl (by norm_num) (Or.inl ⟨rfl, rfl⟩)
    (fun r => by
      simp only [ResitData.coinX, if_true, if_neg one_ne_zero]
      ring)
    (fun f g => ParceData.independent_symm Hsic.coins_independent (fun v => f (v 0)) (fun v => g (v 0)))
    (rep _ _ (by norm_num [Hsic.coinB]) (by norm_num [ResitData.coinX, Hsic.coinA])
      (fun h => by
        have : Hsic.coinB 0 0 = Hsic.coinB 2 0 := sub_left_injective h
        norm_num [Hsic.coinB] at this) (by norm_num [ResitData.coinX, Hsic.coinA]))
    hf).1
  have hsh : ShowsArrow L ⟨1 / 100, 1 / 100, 1 / 100, false, true, 1 / 2⟩ ResitData.coinX 0 1 := by
    refine ⟨by norm_num [L], by norm_num [L], ⟨0, ?_, by norm_num⟩, ?_⟩
    · unfold pearsonP
      rw [if_neg]
      unfold codev mean ResitData.coinX
      simp only [if_true, if_neg one_ne_zero, Fin.sum_univ_eight]
      norm_num [Hsic.coinA, Hsic.coinB]
    · rintro ⟨s, p, ht, hp⟩
      obtain ⟨s', p', ht'⟩ := rep (resid L ResitData.coinX 0 [1]) (ResitData.coinX 1) (by rw [coin_cause hL]; norm_num [Hsic.coinA, Hsic.coinB])
        (by norm_num [ResitData.coinX, Hsic.coinA, Hsic.coinB]) (by rw [coin_cause hL]; norm_num [Hsic.coinA, Hsic.coinB])
        (by norm_num [ResitData.coinX, Hsic.coinA, Hsic.coinB])
      rw [ht'] at ht
      simp only [Except.ok.injEq, Prod.mk.injEq, Option.some.injEq] at ht
      obtain ⟨_, rfl⟩ := ht
      have hdep : ¬ SampleIndependent (Mlhsicr.col (resid L ResitData.coinX 0 [1])) (Mlhsicr.col (ResitData.coinX 1)) := by
        intro hi
        have := (ParceData.pair_col.1 hi) (fun v => v ^ 2) (fun v => if v = 1 then 1 else 0)
        rw [coin_cause hL] at this
        simp only [Fin.sum_univ_eight, ResitData.coinX, if_neg one_ne_zero] at this
        norm_num [Hsic.coinA, Hsic.coinB] at this
      obtain ⟨h0, _⟩ := Hsic.C231_dependent (sf := L.gammaSf) (fun x _ _ hx _ _ => by simp only [L]; rw [if_neg hx.ne']; norm_num) ht' hdep
      obtain ⟨_, _, a', b', _, _, _, _, _, _, rfl, _⟩ := Hsic.C116_hsic_p_value _ _ _ _ _ ht'
      simp only [L, if_neg h0.ne'] at hp
      norm_num at hp
  obtain ⟨k1, _, k3, k4⟩ := key hsh
  exact ⟨L, M, B, hL, fun _ _ _ _ => if_pos rfl, hf, k1, k3, k4⟩

end Verif.RcdData
