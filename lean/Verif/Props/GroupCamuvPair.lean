import Verif.Model.GroupCamuvData
import Verif.Props.CamPair
import Verif.Props.FisherLevel

/-! C250: MultiGroupCAMUV for two variables, one of which is in every data set a function of the other plus an error that is exactly independent of it. -/
set_option autoImplicit false
set_option linter.unusedSectionVars false
namespace Verif.GroupRcd

variable {k : Nat} {sf : Nat → WithTop ℝ → ℝ}

/-- The combined p-value of p-values from 0 to 1 is at most 1, and 1 only if all of them are 1. -/
theorem fisherP_one (hsf : ChiSquaredTail sf) (hk : 0 < k) {ps : Fin k → Option ℝ} (hq : ∀ i q, ps i = some q → 0 ≤ q ∧ q ≤ 1) :
    (∀ p, fisherP sf ps = some p → p ≤ 1) ∧ (fisherP sf ps = some 1 ↔ ∀ i, ps i = some 1) := by
  by_cases hn : ∃ i, ps i = none
  · have e : fisherP sf ps = none := by
      unfold fisherP fisherStat
      rw [if_pos hn]
      rfl
    rw [e]
    refine ⟨fun p hp => (nomatch hp), ⟨fun h => (nomatch h), fun h => ?_⟩⟩
    obtain ⟨i, hi⟩ := hn
    rw [h i] at hi
    cases hi
  · have hs : ∀ i, ∃ q, ps i = some q := fun i => by
      cases hi : ps i with
      | none => exact absurd ⟨i, hi⟩ hn
      | some q => exact ⟨q, rfl⟩
    choose q hqs using hs
    have hr : ∀ i, 0 ≤ q i ∧ q i ≤ 1 := fun i => hq i _ (hqs i)
    obtain rfl : ps = fun i => some (q i) := funext hqs
    rw [fisherP_eq hsf hk hr]
    have hP0 : 0 ≤ ∏ i, q i := Finset.prod_nonneg fun i _ => (hr i).1
    have hP1 : ∏ i, q i ≤ 1 := Finset.prod_le_one (fun i _ => (hr i).1) fun i _ => (hr i).2
    have hlog : 0 ≤ -Real.log (∏ i, q i) := neg_nonneg.2 (Real.log_nonpos hP0 hP1)
    refine ⟨?_, ?_⟩
    · intro p hp
      simp only [Option.some.injEq] at hp
      rw [← hp]
      split_ifs
      · exact zero_le_one
      · exact tail_le_one k hlog
    · simp only [Option.some.injEq]
      constructor
      · intro h
        split_ifs at h with hz
        · exact absurd h zero_ne_one
        · obtain ⟨k, rfl⟩ : ∃ m, k = m + 1 := ⟨k - 1, by omega⟩
          have hl0 : -Real.log (∏ i, q i) = 0 := by
            by_contra hne
            have := tail_strictAnti k (Set.mem_Ici.2 le_rfl) (Set.mem_Ici.2 hlog) (lt_of_le_of_ne hlog (Ne.symm hne))
            rw [h, tail_zero] at this
            exact lt_irrefl _ this
          have hP : ∏ i, q i = 1 := Real.eq_one_of_pos_of_log_eq_zero (lt_of_le_of_ne hP0 (Ne.symm hz)) (neg_eq_zero.1 hl0)
          intro i
          by_contra hi
          have hlt : q i < 1 := lt_of_le_of_ne (hr i).2 hi
          have : ∏ j, q j ≤ q i := by
            rw [← Finset.mul_prod_erase _ _ (Finset.mem_univ i)]
            exact mul_le_of_le_one_right (hr i).1 (Finset.prod_le_one (fun j _ => (hr j).1) fun j _ => (hr j).2)
          linarith
      · intro h
        obtain ⟨k, rfl⟩ : ∃ m, k = m + 1 := ⟨k - 1, by omega⟩
        rw [Finset.prod_eq_one fun i _ => h i, if_neg one_ne_zero, Real.log_one, neg_zero, tail_zero]

end Verif.GroupRcd

namespace Verif.GroupCamuv
open CamuvData (Lib)
open GroupRcd (fisherP ChiSquaredTail fisherP_one)
open Rcd (Anc addAncestors)

variable {k : Nat} {N : Fin k → Nat} {L : ∀ i, Lib (N i)} {sf : Nat → WithTop ℝ → ℝ} {X : ∀ i, Nat → Fin (N i) → ℝ} {alpha : ℝ}

/-- The p-value of HSIC for two columns of one data set; `none` if there is none. -/
noncomputable def pairP {R : Nat} (l : Lib R) (a b : Fin R → ℝ) : Option ℝ :=
  match Hsic.test l.gammaSf (Mlhsicr.col a) (Mlhsicr.col b) with
  | .ok (_, p) => p
  | .error _ => none

/-- The two variables are found to be dependent at the level `alpha` by the combined test. -/
def FoundDependent (L : ∀ i, Lib (N i)) (sf : Nat → WithTop ℝ → ℝ) (alpha : ℝ) (X : ∀ i, Nat → Fin (N i) → ℝ) : Prop :=
  ¬ ∃ p, fisherP sf (fun i => pairP (L i) (X i 0) (X i 1)) = some p ∧ alpha < p

/-- In every data set the residual of `c` in its own regression on `d` is exactly independent of `d`, and HSIC gives a p-value. -/
def ReverseFits (L : ∀ i, Lib (N i)) (X : ∀ i, Nat → Fin (N i) → ℝ) (c d : Nat) : Prop :=
  ∀ i, SampleIndependent (CamuvData.residual (L i) 2 (X i) c {d}) (X i d) ∧ pairP (L i) (CamuvData.residual (L i) 2 (X i) c {d}) (X i d) ≠ none

theorem value_pair (n a b : Nat) (A : Finset Nat) :
    value L sf n X a A [(b, ∅)] = fisherP sf fun i => pairP (L i) (CamuvData.residual (L i) n (X i) a A) (X i b) :=
  congrArg (fisherP sf) (funext fun i => CamuvData.value_pair (X i) n a b A)

theorem isInd_iff {n a b : Nat} {prior : Option (List (Nat × Nat))} :
    Camuv.isInd (cfg L sf alpha prior n X) ((cfg L sf alpha prior n X).val a ∅ [(b, ∅)]) = true ↔
      ∃ p, fisherP sf (fun i => pairP (L i) (X i a) (X i b)) = some p ∧ alpha < p := by
  show Camuv.isInd (cfg L sf alpha prior n X) (value L sf n X a ∅ [(b, ∅)]) = true ↔ _
  rw [value_pair]
  have e : (fun i => pairP (L i) (CamuvData.residual (L i) n (X i) a ∅) (X i b)) = fun i => pairP (L i) (X i a) (X i b) :=
    funext fun i => by rw [show CamuvData.residual (L i) n (X i) a ∅ = X i a from if_pos rfl]
  rw [e]
  rcases fisherP sf (fun i => pairP (L i) (X i a) (X i b)) with _ | p <;> simp [Camuv.isInd, Camuv.isIndBy, cfg]

theorem getChild_two {K : Type} [LinearOrder K] [Zero K] [One K] (h01 : (0 : K) < 1) {q : Camuv.Cfg K} (hs : q.hsic = true) (hit : q.iter = id)
    (hpr : q.prior = none) {a b : Nat} (hab : (a = 0 ∧ b = 1) ∨ (a = 1 ∧ b = 0)) (ha : q.alpha < 1) (h1 : q.val b {a} [(a, ∅)] = some 1)
    (hle : ∀ p, q.val a {b} [(b, ∅)] = some p → p ≤ 1) :
    Camuv.getChild q (fun _ => ∅) (addAncestors (addAncestors (fun _ => ∅) 0 [1]) 1 [0]) [0, 1] =
      (some (if a = 0 ∧ q.val a {b} [(b, ∅)] = some 1 then a else b), true) := by
  set N' := addAncestors (addAncestors (fun _ => (∅ : Finset Nat)) 0 [1]) 1 [0] with hN'
  have r0 : Camuv.rest [0, 1] 0 = [1] := rfl
  have r1 : Camuv.rest [0, 1] 1 = [0] := rfl
  have k0 : Camuv.checkCorr N' 0 [1] = true := by simp [Camuv.checkCorr, hN', addAncestors]
  have k1 : Camuv.checkCorr N' 1 [0] = true := by simp [Camuv.checkCorr, hN', addAncestors]
  have pr : ∀ l i, Camuv.checkPrior q l i = false := fun _ _ => by unfold Camuv.checkPrior; rw [hpr]
  have v0 : Camuv.childVal q (fun _ => ∅) [0, 1] 0 = q.val 0 {1} [(1, ∅)] := by simp [Camuv.childVal, r0]
  have v1 : Camuv.childVal q (fun _ => ∅) [0, 1] 1 = q.val 1 {0} [(0, ∅)] := by simp [Camuv.childVal, r1]
  unfold Camuv.getChild
  simp only [hit, id, hs, if_true, List.foldl_cons, List.foldl_nil, Camuv.childStep, pr, r0, r1, k0, k1, v0, v1, Camuv.isIndBy]
  rcases hab with ⟨rfl, rfl⟩ | ⟨rfl, rfl⟩
  · rcases hv : q.val 0 {1} [(1, ∅)] with _ | p
    · simp [h1, ha, h01]
    · have hp := hle p hv
      by_cases hp1 : p = 1
      · subst hp1
        simp [h1, ha, h01]
      · have : p < 1 := lt_of_le_of_ne hp hp1
        by_cases h0 : 0 < p <;> simp [h1, h0, this, hp1, ha, h01]
  · rcases hv : q.val 1 {0} [(0, ∅)] with _ | p
    · simp [h1, ha, h01]
    · have hp := hle p hv
      simp [h1, ha, not_lt.2 hp, h01]

theorem pairP_range {R : Nat} {l : Lib R} (h0 : ∀ x a b, 0 ≤ l.gammaSf x a b) (hg : ∀ a b, 0 < a → 0 < b → l.gammaSf 0 a b = 1)
    (hlt : ∀ x a b, 0 < x → 0 < a → 0 < b → l.gammaSf x a b < 1) {a b : Fin R → ℝ} {p : ℝ} (hp : pairP l a b = some p) :
    (0 ≤ p ∧ p ≤ 1) ∧ (p = 1 ↔ SampleIndependent a b) := by
  unfold pairP at hp
  rcases ht : Hsic.test l.gammaSf (Mlhsicr.col a) (Mlhsicr.col b) with _ | ⟨_ | s, _ | q⟩
  · simp [ht] at hp
  · simp [ht] at hp
  · exact absurd ht (by
      unfold Hsic.test Hsic.testWith
      split_ifs
      · simp
      · rcases Hsic.kernelWidth (Mlhsicr.col a) with _ | _ <;> rcases Hsic.kernelWidth (Mlhsicr.col b) with _ | _ <;> simp)
  · simp [ht] at hp
  · rw [ht] at hp
    simp only [Option.some.injEq] at hp
    subst hp
    have hnn : 0 ≤ q := by
      obtain ⟨_, _, a', b', _, _, _, _, _, _, rfl, _⟩ := Hsic.C116_hsic_p_value _ _ _ _ _ ht
      exact h0 _ _ _
    by_cases hi : SampleIndependent a b
    · have := Hsic.C231_accepted hg ht (ParceData.pair_col.2 hi)
      exact ⟨⟨hnn, this.le⟩, iff_of_true this hi⟩
    · have := (Hsic.C231_dependent hlt ht (fun hc => hi (ParceData.pair_col.1 hc))).2
      exact ⟨⟨hnn, this.le⟩, iff_of_false this.ne hi⟩

/-- **C250.** Let the effect be in every data set a function of the cause plus an error that is exactly independent of the cause, with functions and errors
of its own, let the regressions find the functions up to a constant, and let HSIC give a p-value for every error.  Then MultiGroupCAMUV (HSIC, no
prior knowledge, level below 1) reports nothing if the combined test finds the two variables independent, and otherwise the arrow from the cause to
the effect - except that it reports the reverse arrow if the cause has the smaller column number and the reverse direction fits exactly in all data
sets, too.  One data set in which it does not fit is enough.  It never reports a hidden common cause. -/
theorem C250_pair (hsf : ChiSquaredTail sf) (hk : 0 < k) (h0 : ∀ i x a b, 0 ≤ (L i).gammaSf x a b)
    (hg : ∀ i a b, 0 < a → 0 < b → (L i).gammaSf 0 a b = 1) (hlt : ∀ i x a b, 0 < x → 0 < a → 0 < b → (L i).gammaSf x a b < 1)
    (ha : alpha < 1) {e : ∀ i, Fin (N i) → ℝ} {f : Fin k → ℝ → ℝ} {c d : Nat} (hcd : (c = 0 ∧ d = 1) ∨ (c = 1 ∧ d = 0))
    (hX : ∀ i r, X i d r = f i (X i c r) + e i r) (he : ∀ i, SampleIndependent (e i) (X i c)) {t : Fin k → ℝ}
    (hgam : ∀ i r, (L i).gam 1 (RcdData.cols (X i) [c]) (X i d) r = f i (X i c r) + t i) (hrep : ∀ i, pairP (L i) (e i) (X i c) ≠ none)
    {m fuel : Nat} {P : Anc} {B : Nat → Nat → Option ℚ} (h : fit L sf alpha none 2 m fuel X = some (P, B)) :
    (¬ FoundDependent L sf alpha X → P c = ∅ ∧ P d = ∅ ∧ ∀ i j, B i j = some 0) ∧
    (FoundDependent L sf alpha X → ¬ (c = 0 ∧ ReverseFits L X c d) → P d = {c} ∧ P c = ∅ ∧ B d c = some 1 ∧ B c d = some 0) ∧
    (FoundDependent L sf alpha X → (c = 0 ∧ ReverseFits L X c d) → P c = {d} ∧ P d = ∅ ∧ B c d = some 1 ∧ B d c = some 0) := by
  have hlist : ∀ x, x < 2 → RcdData.listOf 2 {x} = [x] := by
    intro x hx
    interval_cases x <;> rfl
  have hres : ∀ i, CamuvData.residual (L i) 2 (X i) d {c} = fun r => e i r + -t i := by
    intro i
    unfold CamuvData.residual
    rw [if_neg (by simp), hlist c (by omega)]
    funext r
    rw [show (L i).gam [c].length (RcdData.cols (X i) [c]) (X i d) r = f i (X i c r) + t i from hgam i r, hX i r]
    ring
  have hrange : ∀ i (a b : Fin (N i) → ℝ) q, pairP (L i) a b = some q → 0 ≤ q ∧ q ≤ 1 := fun i a b q hq =>
    (pairP_range (h0 i) (hg i) (hlt i) hq).1
  have hv1 : (cfg L sf alpha none 2 X).val d {c} [(c, ∅)] = some 1 := by
    show value L sf 2 X d {c} [(c, ∅)] = some 1
    rw [value_pair, (fisherP_one hsf hk fun i q hq => hrange i _ _ q hq).2]
    intro i
    rw [hres i]
    have hsh : pairP (L i) (fun r => e i r + -t i) (X i c) = pairP (L i) (e i) (X i c) := by
      have := Hsic.C114_hsic_units (L i).gammaSf (Mlhsicr.col (e i)) (Mlhsicr.col (X i c)) 1 1 (fun _ => -t i) (fun _ => 0) one_ne_zero one_ne_zero
      simp only [one_mul, add_zero] at this
      unfold pairP
      rw [← this]
      rfl
    rw [hsh]
    cases hp : pairP (L i) (e i) (X i c) with
    | none => exact absurd hp (hrep i)
    | some p => rw [(pairP_range (h0 i) (hg i) (hlt i) hp).2.2 (he i)]
  have hval : (cfg L sf alpha none 2 X).val c {d} [(d, ∅)] =
      fisherP sf fun i => pairP (L i) (CamuvData.residual (L i) 2 (X i) c {d}) (X i d) := value_pair 2 c d {d}
  have hone : (cfg L sf alpha none 2 X).val c {d} [(d, ∅)] = some 1 ↔ ReverseFits L X c d := by
    rw [hval, (fisherP_one hsf hk fun i q hq => hrange i _ _ q hq).2]
    refine forall_congr' fun i => ?_
    cases hp : pairP (L i) (CamuvData.residual (L i) 2 (X i) c {d}) (X i d) with
    | none => simp
    | some p => simp [(pairP_range (h0 i) (hg i) (hlt i) hp).2]
  have hsym : (cfg L sf alpha none 2 X).val 1 ∅ [(0, ∅)] = (cfg L sf alpha none 2 X).val 0 ∅ [(1, ∅)] := by
    show value L sf 2 X 1 ∅ [(0, ∅)] = value L sf 2 X 0 ∅ [(1, ∅)]
    rw [value_pair, value_pair]
    refine congrArg (fisherP sf) (funext fun i => ?_)
    rw [show CamuvData.residual (L i) 2 (X i) 0 ∅ = X i 0 from if_pos rfl, show CamuvData.residual (L i) 2 (X i) 1 ∅ = X i 1 from if_pos rfl]
    unfold pairP
    rw [Hsic.C113_hsic_symmetric]
  have hch := getChild_two (q := cfg L sf alpha none 2 X) zero_lt_one rfl rfl rfl hcd ha hv1 fun p hp =>
    (fisherP_one hsf hk fun i q hq => hrange i _ _ q hq).1 p (hval.symm.trans hp)
  have hdep : FoundDependent L sf alpha X →
      Camuv.isInd (cfg L sf alpha none 2 X) ((cfg L sf alpha none 2 X).val 0 ∅ [(1, ∅)]) = false := by
    intro hd
    rw [← Bool.not_eq_true, isInd_iff]
    exact hd
  refine ⟨fun hn => ?_, fun hd hno => ?_, fun hd hyes => ?_⟩
  · obtain ⟨rfl, hB⟩ := CamuvData.fit_none (c := cfg L sf alpha none 2 X) rfl rfl rfl (isInd_iff.2 (not_not.1 hn)) h
    exact ⟨rfl, rfl, hB⟩
  · rw [if_neg (fun hc => hno ⟨hc.1, hone.1 hc.2⟩)] at hch
    exact CamuvData.fit_arrow hcd (hdep hd) hsym hch h
  · rw [if_pos ⟨hyes.1, hone.2 hyes.2⟩] at hch
    exact CamuvData.fit_arrow (hcd.symm.imp And.symm And.symm) (hdep hd) hsym hch h

/-- A result is always returned. -/
theorem fit_returns (L : ∀ i, Lib (N i)) (sf : Nat → WithTop ℝ → ℝ) (alpha : ℝ) (prior : Option (List (Nat × Nat))) (n m : Nat)
    (X : ∀ i, Nat → Fin (N i) → ℝ) : ∃ fuel P B, fit L sf alpha prior n m fuel X = some (P, B) := by
  obtain ⟨P, hP, _⟩ := Camuv.C28_parents_terminate (c := cfg L sf alpha prior n X) (fun _ => List.Perm.refl _) n m
  refine ⟨(n * n + 1) * max 2 m, P, ?_⟩
  unfold fit Camuv.fit
  rw [hP _ le_rfl]
  exact ⟨_, rfl⟩

/-- Two coins in every data set: the second column is the first plus an independent coin, in the second data set three times the sum.  The arrow from the
first to the second is reported. -/
example : ∃ (sf : Nat → WithTop ℝ → ℝ) (L : Fin 2 → Lib 8) (fuel : Nat) (P : Anc) (B : Nat → Nat → Option ℚ), ChiSquaredTail sf ∧
    fit (N := fun _ => 8) L sf (1 / 100) none 2 2 fuel (fun i j r => (if i = 1 ∧ j = 1 then 3 else 1) * ResitData.coinX j r) = some (P, B) ∧
    P 1 = {0} ∧ P 0 = ∅ ∧ B 1 0 = some 1 ∧ B 0 1 = some 0 := by
  obtain ⟨sf, hsf⟩ := GroupRcd.exists_tail
  let u : Fin 2 → ℝ := fun i => if i = 1 then 3 else 1
  have hu : ∀ i, u i ≠ 0 := fun i => by simp only [u]; split <;> norm_num
  let L : Fin 2 → Lib 8 := fun i =>
    { gam := fun _ _ y r => if y 7 = 1 then ResitData.coinX 1 r / 2 else u i * ResitData.coinX 0 r, gammaSf := CamuvData.sharp }
  let X : Fin 2 → Nat → Fin 8 → ℝ := fun i j r => (if i = 1 ∧ j = 1 then 3 else 1) * ResitData.coinX j r
  have X0 : ∀ i, X i 0 = ResitData.coinX 0 := fun i => by funext r; simp [X]
  have X1 : ∀ i, X i 1 = fun r => u i * ResitData.coinX 1 r := fun i => by funext r; simp [X, u]
  have c7 : ResitData.coinX 0 7 = 1 := by norm_num [ResitData.coinX, Hsic.coinA]
  have d7 : ResitData.coinX 1 7 = 2 := by norm_num [ResitData.coinX, Hsic.coinA, Hsic.coinB]
  have hr1 : ∀ i, CamuvData.residual (L i) 2 (X i) 0 {1} = fun r => (Hsic.coinA r 0 - Hsic.coinB r 0) / 2 := by
    intro i
    unfold CamuvData.residual
    rw [if_neg (by simp)]
    funext r
    simp only [L, X0, c7, if_true]
    norm_num [ResitData.coinX]
    ring
  obtain ⟨fuel, P, B, hf⟩ := fit_returns (N := fun _ : Fin 2 => 8) L sf (1 / 100) none 2 2 X
  have hrep : ∀ {a b : Fin 8 → ℝ}, (∃ s p, Hsic.test CamuvData.sharp (Mlhsicr.col a) (Mlhsicr.col b) = .ok (some s, some p)) → ∀ i, pairP (L i) a b ≠ none := by
    rintro a b ⟨s, p, h⟩ i
    unfold pairP
    rw [show (L i).gammaSf = CamuvData.sharp from rfl, h]
    exact Option.some_ne_none _
  have key := C250_pair (N := fun _ : Fin 2 => 8) (L := L) (X := X) (e := fun i r => u i * Hsic.coinB r 0) (f := fun i v => u i * v) (t := fun _ => 0)
    (c := 0) (d := 1) hsf (by norm_num) (fun _ x a b => by show 0 ≤ CamuvData.sharp x a b; unfold CamuvData.sharp; split <;> norm_num)
    (fun _ _ _ _ _ => if_pos rfl)
    (fun _ x a b hx _ _ => by show CamuvData.sharp x a b < 1; unfold CamuvData.sharp; rw [if_neg hx.ne']; norm_num) (by norm_num) (Or.inl ⟨rfl, rfl⟩)
    (fun i r => by rw [X0, X1]; simp only [ResitData.coinX]; norm_num; ring)
    (fun i f g => by
      rw [X0]
      exact ParceData.independent_symm Hsic.coins_independent (fun v => f (u i * v 0)) (fun v => g (v 0)))
    (fun i r => by
      rw [X0, X1]
      simp only [L, d7]
      rw [if_neg (by simp only [u]; split <;> norm_num), add_zero])
    (fun i => by
      rw [X0]
      refine hrep (CamuvData.reported (by norm_num) 0 1 2 4 (by decide) (by decide) (by decide) (by decide) (by norm_num [Hsic.coinB])
        (by norm_num [ResitData.coinX, Hsic.coinA]) (fun h => ?_) (by norm_num [ResitData.coinX, Hsic.coinA])) i
      have h2 : Hsic.coinB 0 0 = Hsic.coinB 2 0 := mul_left_cancel₀ (hu i) h
      norm_num [Hsic.coinB] at h2) hf
  have hdep : ∀ i, pairP (L i) (X i 0) (X i 1) = some 0 := by
    intro i
    obtain ⟨s, p, ht⟩ := CamuvData.reported (sf := CamuvData.sharp) (a := X i 0) (b := X i 1) (by norm_num) 0 1 4 2 (by decide) (by decide) (by decide) (by decide)
      (by rw [X0]; norm_num [ResitData.coinX, Hsic.coinA]) (by rw [X1]; norm_num [ResitData.coinX, Hsic.coinA, Hsic.coinB])
      (by rw [X0]; norm_num [ResitData.coinX, Hsic.coinA]) (by rw [X1]; norm_num [ResitData.coinX, Hsic.coinA, Hsic.coinB]; exact (hu i).symm)
    have hno : ¬ SampleIndependent (X i 0) (X i 1) := by
      intro hi
      have := hi id (fun v => v / u i)
      rw [X0, X1] at this
      simp only [id, mul_div_cancel_left₀ _ (hu i), Fin.sum_univ_eight] at this
      norm_num [ResitData.coinX, Hsic.coinA, Hsic.coinB] at this
    obtain ⟨h1, _⟩ := Hsic.C231_dependent (sf := CamuvData.sharp) (fun x _ _ hx _ _ => by unfold CamuvData.sharp; rw [if_neg hx.ne']; norm_num) ht
      (fun hc => hno (ParceData.pair_col.1 hc))
    obtain ⟨_, _, a', b', _, _, _, _, _, _, rfl, _⟩ := Hsic.C116_hsic_p_value _ _ _ _ _ ht
    unfold pairP
    rw [show (L i).gammaSf = CamuvData.sharp from rfl, ht]
    simp only [CamuvData.sharp, if_neg h1.ne']
  refine ⟨sf, L, fuel, P, B, hsf, hf, key.2.1 ?_ ?_⟩
  · rintro ⟨p, hp, hlt⟩
    rw [show (fun i => pairP (L i) (X i 0) (X i 1)) = fun _ => some 0 from funext hdep,
      GroupRcd.fisherP_eq hsf (by norm_num) (q := fun _ => 0) fun _ => ⟨le_rfl, zero_le_one⟩] at hp
    simp at hp
    subst hp
    norm_num at hlt
  · rintro ⟨_, hi⟩
    have := (hi 0).1 (fun v => v ^ 2) (fun v => if v = 1 then 1 else 0)
    rw [hr1, X1] at this
    simp only [u, Fin.sum_univ_eight, ResitData.coinX] at this
    norm_num [Hsic.coinA, Hsic.coinB] at this

end Verif.GroupCamuv
