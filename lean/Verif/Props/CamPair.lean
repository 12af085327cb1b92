import Verif.Model.CamuvData
import Verif.Props.RcdPair
import Verif.Props.Camuv

/-! C242: CAM-UV for two variables, one of which is a function of the other plus an error that is exactly independent of it. -/
set_option autoImplicit false
set_option linter.unusedSectionVars false
namespace Verif.CamuvData
open Camuv (Cfg)
open Rcd (Anc addAncestors)

/-! ### The search with two variables -/

section two
variable {K : Type} [LinearOrder K] [Zero K] [One K] {c : Cfg K}

theorem pass_two (N P : Anc) : Camuv.pass c N 2 2 P = Camuv.body c N (P, false) [0, 1] := rfl

theorem pass_more (N P : Anc) {t : Nat} (ht : 2 < t) : Camuv.pass c N 2 t P = (P, false) := by
  obtain ⟨t, rfl⟩ : ∃ s, t = s + 3 := ⟨t - 3, by omega⟩
  have : Rcd.combos (t + 3) (List.range 2) = [] := by simp [List.range_succ, Rcd.combos]
  unfold Camuv.pass
  rw [this]
  rfl

theorem loop_stays {N P P' : Anc} {m : Nat} (hP : Camuv.body c N (P, false) [0, 1] = (P, false)) :
    ∀ fuel t, 2 ≤ t → Camuv.loop c N 2 m fuel t P = some P' → P' = P
  | 0, _, _, h => by cases h
  | fuel + 1, t, ht, h => by
    have e : Camuv.pass c N 2 t P = (P, false) := by
      rcases Nat.lt_or_ge 2 t with h2 | h2
      · exact pass_more N P h2
      · obtain rfl : t = 2 := by omega
        rw [pass_two, hP]
    unfold Camuv.loop at h
    rw [e] at h
    simp only [Bool.false_eq_true, if_false] at h
    split_ifs at h
    · simpa using h.symm
    · exact loop_stays hP fuel (t + 1) (by omega) h

/-- What is found at the first look at the pair stays. -/
theorem loop_of_body {N P1 P' : Anc} {b : Bool} {m fuel : Nat} (h1 : Camuv.body c N (fun _ => ∅, false) [0, 1] = (P1, b))
    (h2 : Camuv.body c N (P1, false) [0, 1] = (P1, false)) (h : Camuv.loop c N 2 m fuel 2 (fun _ => ∅) = some P') : P' = P1 := by
  cases fuel with
  | zero => cases h
  | succ fuel =>
    unfold Camuv.loop at h
    rw [pass_two, h1] at h
    simp only at h
    split_ifs at h
    · exact loop_stays h2 fuel 2 le_rfl h
    · simpa using h.symm
    · exact loop_stays h2 fuel 3 (by omega) h

/-- The pair is left alone. -/
theorem fit_none (hs : c.hsic = true) (hit : c.iter = id) (hpr : c.prior = none) (hind : Camuv.isInd c (c.val 0 ∅ [(1, ∅)]) = true)
    {m fuel : Nat} {P : Anc} {B : Nat → Nat → Option ℚ} (h : Camuv.fit c 2 m fuel = some (P, B)) :
    P = (fun _ => ∅) ∧ ∀ i j, B i j = some 0 := by
  have hN : Camuv.neighborhoods c 2 = fun _ => ∅ := by
    show Camuv.neighStep c (fun _ => ∅) [0, 1] = _
    simp [Camuv.neighStep, hind]
  have hb : Camuv.body c (fun _ => ∅) (fun _ => ∅, false) [0, 1] = (fun _ => ∅, false) := by
    have hg : Camuv.getChild c (fun _ => ∅) (fun _ => ∅) [0, 1] = (none, decide (c.alpha < 0)) := by
      simp [Camuv.getChild, hit, hs, Camuv.childStep, Camuv.checkPrior, hpr, Camuv.checkCorr, Camuv.rest]
    unfold Camuv.body
    rw [hg]
    simp
  unfold Camuv.fit Camuv.findParents at h
  rw [hN] at h
  cases hl : Camuv.loop c (fun _ => ∅) 2 m fuel 2 (fun _ => ∅) with
  | none => simp [hl] at h
  | some P' =>
    have hP' := loop_of_body hb hb hl
    subst hP'
    simp only [hl, Option.some.injEq, Prod.mk.injEq] at h
    have hpr : Camuv.prune c 2 (fun _ => ∅) = fun _ => ∅ := by
      show Camuv.pruneStep c (Camuv.pruneStep c (fun _ => ∅) 0) 1 = _
      have : ∀ i, Camuv.pruneStep c (fun _ => ∅) i = fun _ => ∅ := by
        intro i
        funext k
        simp [Camuv.pruneStep]
      rw [this, this]
    obtain ⟨rfl, rfl⟩ := h
    refine ⟨hpr, fun i j => ?_⟩
    rw [hpr]
    simp [Camuv.adjacency, Camuv.confoundedPairs, Camuv.confounded]

/-- The arrow `a → b` is found if `b` is chosen as the child. -/
theorem fit_arrow {a b : Nat} (hab : (a = 0 ∧ b = 1) ∨ (a = 1 ∧ b = 0)) (hdep : Camuv.isInd c (c.val 0 ∅ [(1, ∅)]) = false)
    (hsym : c.val 1 ∅ [(0, ∅)] = c.val 0 ∅ [(1, ∅)])
    (hch : Camuv.getChild c (fun _ => ∅) (addAncestors (addAncestors (fun _ => ∅) 0 [1]) 1 [0]) [0, 1] = (some b, true))
    {m fuel : Nat} {P : Anc} {B : Nat → Nat → Option ℚ} (h : Camuv.fit c 2 m fuel = some (P, B)) :
    P b = {a} ∧ P a = ∅ ∧ B b a = some 1 ∧ B a b = some 0 := by
  have hN : Camuv.neighborhoods c 2 = addAncestors (addAncestors (fun _ => ∅) 0 [1]) 1 [0] := by
    show Camuv.neighStep c (fun _ => ∅) [0, 1] = _
    simp [Camuv.neighStep, hdep]
  have hrest : Camuv.rest [0, 1] b = [a] := by rcases hab with ⟨rfl, rfl⟩ | ⟨rfl, rfl⟩ <;> rfl
  have hv : Camuv.isInd c (c.val b ∅ [(a, ∅)]) = false := by
    rcases hab with ⟨rfl, rfl⟩ | ⟨rfl, rfl⟩
    · rw [hsym]; exact hdep
    · exact hdep
  have hne : a ≠ b := by omega
  set N := addAncestors (addAncestors (fun _ => ∅) 0 [1]) 1 [0] with hNdef
  set P1 : Anc := addAncestors (fun _ => ∅) b [a] with hP1
  have e1 : P1 b = {a} := by simp [hP1, addAncestors]
  have e2 : P1 a = ∅ := by simp [hP1, addAncestors, hne]
  have hb : Camuv.body c N (fun _ => ∅, false) [0, 1] = (P1, true) := by
    unfold Camuv.body
    have hu : Camuv.unidentified (fun _ => ∅) [0, 1] = true := by simp [Camuv.unidentified]
    rw [hch]
    simp [hu, hrest, Camuv.dependentWithout, hv, hP1]
  have hb2 : Camuv.body c N (P1, false) [0, 1] = (P1, false) := by
    have hu : Camuv.unidentified P1 [0, 1] = false := by
      rcases hab with ⟨rfl, rfl⟩ | ⟨rfl, rfl⟩ <;> simp [Camuv.unidentified, Rcd.combos, e1, e2]
    unfold Camuv.body
    simp [hu]
  unfold Camuv.fit Camuv.findParents at h
  rw [hN] at h
  cases hl : Camuv.loop c N 2 m fuel 2 (fun _ => ∅) with
  | none => simp [hl] at h
  | some P' =>
    have hP' := loop_of_body hb hb2 hl
    subst hP'
    simp only [hl, Option.some.injEq, Prod.mk.injEq] at h
    have hpr : Camuv.prune c 2 P1 = P1 := by
      show Camuv.pruneStep c (Camuv.pruneStep c P1 0) 1 = _
      have : ∀ i, i = a ∨ i = b → Camuv.pruneStep c P1 i = P1 := by
        intro i hi
        funext k
        unfold Camuv.pruneStep
        split_ifs with hk
        · subst hk
          rcases hi with rfl | rfl
          · rw [e2]; rfl
          · rw [e1]
            refine Finset.filter_true_of_mem fun j hj => ?_
            rw [Finset.mem_singleton] at hj
            subst hj
            rw [e2, Finset.sdiff_self]
            exact hv
        · rfl
      rw [this 0 (by omega), this 1 (by omega)]
    obtain ⟨rfl, rfl⟩ := h
    rw [hpr]
    have hU : Camuv.confoundedPairs c 2 N P1 = [] := by
      rcases hab with ⟨rfl, rfl⟩ | ⟨rfl, rfl⟩ <;>
        simp [Camuv.confoundedPairs, Camuv.confounded, List.range_succ, Rcd.combos, e1, e2]
    rw [hU]
    refine ⟨e1, e2, ?_, ?_⟩
    · simp [Camuv.adjacency, e1]
    · simp [Camuv.adjacency, e2]

end two

/-! ### Data -/

variable {N : Nat} {L : Lib N}

theorem value_pair (X : Nat → Fin N → ℝ) (n a b : Nat) (A : Finset Nat) : value L n X a A [(b, ∅)] =
    match Hsic.test L.gammaSf (Mlhsicr.col (residual L n X a A)) (Mlhsicr.col (X b)) with
    | .ok (_, p) => p
    | .error _ => none := by
  unfold value
  have e : (fun r (k : Fin [(b, (∅ : Finset Nat))].length) => residual L n X ([(b, ∅)].get k).1 ([(b, (∅ : Finset Nat))].get k).2 r) =
      Mlhsicr.col (X b) := by
    funext r k
    have : k = ⟨0, by simp⟩ := Fin.ext (Nat.lt_one_iff.1 k.isLt)
    subst this
    simp [residual, Mlhsicr.col]
  exact congrArg (fun Y : Hsic.Dat N 1 => match Hsic.test L.gammaSf (Mlhsicr.col (residual L n X a A)) Y with
    | .ok (_, p) => p
    | .error _ => none) e

/-- The two variables are found to be dependent at the level `alpha`. -/
def FoundDependent (L : Lib N) (alpha : ℝ) (X : Nat → Fin N → ℝ) : Prop :=
  ¬ ∃ s p, Hsic.test L.gammaSf (Mlhsicr.col (X 0)) (Mlhsicr.col (X 1)) = .ok (s, some p) ∧ alpha < p

theorem isInd_iff {alpha : ℝ} {X : Nat → Fin N → ℝ} :
    Camuv.isInd (cfg L alpha 2 X) ((cfg L alpha 2 X).val 0 ∅ [(1, ∅)]) = true ↔ ¬ FoundDependent L alpha X := by
  unfold FoundDependent
  rw [not_not]
  show Camuv.isInd (cfg L alpha 2 X) (value L 2 X 0 ∅ [(1, ∅)]) = true ↔ _
  rw [value_pair, show residual L 2 X 0 ∅ = X 0 from if_pos rfl]
  rcases Hsic.test L.gammaSf (Mlhsicr.col (X 0)) (Mlhsicr.col (X 1)) with _ | ⟨s, _ | p⟩ <;> simp [Camuv.isInd, Camuv.isIndBy, cfg]

theorem getChild_two {alpha : ℝ} {X : Nat → Fin N → ℝ} {a b : Nat} (hab : (a = 0 ∧ b = 1) ∨ (a = 1 ∧ b = 0)) (ha : alpha < 1)
    (h1 : value L 2 X b {a} [(a, ∅)] = some 1) (hle : ∀ p, value L 2 X a {b} [(b, ∅)] = some p → p ≤ 1) :
    Camuv.getChild (cfg L alpha 2 X) (fun _ => ∅) (addAncestors (addAncestors (fun _ => ∅) 0 [1]) 1 [0]) [0, 1] =
      (some (if a = 0 ∧ value L 2 X a {b} [(b, ∅)] = some 1 then a else b), true) := by
  set N' := addAncestors (addAncestors (fun _ => (∅ : Finset Nat)) 0 [1]) 1 [0] with hN'
  have r0 : Camuv.rest [0, 1] 0 = [1] := rfl
  have r1 : Camuv.rest [0, 1] 1 = [0] := rfl
  have k0 : Camuv.checkCorr N' 0 [1] = true := by simp [Camuv.checkCorr, hN', addAncestors]
  have k1 : Camuv.checkCorr N' 1 [0] = true := by simp [Camuv.checkCorr, hN', addAncestors]
  have pr : ∀ l i, Camuv.checkPrior (cfg L alpha 2 X) l i = false := fun _ _ => rfl
  have v0 : Camuv.childVal (cfg L alpha 2 X) (fun _ => ∅) [0, 1] 0 = value L 2 X 0 {1} [(1, ∅)] := by
    simp [Camuv.childVal, r0, cfg]
  have v1 : Camuv.childVal (cfg L alpha 2 X) (fun _ => ∅) [0, 1] 1 = value L 2 X 1 {0} [(0, ∅)] := by
    simp [Camuv.childVal, r1, cfg]
  have hs : (cfg L alpha 2 X).hsic = true := rfl
  have hal : (cfg L alpha 2 X).alpha = alpha := rfl
  have hit : (cfg L alpha 2 X).iter [0, 1] = [0, 1] := rfl
  unfold Camuv.getChild
  simp only [hit, hs, if_true, List.foldl_cons, List.foldl_nil, Camuv.childStep, pr, r0, r1, k0, k1, v0, v1, hal, Camuv.isIndBy]
  rcases hab with ⟨rfl, rfl⟩ | ⟨rfl, rfl⟩
  · rcases hv : value L 2 X 0 {1} [(1, ∅)] with _ | p
    · simp [h1, hv, ha]
    · have hp := hle p hv
      by_cases hp1 : p = 1
      · subst hp1
        simp [h1, ha]
      · have : p < 1 := lt_of_le_of_ne hp hp1
        by_cases h0 : 0 < p <;> simp [h1, h0, this, hp1, ha]
  · rcases hv : value L 2 X 1 {0} [(0, ∅)] with _ | p
    · simp [h1, ha]
    · have hp := hle p hv
      simp [h1, ha, not_lt.2 hp]

/-- **C242.** Let the effect be a function of the cause plus an error that is exactly independent of the cause in the sample, let the regression
find the function up to a constant, and let HSIC give a p-value for the error.  Then CAM-UV (HSIC, no prior knowledge, level below 1) reports
nothing if the two variables are found to be independent, and otherwise the arrow from the cause to the effect - except that it reports the
reverse arrow if the cause has the smaller column number and the residual of its own regression on the effect is exactly independent of the
effect, too.  It never reports a hidden common cause. -/
theorem C242_pair (hg : ∀ a b, 0 < a → 0 < b → L.gammaSf 0 a b = 1) (hlt : ∀ x a b, 0 < x → 0 < a → 0 < b → L.gammaSf x a b < 1)
    {alpha : ℝ} (ha : alpha < 1) {X : Nat → Fin N → ℝ} {e : Fin N → ℝ} {f : ℝ → ℝ} {c d : Nat} (hcd : (c = 0 ∧ d = 1) ∨ (c = 1 ∧ d = 0))
    (hX : ∀ r, X d r = f (X c r) + e r) (he : SampleIndependent e (X c)) {k : ℝ} (hgam : ∀ r, L.gam 1 (RcdData.cols X [c]) (X d) r = f (X c r) + k)
    (hrep : ∃ s p, Hsic.test L.gammaSf (Mlhsicr.col e) (Mlhsicr.col (X c)) = .ok (some s, some p))
    {m fuel : Nat} {P : Anc} {B : Nat → Nat → Option ℚ} (h : fit L alpha 2 m fuel X = some (P, B)) :
    (¬ FoundDependent L alpha X → P c = ∅ ∧ P d = ∅ ∧ ∀ i j, B i j = some 0) ∧
    (FoundDependent L alpha X →
      ¬ (c = 0 ∧ SampleIndependent (residual L 2 X c {d}) (X d) ∧
        ∃ s p, Hsic.test L.gammaSf (Mlhsicr.col (residual L 2 X c {d})) (Mlhsicr.col (X d)) = .ok (some s, some p)) →
      P d = {c} ∧ P c = ∅ ∧ B d c = some 1 ∧ B c d = some 0) ∧
    (FoundDependent L alpha X →
      (c = 0 ∧ SampleIndependent (residual L 2 X c {d}) (X d) ∧
        ∃ s p, Hsic.test L.gammaSf (Mlhsicr.col (residual L 2 X c {d})) (Mlhsicr.col (X d)) = .ok (some s, some p)) →
      P c = {d} ∧ P d = ∅ ∧ B c d = some 1 ∧ B d c = some 0) := by
  have hlist : ∀ x, x < 2 → RcdData.listOf 2 {x} = [x] := by
    intro x hx
    interval_cases x <;> rfl
  have hres : residual L 2 X d {c} = fun r => e r + -k := by
    unfold residual
    rw [if_neg (by simp), hlist c (by omega)]
    funext r
    rw [show L.gam [c].length (RcdData.cols X [c]) (X d) r = f (X c r) + k from hgam r, hX r]
    ring
  have hv1 : value L 2 X d {c} [(c, ∅)] = some 1 := by
    rw [value_pair, hres]
    obtain ⟨s, p, hp⟩ := hrep
    have hsh : Hsic.test L.gammaSf (Mlhsicr.col (fun r => e r + -k)) (Mlhsicr.col (X c)) = .ok (some s, some p) := by
      rw [← hp]
      have := Hsic.C114_hsic_units L.gammaSf (Mlhsicr.col e) (Mlhsicr.col (X c)) 1 1 (fun _ => -k) (fun _ => 0) one_ne_zero one_ne_zero
      simp only [one_mul, add_zero] at this
      exact this
    rw [hsh]
    simp only [Option.some.injEq]
    exact Hsic.C231_accepted hg hp (ParceData.pair_col.2 he)
  have hv2 : ∀ p, value L 2 X c {d} [(d, ∅)] = some p → p ≤ 1 ∧
      (p = 1 ↔ (SampleIndependent (residual L 2 X c {d}) (X d) ∧
        ∃ s p, Hsic.test L.gammaSf (Mlhsicr.col (residual L 2 X c {d})) (Mlhsicr.col (X d)) = .ok (some s, some p))) := by
    intro p hp
    rw [value_pair] at hp
    rcases ht : Hsic.test L.gammaSf (Mlhsicr.col (residual L 2 X c {d})) (Mlhsicr.col (X d)) with _ | ⟨_ | s, _ | q⟩
    · simp [ht] at hp
    · simp [ht] at hp
    · exact absurd ht (by
        unfold Hsic.test Hsic.testWith
        split_ifs
        · simp
        · rcases Hsic.kernelWidth (Mlhsicr.col (residual L 2 X c {d})) with _ | _ <;> rcases Hsic.kernelWidth (Mlhsicr.col (X d)) with _ | _ <;> simp)
    · simp [ht] at hp
    · rw [ht] at hp
      simp only [Option.some.injEq] at hp
      subst hp
      by_cases hi : SampleIndependent (residual L 2 X c {d}) (X d)
      · have := Hsic.C231_accepted hg ht (ParceData.pair_col.2 hi)
        exact ⟨this.le, iff_of_true this ⟨hi, s, q, rfl⟩⟩
      · have := (Hsic.C231_dependent hlt ht (fun hc => hi (ParceData.pair_col.1 hc))).2
        exact ⟨this.le, iff_of_false this.ne fun hc => hi hc.1⟩
  have hsym : (cfg L alpha 2 X).val 1 ∅ [(0, ∅)] = (cfg L alpha 2 X).val 0 ∅ [(1, ∅)] := by
    show value L 2 X 1 ∅ [(0, ∅)] = value L 2 X 0 ∅ [(1, ∅)]
    rw [value_pair, value_pair, show residual L 2 X 0 ∅ = X 0 from if_pos rfl, show residual L 2 X 1 ∅ = X 1 from if_pos rfl,
      Hsic.C113_hsic_symmetric]
  have hch := getChild_two (alpha := alpha) hcd ha hv1 fun p hp => (hv2 p hp).1
  have hdep : FoundDependent L alpha X → Camuv.isInd (cfg L alpha 2 X) ((cfg L alpha 2 X).val 0 ∅ [(1, ∅)]) = false := by
    intro hd
    rw [← Bool.not_eq_true, isInd_iff]
    exact not_not.2 hd
  have hone : value L 2 X c {d} [(d, ∅)] = some 1 ↔ (SampleIndependent (residual L 2 X c {d}) (X d) ∧
        ∃ s p, Hsic.test L.gammaSf (Mlhsicr.col (residual L 2 X c {d})) (Mlhsicr.col (X d)) = .ok (some s, some p)) := by
    constructor
    · intro hv
      exact (hv2 1 hv).2.1 rfl
    · intro hc
      obtain ⟨s, p, hp⟩ := hc.2
      have hv : value L 2 X c {d} [(d, ∅)] = some p := by rw [value_pair, hp]
      rw [hv, (hv2 p hv).2.2 hc]
  refine ⟨fun hn => ?_, fun hd hno => ?_, fun hd hyes => ?_⟩
  · obtain ⟨rfl, hB⟩ := fit_none (c := cfg L alpha 2 X) rfl rfl rfl (isInd_iff.2 hn) h
    exact ⟨rfl, rfl, hB⟩
  · rw [if_neg (fun hc => hno ⟨hc.1, hone.1 hc.2⟩)] at hch
    exact fit_arrow hcd (hdep hd) hsym hch h
  · rw [if_pos ⟨hyes.1, hone.2 hyes.2⟩] at hch
    exact fit_arrow (hcd.symm.imp And.symm And.symm) (hdep hd) hsym hch h

/-- A result is always returned. -/
theorem fit_returns (L : Lib N) (alpha : ℝ) (n m : Nat) (X : Nat → Fin N → ℝ) : ∃ fuel P B, fit L alpha n m fuel X = some (P, B) := by
  obtain ⟨P, hP, _⟩ := Camuv.C28_parents_terminate (c := cfg L alpha n X) (fun _ => List.Perm.refl _) n m
  refine ⟨(n * n + 1) * max 2 m, P, ?_⟩
  unfold fit Camuv.fit
  rw [hP _ le_rfl]
  exact ⟨_, rfl⟩

theorem reported {sf : ℝ → ℝ → ℝ → ℝ} {a b : Fin N → ℝ} (hn : 6 ≤ N) (i j k l : Fin N) (hij : i ≠ j) (hk : k.val < 100) (hl : l.val < 100) (hi : i.val < 100)
    (h1 : a i = a j) (h2 : b i = b j) (h3 : a i ≠ a k) (h4 : b i ≠ b l) : ∃ s p, Hsic.test sf (Mlhsicr.col a) (Mlhsicr.col b) = .ok (some s, some p) :=
  Hsic.C231_reported hn _ ⟨i, k, hi, hk, fun h => h3 (congrFun h 0)⟩ ⟨i, l, hi, hl, fun h => h4 (congrFun h 0)⟩ (i := i) (j := j) hij
    (by funext _; exact h1) (by funext _; exact h2)

/-- A test that never makes a mistake: 1 for a statistic of 0, else 0. -/
noncomputable def sharp (x _ _ : ℝ) : ℝ := if x = 0 then 1 else 0

theorem sharp_dependent {alpha : ℝ} (h0 : 0 ≤ alpha) {a b : Fin N → ℝ} (hd : ¬ SampleIndependent a b)
    (hr : ∃ s p, Hsic.test sharp (Mlhsicr.col a) (Mlhsicr.col b) = .ok (some s, some p)) :
    ¬ ∃ s p, Hsic.test sharp (Mlhsicr.col a) (Mlhsicr.col b) = .ok (s, some p) ∧ alpha < p := by
  rintro ⟨s, p, ht, hp⟩
  obtain ⟨s', p', ht'⟩ := hr
  rw [ht'] at ht
  simp only [Except.ok.injEq, Prod.mk.injEq, Option.some.injEq] at ht
  obtain ⟨_, rfl⟩ := ht
  obtain ⟨h1, _⟩ := Hsic.C231_dependent (sf := sharp) (fun x _ _ hx _ _ => by unfold sharp; rw [if_neg hx.ne']; norm_num) ht'
    (fun hc => hd (ParceData.pair_col.1 hc))
  obtain ⟨_, _, a', b', _, _, _, _, _, _, rfl, _⟩ := Hsic.C116_hsic_p_value _ _ _ _ _ ht'
  unfold sharp at hp
  rw [if_neg h1.ne'] at hp
  exact absurd hp (not_lt.2 h0)

/-- Two coins: the second column is the first plus an independent coin.  The arrow from the first to the second is reported. -/
example : ∃ (L : Lib 8) (fuel : Nat) (P : Anc) (B : Nat → Nat → Option ℚ), fit L (1 / 100) 2 2 fuel ResitData.coinX = some (P, B) ∧
    P 1 = {0} ∧ P 0 = ∅ ∧ B 1 0 = some 1 ∧ B 0 1 = some 0 := by
  let L : Lib 8 := { gam := fun _ _ y r => if y 7 = 1 then ResitData.coinX 1 r / 2 else ResitData.coinX 0 r, gammaSf := sharp }
  have hr1 : residual L 2 ResitData.coinX 0 {1} = fun r => (Hsic.coinA r 0 - Hsic.coinB r 0) / 2 := by
    unfold residual
    rw [if_neg (by simp)]
    funext r
    simp only [L]
    norm_num [ResitData.coinX, Hsic.coinA]
    ring
  obtain ⟨fuel, P, B, hf⟩ := fit_returns L (1 / 100) 2 2 ResitData.coinX
  have key := C242_pair (L := L) (e := fun r => Hsic.coinB r 0) (f := id) (k := 0) (c := 0) (d := 1) (fun _ _ _ _ => if_pos rfl)
    (fun x a b hx _ _ => by show sharp x a b < 1; unfold sharp; rw [if_neg hx.ne']; norm_num) (by norm_num) (Or.inl ⟨rfl, rfl⟩)
    (fun r => by simp [ResitData.coinX]) (fun f g => ParceData.independent_symm Hsic.coins_independent (fun v => f (v 0)) (fun v => g (v 0)))
    (fun r => by simp only [L]; norm_num [ResitData.coinX, Hsic.coinA, Hsic.coinB])
    (reported (by norm_num) 0 1 2 4 (by decide) (by decide) (by decide) (by decide) (by norm_num [Hsic.coinB]) (by norm_num [ResitData.coinX, Hsic.coinA])
      (by norm_num [Hsic.coinB]) (by norm_num [ResitData.coinX, Hsic.coinA])) hf
  refine ⟨L, fuel, P, B, hf, key.2.1 ?_ ?_⟩
  · refine sharp_dependent (by norm_num) (fun hi => ?_) (reported (by norm_num) 0 1 4 2 (by decide) (by decide) (by decide) (by decide) (by norm_num [ResitData.coinX, Hsic.coinA])
      (by norm_num [ResitData.coinX, Hsic.coinA, Hsic.coinB]) (by norm_num [ResitData.coinX, Hsic.coinA]) (by norm_num [ResitData.coinX, Hsic.coinA, Hsic.coinB]))
    have := hi id id
    simp only [id, Fin.sum_univ_eight] at this
    norm_num [ResitData.coinX, Hsic.coinA, Hsic.coinB] at this
  · rintro ⟨_, hi, _⟩
    have := hi (fun v => v ^ 2) (fun v => if v = 1 then 1 else 0)
    rw [hr1] at this
    simp only [Fin.sum_univ_eight, ResitData.coinX, if_neg one_ne_zero] at this
    norm_num [Hsic.coinA, Hsic.coinB] at this

/-- The first column is `10 v + u`, the second `10 v + w` with three independent coins. -/
noncomputable def tieX : Nat → Fin 16 → ℝ := fun j r =>
  (if r.val < 8 then 0 else 10) + if j = 0 then (if r.val % 8 < 4 then 0 else 1) else if r.val % 4 < 2 then 0 else 1

/-- **C242.** The exception occurs: the second column is a function of the first plus an error that is independent of it, the regression is right, the
tests make no mistake, and the arrow from the second column to the first is reported. -/
theorem C242_tie : ∃ (L : Lib 16) (fuel : Nat) (P : Anc) (B : Nat → Nat → Option ℚ) (f : ℝ → ℝ) (e : Fin 16 → ℝ),
    (∀ r, tieX 1 r = f (tieX 0 r) + e r) ∧ SampleIndependent e (tieX 0) ∧ (∀ r, L.gam 1 (RcdData.cols tieX [0]) (tieX 1) r = f (tieX 0 r)) ∧
    (∀ x a b, L.gammaSf x a b = if x = 0 then 1 else 0) ∧ fit L (1 / 100) 2 2 fuel tieX = some (P, B) ∧
    P 0 = {1} ∧ P 1 = ∅ ∧ B 0 1 = some 1 ∧ B 1 0 = some 0 := by
  let L : Lib 16 := { gam := fun _ _ _ r => if r.val < 8 then 0 else 10, gammaSf := sharp }
  obtain ⟨fuel, P, B, hf⟩ := fit_returns L (1 / 100) 2 2 tieX
  have hX : ∀ r, tieX 1 r = (fun x : ℝ => if x < 5 then 0 else 10) (tieX 0 r) + (fun r : Fin 16 => if r.val % 4 < 2 then (0 : ℝ) else 1) r := by
    intro r
    fin_cases r <;> norm_num [tieX]
  have he : SampleIndependent (fun r : Fin 16 => if r.val % 4 < 2 then (0 : ℝ) else 1) (tieX 0) := by
    intro f g
    simp [Fin.sum_univ_succ, tieX]
    norm_num
    ring
  have hgam : ∀ r, L.gam 1 (RcdData.cols tieX [0]) (tieX 1) r = (fun x : ℝ => if x < 5 then 0 else 10) (tieX 0 r) := by
    intro r
    fin_cases r <;> norm_num [tieX, L]
  have hr1 : residual L 2 tieX 0 {1} = fun r => if r.val % 8 < 4 then 0 else 1 := by
    unfold residual
    rw [if_neg (by simp)]
    funext r
    simp [L, tieX]
  have key := C242_pair (L := L) (k := 0) (c := 0) (d := 1) (alpha := 1 / 100) (f := fun x : ℝ => if x < 5 then 0 else 10) (fun _ _ _ _ => if_pos rfl)
    (fun x a b hx _ _ => by show sharp x a b < 1; unfold sharp; rw [if_neg hx.ne']; norm_num) (by norm_num) (Or.inl ⟨rfl, rfl⟩)
    hX he (fun r => by rw [hgam r, add_zero])
    (reported (by norm_num) 0 1 2 4 (by decide) (by decide) (by decide) (by decide) (by norm_num) (by norm_num [tieX]) (by norm_num) (by norm_num [tieX])) hf
  refine ⟨L, fuel, P, B, fun x : ℝ => if x < 5 then 0 else 10, fun r => if r.val % 4 < 2 then 0 else 1, hX, he, hgam, fun _ _ _ => rfl, hf, key.2.2 ?_ ⟨rfl, ?_, ?_⟩⟩
  · refine sharp_dependent (by norm_num) (fun hi => ?_) (reported (by norm_num) 0 1 8 8 (by decide) (by decide) (by decide) (by decide) (by norm_num [tieX])
      (by norm_num [tieX]) (by norm_num [tieX]) (by norm_num [tieX]))
    have := hi id id
    simp only [id] at this
    norm_num [Fin.sum_univ_succ, tieX] at this
  · rw [hr1]
    intro f g
    simp [Fin.sum_univ_succ, tieX]
    norm_num
    ring
  · rw [hr1]
    exact reported (by norm_num) 0 1 4 2 (by decide) (by decide) (by decide) (by decide) (by norm_num) (by norm_num [tieX]) (by norm_num) (by norm_num [tieX])

end Verif.CamuvData
