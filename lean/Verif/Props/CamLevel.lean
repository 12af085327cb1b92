import Verif.Props.GroupCamuvPair

/-! C251: the probability that CAM-UV and MultiGroupCAMUV report anything when no two variables are dependent. -/
set_option autoImplicit false
set_option linter.unusedSectionVars false
namespace Verif.Camuv
open Rcd (Anc addAncestors combos)

variable {K : Type} [LinearOrder K] [Zero K] [One K] {c : Cfg K}

theorem neighborhoods_none {d : Nat} (h : ∀ a b, a < b → b < d → isInd c (c.val a ∅ [(b, ∅)]) = true) : neighborhoods c d = fun _ => ∅ := by
  have key : ∀ l : List (List Nat), (∀ p ∈ l, p ∈ combos 2 (List.range d)) → l.foldl (neighStep c) (fun _ => ∅) = fun _ => ∅ := by
    intro l
    induction l with
    | nil => intro _; rfl
    | cons p l ih =>
      intro hl
      obtain ⟨h1, h2⟩ := Rcd.mem_combos.1 (hl p List.mem_cons_self)
      obtain ⟨a, b, rfl⟩ := List.length_eq_two.1 h2
      obtain ⟨hab, hb⟩ := Rcd.pair_sublist_range.1 h1
      rw [List.foldl_cons, show neighStep c (fun _ => ∅) [a, b] = fun _ => ∅ by simp [neighStep, h a b hab hb]]
      exact ih fun q hq => hl q (List.mem_cons_of_mem _ hq)
  exact key _ fun _ => id

theorem body_none (hit : ∀ l, (c.iter l).Perm l) {V : List Nat} (hn : V.Nodup) (h2 : 2 ≤ V.length) (s : Anc × Bool) : body c (fun _ => ∅) s V = s := by
  have hk : ∀ x ∈ V, checkCorr (fun _ => ∅) x (rest V x) = false := by
    intro x hx
    have : ∃ y ∈ V, y ≠ x := by
      by_contra hno
      push Not at hno
      match V, h2, hn, hno with
      | a :: b :: l, _, hn, hno =>
        have e1 := hno a (by simp)
        have e2 := hno b (by simp)
        subst e1
        simp [e2] at hn
    obtain ⟨y, hy, hyx⟩ := this
    unfold checkCorr
    rw [List.all_eq_false]
    exact ⟨y, by simp [rest, hy, hyx], by simp⟩
  have key : ∀ (l : List Nat), (∀ x ∈ l, x ∈ V) → ∀ st, l.foldl (childStep c s.1 (fun _ => ∅) V) st = st := by
    intro l
    induction l with
    | nil => intro _ _; rfl
    | cons x l ih =>
      intro hl st
      rw [List.foldl_cons, show childStep c s.1 (fun _ => ∅) V st x = st by
        unfold childStep
        rw [hk x (hl x List.mem_cons_self)]
        simp]
      exact ih (fun y hy => hl y (List.mem_cons_of_mem _ hy)) st
  have hg : (getChild c s.1 (fun _ => ∅) V).1 = none := by
    unfold getChild
    simp only
    rw [key _ fun x hx => (hit V).mem_iff.1 hx]
  unfold body
  split
  · rfl
  · rcases hgc : getChild c s.1 (fun _ => ∅) V with ⟨o, ok⟩
    rw [hgc] at hg
    simp only at hg
    subst hg
    rfl

/-- If no two variables are found dependent, nothing is reported. -/
theorem fit_independent (hit : ∀ l, (c.iter l).Perm l) {d : Nat} (h : ∀ a b, a < b → b < d → isInd c (c.val a ∅ [(b, ∅)]) = true)
    {m fuel : Nat} {P : Anc} {B : Nat → Nat → Option ℚ} (hf : fit c d m fuel = some (P, B)) : (∀ i, P i = ∅) ∧ ∀ i j, B i j = some 0 := by
  have hN := neighborhoods_none h
  have hpass : ∀ t, 2 ≤ t → pass c (fun _ => ∅) d t (fun _ => ∅) = (fun _ => ∅, false) := by
    intro t ht
    have key : ∀ l : List (List Nat), (∀ p ∈ l, p ∈ combos t (List.range d)) → ∀ s, l.foldl (body c (fun _ => ∅)) s = s := by
      intro l
      induction l with
      | nil => intro _ _; rfl
      | cons V l ih =>
        intro hl s
        obtain ⟨h1, h2⟩ := Rcd.mem_combos.1 (hl V List.mem_cons_self)
        rw [List.foldl_cons, body_none hit (h1.nodup List.nodup_range) (by omega)]
        exact ih (fun q hq => hl q (List.mem_cons_of_mem _ hq)) s
    exact key _ (fun _ => id) _
  have hloop : ∀ fuel t P', 2 ≤ t → loop c (fun _ => ∅) d m fuel t (fun _ => ∅) = some P' → P' = fun _ => ∅ := by
    intro fuel
    induction fuel with
    | zero => intro t P' _ h; cases h
    | succ fuel ih =>
      intro t P' ht h
      unfold loop at h
      rw [hpass t ht] at h
      simp only [Bool.false_eq_true, if_false] at h
      split_ifs at h
      · exact (Option.some.inj h).symm
      · exact ih _ _ (by omega) h
  unfold fit findParents at hf
  rw [hN] at hf
  cases hl : loop c (fun _ => ∅) d m fuel 2 (fun _ => ∅) with
  | none => simp [hl] at hf
  | some P' =>
    obtain rfl := hloop _ _ _ le_rfl hl
    simp only [hl, Option.some.injEq, Prod.mk.injEq] at hf
    have hpr : prune c d (fun _ => ∅) = fun _ => ∅ := by
      unfold prune
      have hs : ∀ i, pruneStep c (fun _ => ∅) i = fun _ => ∅ := by
        intro i
        funext k
        simp [pruneStep]
      induction List.range d with
      | nil => rfl
      | cons x l ih => rw [List.foldl_cons, hs, ih]
    obtain ⟨rfl, rfl⟩ := hf
    refine ⟨fun i => by rw [hpr], fun i j => ?_⟩
    have hU : confoundedPairs c d (fun _ => ∅) (prune c d fun _ => ∅) = [] := by
      unfold confoundedPairs
      rw [List.filter_eq_nil_iff]
      intro p _
      simp [confounded]
    rw [hU, hpr]
    simp [adjacency]

end Verif.Camuv

namespace Verif.GroupCamuv
open CamuvData (Lib)
open GroupRcd (fisherP ChiSquaredTail fisherP_eq ValidTests pairs_bound C247_valid)
open MeasureTheory ProbabilityTheory

variable {k : Nat} {Ω : Type} [MeasurableSpace Ω] {P : Measure Ω} [IsProbabilityMeasure P] {sf : Nat → WithTop ℝ → ℝ}

/-- **C251, MultiGroupCAMUV.** If the test of any two columns is valid in every data set and the data sets are independent of each other, then the
probability that anything at all is reported (an arrow or a hidden common cause) is at most `alpha` times the number of pairs, whatever the prior
knowledge and the number of variables taken at a time. -/
theorem C251_groups (hsf : ChiSquaredTail sf) (hk : 0 < k) {N : Fin k → Nat} {L : ∀ i, Lib (N i)} {n : Nat} {X : Ω → ∀ i, Nat → Fin (N i) → ℝ}
    {p : Nat → Nat → Fin k → Ω → ℝ} (hv : ∀ a b, a < b → b < n → ValidTests P (p a b))
    (hp : ∀ a b, a < b → b < n → ∀ i ω, pairP (L i) (X ω i a) (X ω i b) = some (p a b i ω)) {alpha : ℝ} (h0 : 0 ≤ alpha)
    (prior : Option (List (Nat × Nat))) (m fuel : Nat) :
    P {ω | ∃ M B, fit L sf alpha prior n m fuel (X ω) = some (M, B) ∧ ((∃ i, M i ≠ ∅) ∨ ∃ i j, B i j ≠ some 0)} ≤
      (n * (n - 1) / 2 : Nat) * ENNReal.ofReal alpha := by
  refine pairs_bound (E := fun a b => {ω | ∃ q, fisherP sf (fun i => some (p a b i ω)) = some q ∧ q ≤ alpha}) ?_
    fun a b hab hb => C247_valid hsf hk (hv a b hab hb) h0
  rintro ω ⟨M, B, hfit, hrep⟩
  by_contra hno
  push Not at hno
  obtain ⟨h1, h2⟩ := Camuv.fit_independent (c := cfg L sf alpha prior n (X ω)) (fun _ => List.Perm.refl _) (fun a b hab hb => by
    rw [isInd_iff, show (fun i => pairP (L i) (X ω i a) (X ω i b)) = fun i => some (p a b i ω) from funext fun i => hp a b hab hb i ω]
    have e := fisherP_eq hsf hk fun i => (hv a b hab hb).range i ω
    refine ⟨_, e, ?_⟩
    by_contra hle
    exact hno a b hab hb ⟨_, e, not_lt.1 hle⟩) hfit
  rcases hrep with ⟨i, hi⟩ | ⟨i, j, hij⟩
  · exact hi (h1 i)
  · exact hij (h2 i j)

/-- **C251, CAMUV.** The same for a single data set. -/
theorem C251_single {N : Nat} {L : Lib N} {n : Nat} {X : Ω → Nat → Fin N → ℝ} {p : Nat → Nat → Ω → ℝ} {alpha : ℝ}
    (hp : ∀ a b, a < b → b < n → ∀ ω, pairP L (X ω a) (X ω b) = some (p a b ω))
    (hv : ∀ a b, a < b → b < n → P {ω | p a b ω ≤ alpha} ≤ ENNReal.ofReal alpha) (prior : Option (List (Nat × Nat))) (m fuel : Nat) :
    P {ω | ∃ M B, Camuv.fit { CamuvData.cfg L alpha n (X ω) with prior := prior } n m fuel = some (M, B) ∧
        ((∃ i, M i ≠ ∅) ∨ ∃ i j, B i j ≠ some 0)} ≤ (n * (n - 1) / 2 : Nat) * ENNReal.ofReal alpha := by
  refine pairs_bound (E := fun a b => {ω | p a b ω ≤ alpha}) ?_ hv
  rintro ω ⟨M, B, hfit, hrep⟩
  by_contra hno
  push Not at hno
  obtain ⟨h1, h2⟩ := Camuv.fit_independent (c := { CamuvData.cfg L alpha n (X ω) with prior := prior }) (fun _ => List.Perm.refl _) (fun a b hab hb => by
    have e : CamuvData.value L n (X ω) a ∅ [(b, ∅)] = some (p a b ω) := by
      rw [← hp a b hab hb ω]
      exact (CamuvData.value_pair (X ω) n a b ∅).trans (by rw [show CamuvData.residual L n (X ω) a ∅ = X ω a from if_pos rfl]; rfl)
    have hlt := hno a b hab hb
    rw [Set.mem_ofPred_eq, not_le] at hlt
    show Camuv.isInd _ (CamuvData.value L n (X ω) a ∅ [(b, ∅)]) = true
    rw [e]
    simpa [Camuv.isInd, Camuv.isIndBy, CamuvData.cfg] using hlt) hfit
  rcases hrep with ⟨i, hi⟩ | ⟨i, j, hij⟩
  · exact hi (h1 i)
  · exact hij (h2 i j)

/-! ### The hypotheses are met -/

/-- 1/2 up to 1/2, then 1. -/
noncomputable def half (x : ℝ) : ℝ := if x ≤ 1 / 2 then 1 / 2 else 1

theorem half_measurable : Measurable half := Measurable.ite measurableSet_Iic measurable_const measurable_const

theorem half_valid : ValidTests GroupRcd.twoUniform fun i (ω : Fin 2 → ℝ) => half (GroupRcd.clamp (ω i)) where
  measurable := fun i => half_measurable.comp (GroupRcd.clamp_measurable.comp (measurable_pi_apply i))
  indep := iIndepFun_pi (X := fun _ x => half (GroupRcd.clamp x)) fun _ => (half_measurable.comp GroupRcd.clamp_measurable).aemeasurable
  range := fun i ω => by unfold half; split <;> norm_num
  valid := fun i u h0 => by
    by_cases h1 : 1 ≤ u
    · refine prob_le_one.trans ?_
      rw [← ENNReal.ofReal_one]
      exact ENNReal.ofReal_le_ofReal h1
    · by_cases h2 : 1 / 2 ≤ u
      · have e : {ω : Fin 2 → ℝ | half (GroupRcd.clamp (ω i)) ≤ u} = {ω | GroupRcd.clamp (ω i) ≤ 1 / 2} := by
          ext ω
          simp only [Set.mem_ofPred_eq, half]
          split_ifs with h
          · exact iff_of_true h2 h
          · exact iff_of_false h1 h
        rw [e, GroupRcd.twoUniform_uniform i (1 / 2) (by norm_num) (by norm_num)]
        exact ENNReal.ofReal_le_ofReal h2
      · have e : {ω : Fin 2 → ℝ | half (GroupRcd.clamp (ω i)) ≤ u} = ∅ := by
          ext ω
          simp only [Set.mem_ofPred_eq, half, Set.mem_empty_iff_false, iff_false]
          split_ifs <;> linarith
        rw [e, measure_empty]
        exact bot_le

/-- Two random data sets: in each of them the second column is with probability 1/2 a coin that is independent of the first, and else depends on it.
Something is reported with probability at most 0.6. -/
example (gam : (q : Nat) → (Fin q → Fin 8 → ℝ) → (Fin 8 → ℝ) → Fin 8 → ℝ) : ∃ (sf : Nat → WithTop ℝ → ℝ) (l : Lib 8),
    ChiSquaredTail sf ∧ GroupRcd.twoUniform {ω | ∃ M B, fit (fun _ : Fin 2 => l) sf (3 / 5) none 2 2 40
      (fun i j r => if GroupRcd.clamp (ω i) ≤ 1 / 2 then ResitData.coinX j r else if j = 0 then Hsic.coinA r 0 else Hsic.coinB r 0) = some (M, B) ∧
      ((∃ i, M i ≠ ∅) ∨ ∃ i j, B i j ≠ some 0)} ≤ ENNReal.ofReal (3 / 5) := by
  obtain ⟨sf, h⟩ := GroupRcd.exists_tail
  let g : ℝ → ℝ → ℝ → ℝ := fun x _ _ => if x = 0 then 1 else 1 / 2
  let l : Lib 8 := ⟨gam, g⟩
  refine ⟨sf, l, h, ?_⟩
  have hA : pairP l (ResitData.coinX 0) (ResitData.coinX 1) = some (1 / 2) := by
    obtain ⟨s, p, ht⟩ := CamuvData.reported (sf := g) (a := ResitData.coinX 0) (b := ResitData.coinX 1) (by norm_num) 0 1 4 2 (by decide) (by decide)
      (by decide) (by decide) (by norm_num [ResitData.coinX, Hsic.coinA]) (by norm_num [ResitData.coinX, Hsic.coinA, Hsic.coinB])
      (by norm_num [ResitData.coinX, Hsic.coinA]) (by norm_num [ResitData.coinX, Hsic.coinA, Hsic.coinB])
    have hno : ¬ SampleIndependent (ResitData.coinX 0) (ResitData.coinX 1) := by
      intro hi
      have := hi id id
      simp only [id, Fin.sum_univ_eight] at this
      norm_num [ResitData.coinX, Hsic.coinA, Hsic.coinB] at this
    obtain ⟨h1, _⟩ := Hsic.C231_dependent (sf := g) (fun x _ _ hx _ _ => by simp only [g]; rw [if_neg hx.ne']; norm_num) ht
      (fun hc => hno (ParceData.pair_col.1 hc))
    obtain ⟨_, _, a', b', _, _, _, _, _, _, rfl, _⟩ := Hsic.C116_hsic_p_value _ _ _ _ _ ht
    unfold pairP
    rw [show l.gammaSf = g from rfl, ht]
    simp only [g, if_neg h1.ne']
  have hB : pairP l (fun r => Hsic.coinA r 0) (fun r => Hsic.coinB r 0) = some 1 := by
    obtain ⟨s, p, ht⟩ := CamuvData.reported (sf := g) (a := fun r => Hsic.coinA r 0) (b := fun r => Hsic.coinB r 0) (by norm_num) 0 1 4 2 (by decide) (by decide)
      (by decide) (by decide) (by norm_num [Hsic.coinA]) (by norm_num [Hsic.coinB]) (by norm_num [Hsic.coinA]) (by norm_num [Hsic.coinB])
    have hi : SampleIndependent (fun r => Hsic.coinA r 0) (fun r => Hsic.coinB r 0) := fun f g' =>
      Hsic.coins_independent (fun v => f (v 0)) (fun v => g' (v 0))
    unfold pairP
    rw [show l.gammaSf = g from rfl, ht]
    exact congrArg some (Hsic.C231_accepted (sf := g) (fun _ _ _ _ => if_pos rfl) ht (ParceData.pair_col.2 hi))
  have := C251_groups (P := GroupRcd.twoUniform) h (by norm_num) (L := fun _ : Fin 2 => l) (n := 2)
    (X := fun ω i j r => if GroupRcd.clamp (ω i) ≤ 1 / 2 then ResitData.coinX j r else if j = 0 then Hsic.coinA r 0 else Hsic.coinB r 0)
    (p := fun _ _ i ω => half (GroupRcd.clamp (ω i))) (fun _ _ _ _ => half_valid)
    (fun a b hab hb i ω => by
      obtain ⟨rfl, rfl⟩ : a = 0 ∧ b = 1 := by omega
      by_cases hc : GroupRcd.clamp (ω i) ≤ 1 / 2
      · simp only [hc, if_true, half]
        exact hA
      · simp only [hc, if_false, half, if_true, one_ne_zero]
        exact hB) (alpha := 3 / 5) (by norm_num) none 2 40
  simpa using this

end Verif.GroupCamuv
