import Mathlib.Data.Finset.Card
import Verif.Model.Oct
import Verif.Proofs.Numpy
import Verif.Spec.Graph
import Mathlib.Algebra.Order.Field.Rat
import Mathlib.Tactic.NormNum
import Mathlib.Tactic.Ring
import Mathlib.Algebra.BigOperators.Group.List.Lemmas

/-! Properties of `OutOfSampleCausalTuning`. -/
set_option autoImplicit false
set_option linter.unusedSectionVars false
namespace Verif.Oct

/-- Specification: parents, children and co-parents of `i` along a relation. -/
def Blanket (E : Nat → Nat → Prop) (i j : Nat) : Prop := E j i ∨ E i j ∨ (j ≠ i ∧ ∃ c, E i c ∧ E j c)

/-- Edge `a → b` of a matrix with NaN: the coefficient is NaN or larger than `1e-8` in absolute value. -/
def Arc (n : Nat) (G : Mat) (a b : Nat) : Prop := a < n ∧ b < n ∧ ∀ x, G b a = some x → 1 / 10 ^ 8 < |x|

theorem notZero_iff (x : Option ℚ) : notZero x = true ↔ ∀ y, x = some y → 1 / 10 ^ 8 < |y| := by
  cases x with
  | none => simp [notZero]
  | some x => simp [notZero]

theorem mem_pa {G : Mat} {n i j : Nat} (hi : i < n) : j ∈ pa G n i ↔ Arc n G j i := by
  unfold pa Arc
  rw [List.mem_filter, List.mem_range, notZero_iff]
  tauto

theorem mem_ch {G : Mat} {n i j : Nat} (hi : i < n) : j ∈ ch G n i ↔ Arc n G i j := by
  unfold ch Arc
  rw [List.mem_filter, List.mem_range, notZero_iff]
  tauto

/-- **C47.** The explanatory variables of `i` are exactly its parents, children and co-parents. -/
theorem C47_blanket (G : Mat) (n i j : Nat) (hi : i < n) : j ∈ mb G n i ↔ Blanket (Arc n G) i j := by
  have hco : j ∈ coPa G n i ↔ j ≠ i ∧ ∃ c, Arc n G i c ∧ Arc n G j c := by
    unfold coPa
    simp only [List.mem_filter, List.mem_flatMap, bne_iff_ne, ne_eq]
    constructor
    · rintro ⟨⟨c, hc, hj⟩, hne⟩
      have hc' := (mem_ch hi).1 hc
      exact ⟨hne, c, hc', (mem_pa hc'.2.1).1 hj⟩
    · rintro ⟨hne, c, hc, hj⟩
      exact ⟨⟨c, (mem_ch hi).2 hc, (mem_pa hc.2.1).2 hj⟩, hne⟩
  unfold mb Blanket
  simp only [List.mem_filter, List.mem_range, decide_eq_true_eq, List.mem_append, hco, mem_pa hi, mem_ch hi]
  constructor
  · rintro ⟨_, h⟩; exact h
  · intro h
    refine ⟨?_, h⟩
    rcases h with h | h | ⟨_, c, _, h⟩
    · exact h.1
    · exact h.2.1
    · exact h.1

/-- **C47.** Being in the blanket is symmetric, for all matrices. -/
theorem C47_symmetric (G : Mat) (n i j : Nat) (hi : i < n) (hj : j < n) : j ∈ mb G n i ↔ i ∈ mb G n j := by
  rw [C47_blanket G n i j hi, C47_blanket G n j i hj]
  unfold Blanket
  constructor <;>
  · rintro (h | h | ⟨h, c, h1, h2⟩)
    · exact Or.inr (Or.inl h)
    · exact Or.inl h
    · exact Or.inr (Or.inr ⟨Ne.symm h, c, h2, h1⟩)

/-- **C47.** A variable of an acyclic graph is not in its own blanket, and the blanket is sorted without
duplicates, so it is contained in the list of all other variables. -/
theorem C47_not_self (G : Mat) (n i : Nat) (hi : i < n) (hac : Acyclic (Arc n G)) :
    i ∉ mb G n i ∧ (mb G n i).Nodup ∧ (mb G n i).Sublist (explanatory none n i) := by
  have hself : i ∉ mb G n i := by
    rw [C47_blanket G n i i hi]
    rintro (h | h | ⟨h, _⟩)
    · exact hac i (Relation.TransGen.single h)
    · exact hac i (Relation.TransGen.single h)
    · exact h rfl
  refine ⟨hself, List.nodup_range.filter _, ?_⟩
  have hmb : mb G n i = (explanatory none n i).filter (fun j => decide (j ∈ pa G n i ++ (ch G n i ++ coPa G n i))) := by
    unfold explanatory
    simp only []
    rw [List.filter_filter]
    unfold mb
    refine List.filter_congr (fun j hj => ?_)
    by_cases hji : j = i
    · subst hji
      have : decide (j ∈ pa G n j ++ (ch G n j ++ coPa G n j)) = false := by
        by_contra hc
        simp only [Bool.not_eq_false] at hc
        exact hself (List.mem_filter.2 ⟨hj, hc⟩)
      rw [this]
      rfl
    · simp [hji]
  rw [hmb]
  exact List.filter_sublist

/-- A collider `0 → 2 ← 1` with `2 → 3`: the blanket of 0 has the child 2 and the co-parent 1. -/
def collider : Mat := fun i j => if (i = 2 ∧ j < 2) ∨ (i = 3 ∧ j = 2) then some 1 else some 0

example : mb collider 4 0 = [1, 2] ∧ mb collider 4 2 = [0, 1, 3] := by decide +kernel

example : Acyclic (Arc 4 collider) := by
  intro i hi
  have : ∀ a b, Relation.TransGen (Arc 4 collider) a b → a < b := by
    have step : ∀ a b, Arc 4 collider a b → a < b := by
      rintro a b ⟨_, _, h⟩
      by_contra hc
      have : ¬ ((b = 2 ∧ a < 2) ∨ (b = 3 ∧ a = 2)) := by omega
      have := h 0 (by simp [collider, this])
      norm_num at this
    intro a b h
    induction h with
    | single h => exact step _ _ h
    | tail _ h ih => exact lt_trans ih (step _ _ h)
  exact absurd (this i i hi) (lt_irrefl i)

/-! ### Selection -/

theorem mem_matching {thr : ℚ} {scores : List (Option ℚ)} {ts : Nat → List (Option ℚ)} {best k : Nat} :
    k ∈ matching thr scores ts best ↔ k < scores.length ∧ k ≠ best ∧
      thr < pValue (subN (scores.getD best none) (scores.getD k none)) (ts k) := by
  unfold matching
  simp [List.mem_filter, List.mem_range]

/-- The selected configuration is the best one or a matching one, has the smallest average blanket of these, and
is the best one in case of a tie. -/
theorem sparsest_spec (thr : ℚ) (scores : List (Option ℚ)) (sizes : List ℚ) (ts : Nat → List (Option ℚ)) (best : Nat) :
    (sparsest thr scores sizes ts best = best ∨ sparsest thr scores sizes ts best ∈ matching thr scores ts best) ∧
    (∀ k, k = best ∨ k ∈ matching thr scores ts best →
      sizes.getD (sparsest thr scores sizes ts best) 0 ≤ sizes.getD k 0) ∧
    (sparsest thr scores sizes ts best ≠ best →
      sizes.getD (sparsest thr scores sizes ts best) 0 < sizes.getD best 0) := by
  unfold sparsest
  simp only []
  by_cases hm : matching thr scores ts best = []
  · rw [if_pos hm, hm]
    refine ⟨Or.inl rfl, ?_, fun h => absurd rfl h⟩
    rintro k (rfl | h)
    · exact le_refl _
    · cases h
  · rw [if_neg hm]
    cases harg : argmin ((List.map (fun k => sizes.getD k 0) (best :: matching thr scores ts best)).map some) with
    | none =>
      rw [argmin_eq_none] at harg
      simp at harg
    | some p =>
      simp only []
      have hlt := argmin_lt harg
      simp only [List.length_map] at hlt
      obtain ⟨m, h1, h2⟩ := argmin_spec harg
      have hget : (best :: matching thr scores ts best).getD p best = (best :: matching thr scores ts best)[p] := by
        rw [List.getD_eq_getElem?_getD, List.getElem?_eq_getElem hlt]
        rfl
      have hm' : m = sizes.getD ((best :: matching thr scores ts best)[p]) 0 := by
        rw [List.getElem?_map, List.getElem?_eq_getElem hlt] at h1
        simpa using h1.symm
      rw [hget]
      refine ⟨?_, ?_, ?_⟩
      · exact List.mem_cons.1 (List.getElem_mem hlt)
      · intro k hk
        obtain ⟨j, hj, hjk⟩ := List.getElem_of_mem (List.mem_cons.2 hk)
        have := (h2 j (sizes.getD k 0) (by rw [List.getElem?_map, List.getElem?_eq_getElem hj, hjk]; rfl)).1
        rw [← hm']
        exact this
      · intro hne
        have hp : 0 < p := by
          rcases Nat.eq_zero_or_pos p with h0 | h0
          · subst h0; exact absurd rfl hne
          · exact h0
        have := (h2 0 (sizes.getD best 0) (by simp)).2 hp
        rw [← hm']
        exact this

theorem mapM_length {A B : Type} (g : A → Except Err B) : ∀ (l : List A) (r : List B), l.mapM g = Except.ok r →
    r.length = l.length ∧ ∀ (i : Nat) (a : A), l[i]? = some a → ∃ b, r[i]? = some b ∧ g a = Except.ok b := by
  intro l
  induction l with
  | nil =>
    intro r h
    simp only [List.mapM_nil] at h
    cases h
    exact ⟨rfl, fun i a h => by simp at h⟩
  | cons x l ih =>
    intro r h
    rw [List.mapM_cons] at h
    cases hc : g x with
    | error e => rw [hc] at h; cases h
    | ok y =>
      rw [hc] at h
      cases hl : l.mapM g with
      | error e => rw [hl] at h; cases h
      | ok ys =>
        rw [hl] at h
        cases h
        obtain ⟨h1, h2⟩ := ih ys hl
        refine ⟨by simp [h1], fun i a hi => ?_⟩
        cases i with
        | zero => simp only [List.getElem?_cons_zero, Option.some.injEq] at hi ⊢; subst hi; exact ⟨y, rfl, hc⟩
        | succ i => simp only [List.getElem?_cons_succ] at hi ⊢; exact h2 i a hi

/-- The difference of the scores of two configurations after permuting all predictions (specification of one trial). -/
def PermutedDifference (lg : ℚ → ℚ) (data : Nat → Nat → ℚ) (n : Nat) (pm : Nat → Bool → List ℚ → List ℚ)
    (best other : List Fold) (d : ℚ) : Prop :=
  ∃ a b : ℚ, d = a - b ∧
    meanN ((List.range n).map (fun v => mutualInfo lg (truth data other v) (pm v true (predicted best v)))) = some a ∧
    meanN ((List.range n).map (fun v => mutualInfo lg (truth data other v) (pm v false (predicted other v)))) = some b

/-- The average number of explanatory variables over the folds and the variables (specification). -/
def averageBlanket (n : Nat) (folds : List Fold) : ℚ :=
  (folds.map (fun f => ((List.range n).map (fun v => ((f.exps v).length : ℚ))).sum)).sum / ((folds.length : ℚ) * n)

theorem mbSize_eq (n : Nat) (folds : List Fold) : mbSize n folds = averageBlanket n folds := by
  have hs : ∀ l : List Fold, (l.flatMap (fun f => (List.range n).map (fun v => ((f.exps v).length : ℚ)))).sum =
      (l.map (fun f => ((List.range n).map (fun v => ((f.exps v).length : ℚ))).sum)).sum := by
    intro l
    induction l with
    | nil => rfl
    | cons f l ih =>
      rw [List.flatMap_cons, List.sum_append, ih, List.map_cons, List.sum_cons]
  have hl : ∀ l : List Fold, (l.flatMap (fun f => (List.range n).map (fun v => ((f.exps v).length : ℚ)))).length = l.length * n := by
    intro l
    induction l with
    | nil => simp
    | cons f l ih =>
      rw [List.flatMap_cons, List.length_append, ih, List.length_map, List.length_range, List.length_cons]
      ring
  unfold mbSize averageBlanket mean
  split
  · rename_i h0
    have := hl folds
    rw [h0, List.length_nil] at this
    rw [← Nat.cast_mul, ← this, Nat.cast_zero, div_zero]
    rfl
  · rw [Option.getD_some, hs, hl, Nat.cast_mul]

/-- **C47 (selection).** The selected configuration is a valid index; without the sparsity penalty and without
undefined scores it has the (first) largest score; with the penalty it is the best-scoring configuration or one for which
more than the fraction `thr` of the trials have a larger difference than the observed one; its average blanket is not
larger than the one of the best. -/
theorem C47_selected (lg : ℚ → ℚ) (data : Nat → Nat → ℚ) (n : Nat) (R : Random) (cfgs : List Config) (sp : Bool) (thr : ℚ)
    (hthr : 0 ≤ thr) (r : Nat) (h : fit lg data n R cfgs sp thr = Except.ok r) :
    ∃ infos best, infosOf data n R cfgs = Except.ok infos ∧ infos.length = cfgs.length ∧
      best < infos.length ∧ r < infos.length ∧ (sp = false → r = best) ∧
      averageBlanket n (infos.getD r []) ≤ averageBlanket n (infos.getD best []) ∧
      (r ≠ best → ∃ s s' : ℚ, evaluate lg data n (infos.getD best []) = some s ∧
        evaluate lg data n (infos.getD r []) = some s' ∧
        ∃ T : Finset Nat, thr * R.trials < T.card ∧ ∀ t ∈ T, t < R.trials ∧
          ∃ d, PermutedDifference lg data n (R.pm r t) (infos.getD best []) (infos.getD r []) d ∧ s - s' < d) ∧
      (∀ sc : List ℚ, infos.map (evaluate lg data n) = sc.map some →
        ∃ m, sc[best]? = some m ∧ ∀ j w, sc[j]? = some w → w ≤ m ∧ (j < best → w < m)) := by
  unfold fit at h
  cases hi : infosOf data n R cfgs with
  | error e => rw [hi] at h; cases h
  | ok infos =>
    rw [hi] at h
    simp only [] at h
    cases hb : argmax (infos.map (evaluate lg data n)) with
    | none => rw [hb] at h; cases h
    | some best =>
      rw [hb] at h
      simp only [Except.ok.injEq] at h
      have hbl : best < infos.length := by simpa using argmax_lt hb
      have hlen : infos.length = cfgs.length := by
        rw [(mapM_length _ _ _ hi).1, List.length_zipIdx]
      have hscore : ∀ sc : List ℚ, infos.map (evaluate lg data n) = sc.map some →
        ∃ m, sc[best]? = some m ∧ ∀ j w, sc[j]? = some w → w ≤ m ∧ (j < best → w < m) := by
        intro sc hsc
        rw [hsc] at hb
        exact argmax_spec hb
      have hev : ∀ k, k < infos.length →
          (infos.map (evaluate lg data n)).getD k none = evaluate lg data n (infos.getD k []) := by
        intro k hk
        rw [List.getD_eq_getElem?_getD, List.getD_eq_getElem?_getD, List.getElem?_map, List.getElem?_eq_getElem hk]
        rfl
      refine ⟨infos, best, rfl, hlen, hbl, ?_⟩
      cases sp with
      | false =>
        simp only [Bool.false_eq_true, if_false] at h
        subst h
        exact ⟨hbl, fun _ => rfl, le_refl _, fun h => absurd rfl h, hscore⟩
      | true =>
        simp only [if_true] at h
        obtain ⟨h1, h2, h3⟩ := sparsest_spec thr (infos.map (evaluate lg data n)) (infos.map (mbSize n))
          (fun k => (List.range R.trials).map (fun t =>
            trial lg data n (R.pm k t) (infos.getD best []) (infos.getD k []))) best
        rw [h] at h1 h2 h3
        have hrl : r < infos.length := by
          rcases h1 with h1 | h1
          · omega
          · simpa using (mem_matching.1 h1).1
        have hsz : ∀ k, k < infos.length → (infos.map (mbSize n)).getD k 0 = averageBlanket n (infos.getD k []) := by
          intro k hk
          rw [List.getD_eq_getElem?_getD, List.getD_eq_getElem?_getD, List.getElem?_map, List.getElem?_eq_getElem hk, ← mbSize_eq]
          rfl
        refine ⟨hrl, fun h => (by cases h), ?_, ?_, hscore⟩
        · rw [← hsz r hrl, ← hsz best hbl]
          exact h2 best (Or.inl rfl)
        intro hne
        rcases h1 with h1 | h1
        · exact absurd h1 hne
        · have h4 := (mem_matching.1 h1).2.2
          rw [hev best hbl, hev r hrl] at h4
          unfold pValue at h4
          rw [List.length_map, List.length_range] at h4
          have hpos : (0 : ℚ) < R.trials := by
            rcases Nat.eq_zero_or_pos R.trials with h0 | h0
            · rw [h0] at h4
              simp at h4
              exact absurd h4 (not_lt.2 hthr)
            · exact_mod_cast h0
          rw [lt_div_iff₀ hpos] at h4
          cases he1 : evaluate lg data n (infos.getD best []) with
          | none =>
            rw [he1] at h4
            have : ∀ (x : Option ℚ) (l : List (Option ℚ)), l.filter (fun t => gt t (subN none x)) = [] := by
              intro x l
              rw [List.filter_eq_nil_iff]
              intro t _
              cases t <;> simp [gt, subN]
            rw [this] at h4
            simp at h4
            exact absurd h4 (not_lt.2 (mul_nonneg hthr hpos.le))
          | some s =>
            cases he2 : evaluate lg data n (infos.getD r []) with
            | none =>
              rw [he1, he2] at h4
              have : ∀ (l : List (Option ℚ)), l.filter (fun t => gt t (subN (some s) none)) = [] := by
                intro l
                rw [List.filter_eq_nil_iff]
                intro t _
                cases t <;> simp [gt, subN]
              rw [this] at h4
              simp at h4
              exact absurd h4 (not_lt.2 (mul_nonneg hthr hpos.le))
            | some s' =>
              refine ⟨s, s', rfl, rfl, ?_⟩
              rw [he1, he2, List.filter_map, List.length_map] at h4
              refine ⟨((List.range R.trials).filter ((fun t => gt t (subN (some s) (some s'))) ∘ fun t =>
                trial lg data n (R.pm r t) (infos.getD best []) (infos.getD r []))).toFinset, ?_, ?_⟩
              · rw [List.toFinset_card_of_nodup (List.nodup_range.filter _)]
                exact h4
              · intro t ht
                rw [List.mem_toFinset, List.mem_filter, List.mem_range] at ht
                refine ⟨ht.1, ?_⟩
                have h5 := ht.2
                simp only [Function.comp_apply, trial] at h5
                unfold PermutedDifference
                cases ha : meanN ((List.range n).map (fun v => mutualInfo lg (truth data (infos.getD r []) v)
                    (R.pm r t v true (predicted (infos.getD best []) v)))) with
                | none => rw [ha] at h5; simp [subN, gt] at h5
                | some a =>
                  cases hb' : meanN ((List.range n).map (fun v => mutualInfo lg (truth data (infos.getD r []) v)
                    (R.pm r t v false (predicted (infos.getD r []) v)))) with
                  | none => rw [ha, hb'] at h5; simp [subN, gt] at h5
                  | some b =>
                    rw [ha, hb'] at h5
                    simp only [subN, gt, decide_eq_true_eq] at h5
                    exact ⟨a - b, ⟨a, b, rfl, rfl, rfl⟩, h5⟩

/-- **C47.** In every fold the average blanket of an acyclic graph is at most the one of `all_others`. -/
theorem C47_smaller_than_all (G : Mat) (n i : Nat) (hi : i < n) (hac : Acyclic (Arc n G)) :
    (mb G n i).length ≤ n - 1 ∧ (explanatory none n i).length = n - 1 := by
  have h2 : (explanatory none n i).length = n - 1 := by
    unfold explanatory
    simp only []
    have : (List.range n).filter (fun j => j != i) = (List.range n).erase i :=
      (List.nodup_range.erase_eq_filter i).symm
    rw [this, List.length_erase_of_mem (List.mem_range.2 hi), List.length_range]
  exact ⟨h2 ▸ (C47_not_self G n i hi hac).2.2.length_le, h2⟩

/-! ### C86: undefined scores and configurations -/

theorem dev_const (c : ℚ) (m : Nat) : dev (List.replicate m c) (List.replicate m c) = 0 := by
  unfold dev
  rcases Nat.eq_zero_or_pos m with h | h
  · subst h; rfl
  · have hm : (mean (List.replicate m c)).getD 0 = c := by
      unfold mean
      rw [if_neg (by intro h0; have := congrArg List.length h0; simp at this; omega)]
      simp only [List.sum_replicate, List.length_replicate, Option.getD_some, nsmul_eq_mul]
      rw [mul_comm, mul_div_assoc, div_self (by exact_mod_cast (by omega)), mul_one]
    rw [hm]
    apply List.sum_eq_zero
    intro x hx
    obtain ⟨i, hi, rfl⟩ := List.getElem_of_mem hx
    simp

theorem mutualInfo_const (lg : ℚ → ℚ) (x : List ℚ) (m : Nat) (c : ℚ) : mutualInfo lg x (List.replicate m c) = none := by
  unfold mutualInfo
  rw [dev_const, mul_zero, if_pos rfl]

theorem meanN_none {l : List (Option ℚ)} (h : none ∈ l) : meanN l = none := by
  unfold meanN
  rw [if_pos]
  rw [List.any_eq_true]
  exact ⟨none, h, rfl⟩

/-- With one train/test split, a configuration whose graph leaves a variable without neighbours has no score. -/
theorem C86_undefined_score (lg : ℚ → ℚ) (data : Nat → Nat → ℚ) (n : Nat) (rf : Nat → Nat → Forest) (train test : List Nat)
    (m : Nat → List (List ℚ) → Mat) (v : Nat) (hv : v < n) (hm : mb (m 0 (sub data train (List.range n))) n v = [])
    (folds : List Fold) (h : runConfig data n rf [(train, test)] ⟨false, some m⟩ = Except.ok folds) :
    evaluate lg data n folds = none := by
  have hf : folds = [⟨test, explanatory (some (m 0 (sub data train (List.range n)))) n,
        fun v => predict data (rf 0 v) (explanatory (some (m 0 (sub data train (List.range n)))) n v) v train test⟩] := by
    unfold runConfig at h
    simp only [List.zipIdx_cons, List.zipIdx_nil, List.mapM_cons, List.mapM_nil, makeFold, Bool.false_eq_true, if_false] at h
    cases h
    rfl
  unfold evaluate
  apply meanN_none
  rw [List.mem_map]
  refine ⟨v, List.mem_range.2 hv, ?_⟩
  rw [hf]
  unfold predicted
  simp only [List.flatMap_cons, List.flatMap_nil, List.append_nil, explanatory, hm, predict, if_true]
  rw [List.map_const']
  exact mutualInfo_const _ _ _ _

/-- **C86 is violated**: as soon as one configuration has an undefined score, the first such configuration is
selected, with or without the sparsity penalty, whatever the other scores are. -/
theorem C86_undefined_selected (lg : ℚ → ℚ) (data : Nat → Nat → ℚ) (n : Nat) (R : Random) (cfgs : List Config) (sp : Bool)
    (thr : ℚ) (hthr : 0 ≤ thr) (infos : List (List Fold)) (hi : infosOf data n R cfgs = Except.ok infos)
    (k : Nat) (hk : (infos.map (evaluate lg data n))[k]? = some none)
    (hj : ∀ j, j < k → ∃ w, (infos.map (evaluate lg data n))[j]? = some (some w)) :
    fit lg data n R cfgs sp thr = Except.ok k := by
  unfold fit
  rw [hi]
  simp only []
  rw [argmax_nan _ k hk hj]
  simp only []
  generalize hts : (fun j => (List.range R.trials).map (fun t =>
    trial lg data n (R.pm j t) (infos.getD k []) (infos.getD j []))) = ts
  have hm : matching thr (infos.map (evaluate lg data n)) ts k = [] := by
    rw [List.eq_nil_iff_forall_not_mem]
    intro j hjm
    obtain ⟨_, _, h3⟩ := mem_matching.1 hjm
    have e1 : (infos.map (evaluate lg data n)).getD k none = none := by
      rw [List.getD_eq_getElem?_getD, hk]; rfl
    rw [e1] at h3
    have : pValue (subN none ((infos.map (evaluate lg data n)).getD j none)) (ts j) = 0 := by
      unfold pValue
      have : (ts j).filter (fun t => gt t (subN none ((infos.map (evaluate lg data n)).getD j none))) = [] := by
        rw [List.filter_eq_nil_iff]
        intro t _
        have h0 : ∀ y, subN none y = none := by intro y; rfl
        rw [h0]
        cases t <;> simp [gt]
      rw [this]
      simp
    rw [this] at h3
    exact absurd h3 (not_lt.2 hthr)
  cases sp with
  | false => rfl
  | true =>
    simp only [if_true]
    unfold sparsest
    simp only []
    rw [if_pos hm]

/-- Data with two rows for training and three for testing. -/
def wData : Nat → Nat → ℚ := fun r v => r * (v + 1)
/-- A forest that predicts the test inputs, with one of them changed, one split and two trials. -/
def wR : Random where
  rf _ _ _ := fun _ _ X => X.map (fun x => if x.headD 0 = 3 ∨ x.headD 0 = 6 then 1 else x.headD 0)
  splits _ := [([0, 1], [2, 3, 4])]
  pm _ _ _ _ := fun l => l
  trials := 2
/-- The complete graph and the empty graph. -/
def wCfgs : List Config := [⟨false, some (fun _ _ i j => if j < i then some 1 else some 0)⟩, ⟨false, some (fun _ _ _ _ => some 0)⟩]

/-- The hypotheses are met: the good configuration 0 has a score, the empty graph has none and is selected. -/
example : fit (fun x => x) wData 2 wR wCfgs true (1 / 20) = Except.ok 1 ∧
    (infosOf wData 2 wR wCfgs).toOption.map (fun l => l.map (fun f =>
      (evaluate (fun x => x) wData 2 f).isSome)) = some [true, false] := by
  have h : (fit (fun x => x) wData 2 wR wCfgs true (1 / 20)).toOption = some 1 := by decide +kernel
  constructor
  · cases hf : fit (fun x => x) wData 2 wR wCfgs true (1 / 20) with
    | error e => rw [hf] at h; cases h
    | ok r => rw [hf] at h; cases h; rfl
  · decide +kernel

/-! ### C87: configuration checks -/

/-- Specification: the entry has a known key and a value of the right type. -/
def Item.wellTyped : Item → Prop
  | Item.allOthers v => v.isSome = true
  | Item.model v => v.isSome = true
  | Item.initKwargs b => b = true
  | Item.fitKwargs b => b = true
  | Item.unknown => False

theorem parseItem_ok (c : Config) (it : Item) : (∃ c', parseItem c it = Except.ok c') ↔ it.wellTyped := by
  cases it with
  | allOthers v => cases v <;> simp [parseItem, Item.wellTyped]
  | model v => cases v <;> simp [parseItem, Item.wellTyped]
  | initKwargs b => cases b <;> simp [parseItem, Item.wellTyped]
  | fitKwargs b => cases b <;> simp [parseItem, Item.wellTyped]
  | unknown => simp [parseItem, Item.wellTyped]

theorem fold_ok : ∀ (items : List Item) (c : Config),
    (∃ c', List.foldlM parseItem c items = Except.ok c') ↔ ∀ it ∈ items, it.wellTyped
  | [], c => by simp only [List.not_mem_nil, false_implies, implies_true, iff_true]; exact ⟨c, rfl⟩
  | it :: items, c => by
    rw [List.foldlM_cons]
    constructor
    · rintro ⟨c', h⟩
      cases hp : parseItem c it with
      | error e => rw [hp] at h; cases h
      | ok c1 =>
        rw [hp] at h
        have := (fold_ok items c1).1 ⟨c', h⟩
        intro x hx
        rcases List.mem_cons.1 hx with rfl | hx
        · exact (parseItem_ok c x).1 ⟨c1, hp⟩
        · exact this x hx
    · intro h
      obtain ⟨c1, hp⟩ := (parseItem_ok c it).2 (h it (by simp))
      obtain ⟨c', h'⟩ := (fold_ok items c1).2 (fun x hx => h x (by simp [hx]))
      exact ⟨c', by rw [hp]; exact h'⟩

theorem parseConfig_ok (items : List Item) : (∃ c, parseConfig items = Except.ok c) ↔ ∀ it ∈ items, it.wellTyped := by
  rw [← fold_ok items ⟨false, none⟩]
  unfold parseConfig
  cases List.foldlM parseItem ⟨false, none⟩ items with
  | error e => simp
  | ok c => simp

/-- **C87 (partial).** A list of configurations passes exactly when it is not empty and every entry has a known key
and a value of the right type.  Missing: the documented requirement of a `model`, see
`C87_missing_model_accepted`. -/
theorem C87_accepts_iff_partial (cfgs : List (List Item)) :
    (∃ cs, checkConfigs cfgs = Except.ok cs) ↔ cfgs ≠ [] ∧ ∀ c ∈ cfgs, ∀ it ∈ c, it.wellTyped := by
  unfold checkConfigs
  by_cases h0 : cfgs = []
  · simp [h0]
  rw [if_neg h0]
  simp only [ne_eq, h0, not_false_eq_true, true_and]
  clear h0
  induction cfgs with
  | nil => simp only [List.not_mem_nil, false_implies, implies_true, iff_true]; exact ⟨[], rfl⟩
  | cons c cs ih =>
    rw [List.mapM_cons]
    constructor
    · rintro ⟨l, h⟩
      cases hp : parseConfig c with
      | error e => rw [hp] at h; cases h
      | ok c1 =>
        rw [hp] at h
        cases hcs : cs.mapM parseConfig with
        | error e => rw [hcs] at h; cases h
        | ok xs =>
          intro x hx
          rcases List.mem_cons.1 hx with rfl | hx
          · exact (parseConfig_ok x).1 ⟨c1, hp⟩
          · exact ih.1 ⟨xs, hcs⟩ x hx
    · intro h
      obtain ⟨c1, hp⟩ := (parseConfig_ok c).2 (h c (by simp))
      obtain ⟨xs, hcs⟩ := ih.2 (fun x hx => h x (by simp [hx]))
      exact ⟨c1 :: xs, by rw [hp, hcs]; rfl⟩

/-- **C87 is violated**: a configuration without `model` (and without `all_others`) passes the checks, and `fit`
raises `TypeError` when it calls the missing model. -/
theorem C87_missing_model_accepted (kw : List Bool) (hkw : ∀ b ∈ kw, b = true) (lg : ℚ → ℚ) (data : Nat → Nat → ℚ)
    (n : Nat) (R : Random) (hR : R.splits 0 ≠ []) (sp : Bool) (thr : ℚ) :
    checkConfigs [kw.map Item.initKwargs] = Except.ok [⟨false, none⟩] ∧
    fit lg data n R [⟨false, none⟩] sp thr = Except.error Err.typeError := by
  have hp : parseConfig (kw.map Item.initKwargs) = Except.ok ⟨false, none⟩ := by
    unfold parseConfig
    have : List.foldlM parseItem ⟨false, none⟩ (kw.map Item.initKwargs) = Except.ok ⟨false, none⟩ := by
      induction kw with
      | nil => rfl
      | cons b t ih =>
        rw [List.map_cons, List.foldlM_cons, hkw b (by simp)]
        exact ih (fun b hb => hkw b (by simp [hb]))
    rw [this]
    rfl
  refine ⟨?_, ?_⟩
  · unfold checkConfigs
    rw [if_neg (by simp), List.mapM_cons, hp]
    rfl
  · unfold fit infosOf runConfig
    cases hs : R.splits 0 with
    | nil => exact absurd hs hR
    | cons x l =>
      simp only [List.zipIdx_cons, List.zipIdx_nil, List.mapM_cons, List.mapM_nil, hs]
      rfl

end Verif.Oct
