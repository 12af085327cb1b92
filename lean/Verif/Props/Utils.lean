import Verif.Proofs.Utils
import Mathlib.Algebra.Order.Ring.Rat
import Mathlib.Algebra.Field.Rat
import Mathlib.Tactic.NormNum

/-! # Matrix utilities (C49–C51) -/
set_option linter.unusedSectionVars false
set_option autoImplicit false
namespace Verif.Utils

variable {K : Type} [Field K] [LinearOrder K] [IsStrictOrderedRing K]

/-! ### C50: sinks and exogenous variables -/

/-- C50: the sinks are exactly the variables without outgoing edges (self loops ignored), in increasing order. -/
theorem C50_sinks (n : Nat) (B : Nat → Nat → K) :
    (getSink n B).Pairwise (· < ·) ∧ ∀ i, i ∈ getSink n B ↔ i < n ∧ ∀ j, j ≠ i → ¬ Edge n B 0 i j := by
  refine ⟨List.pairwise_lt_range.filter _, fun i => ?_⟩
  unfold getSink
  rw [List.mem_filter, List.mem_range, decide_eq_true_eq, sum_nonneg_eq_zero (fun r => absNoDiag_nonneg B r i)]
  simp only [absNoDiag_eq_zero]
  constructor
  · rintro ⟨h1, h2⟩
    refine ⟨h1, ?_⟩
    rintro j hj ⟨_, hjn, hw⟩
    rw [h2 j hjn hj, abs_zero] at hw
    exact lt_irrefl _ hw
  · rintro ⟨h1, h2⟩
    refine ⟨h1, fun r hr hne => ?_⟩
    by_contra hc
    exact h2 r hne ⟨h1, hr, abs_pos.2 hc⟩

/-- C50: the exogenous variables are exactly those without incoming edges (self loops ignored), in increasing order. -/
theorem C50_exo (n : Nat) (B : Nat → Nat → K) :
    (getExo n B).Pairwise (· < ·) ∧ ∀ i, i ∈ getExo n B ↔ i < n ∧ ∀ j, j ≠ i → ¬ Edge n B 0 j i := by
  refine ⟨List.pairwise_lt_range.filter _, fun i => ?_⟩
  unfold getExo
  rw [List.mem_filter, List.mem_range, decide_eq_true_eq, sum_nonneg_eq_zero (fun c => absNoDiag_nonneg B i c)]
  simp only [absNoDiag_eq_zero]
  constructor
  · rintro ⟨h1, h2⟩
    refine ⟨h1, ?_⟩
    rintro j hj ⟨hjn, _, hw⟩
    rw [h2 j hjn (Ne.symm hj), abs_zero] at hw
    exact lt_irrefl _ hw
  · rintro ⟨h1, h2⟩
    refine ⟨h1, fun r hr hne => ?_⟩
    by_contra hc
    exact h2 r (Ne.symm hne) ⟨hr, h1, abs_pos.2 hc⟩

/-- C50: an acyclic graph with at least one node has at least one sink and at least one exogenous variable. -/
theorem C50_exist {n : Nat} {B : Nat → Nat → K} (hE : Acyclic (Edge n B 0)) (hn : n ≠ 0) :
    getSink n B ≠ [] ∧ getExo n B ≠ [] := by
  have hr : List.range n ≠ [] := by simpa using hn
  have hE' : Acyclic (fun a b => Edge n B 0 b a) := by
    intro i hi
    exact hE i (Relation.transGen_swap.1 hi)
  obtain ⟨m, hm, hmin⟩ := exists_minimal hE _ hr
  obtain ⟨m', hm', hmin'⟩ := exists_minimal hE' _ hr
  refine ⟨List.ne_nil_of_mem (((C50_sinks n B).2 m').2 ⟨List.mem_range.1 hm', ?_⟩),
    List.ne_nil_of_mem (((C50_exo n B).2 m).2 ⟨List.mem_range.1 hm, ?_⟩)⟩
  · intro j _ he
    exact hmin' j (List.mem_range.2 he.2.1) he
  · intro j _ he
    exact hmin j (List.mem_range.2 he.1) he

/-! ### C51: distances from the root nodes -/

/-- The roots: nodes without parents. -/
def IsRoot (n : Nat) (B : Nat → Nat → K) (r : Nat) : Prop := r < n ∧ ∀ j, ¬ Edge n B 0 j r

/-- `d` is the number of edges of a shortest path from a root to `v`. -/
def IsRootDist (n : Nat) (B : Nat → Nat → K) (R : Nat → Prop) (v d : Nat) : Prop :=
  (∃ r p, R r ∧ IsPath (Edge n B 0) r v p ∧ p.length = d + 1) ∧ ∀ r p, R r → IsPath (Edge n B 0) r v p → d + 1 ≤ p.length

/-- What the code takes for a root: the signed row sum is at most `1e-8` in absolute value. -/
def LooksLikeRoot (n : Nat) (B : Nat → Nat → K) (r : Nat) : Prop :=
  r < n ∧ |((List.range n).map (B r)).sum| ≤ 1 / 10 ^ 8

theorem mem_rootIndices {n : Nat} {B : Nat → Nat → K} {r : Nat} : r ∈ rootIndices n B ↔ LooksLikeRoot n B r := by
  simp [rootIndices, LooksLikeRoot]

theorem rootDist_eq_some {n : Nat} {B : Nat → Nat → K} {v d : Nat} :
    rootDist n B v = some d ↔ IsRootDist n B (LooksLikeRoot n B) v d := by
  unfold rootDist
  rw [foldl_minOpt]
  simp only [reduceCtorEq, false_or, List.mem_map]
  constructor
  · rintro ⟨⟨r, hr, hd⟩, hmin⟩
    have hr' := mem_rootIndices.1 hr
    obtain ⟨⟨p, hp, hl⟩, _⟩ := (dist_eq_some hr'.1).1 hd
    refine ⟨⟨r, p, hr', hp, hl⟩, ?_⟩
    intro r2 p2 hr2 hp2
    obtain ⟨e, he⟩ := exists_dist hp2
    have := hmin e ⟨r2, mem_rootIndices.2 hr2, (dist_eq_some hr2.1).2 he⟩
    have := he.2 p2 hp2
    omega
  · rintro ⟨⟨r, p, hr, hp, hl⟩, hmin⟩
    refine ⟨⟨r, mem_rootIndices.2 hr, (dist_eq_some hr.1).2 ⟨⟨p, hp, hl⟩, fun q hq => hmin r q hr hq⟩⟩, ?_⟩
    rintro e ⟨r2, hr2, he⟩
    have hr2' := mem_rootIndices.1 hr2
    obtain ⟨⟨q, hq, hql⟩, _⟩ := (dist_eq_some hr2'.1).1 he
    have := hmin r2 q hr2' hq
    omega

theorem mem_series {n : Nat} {B : Nat → Nat → K} {maxDist : Option Nat} {v d : Nat} :
    (v, d) ∈ series n B maxDist ↔ v < n ∧ rootDist n B v = some d ∧ ∀ m, maxDist = some m → d ≤ m := by
  unfold series
  rw [List.mem_filterMap]
  constructor
  · rintro ⟨a, ha, h⟩
    rw [Option.map_eq_some_iff] at h
    obtain ⟨e, he, heq⟩ := h
    simp only [Prod.mk.injEq] at heq
    obtain ⟨rfl, rfl⟩ := heq
    rw [Option.filter_eq_some_iff] at he
    refine ⟨List.mem_range.1 ha, he.1, ?_⟩
    rintro m rfl
    simpa [within] using he.2
  · rintro ⟨h1, h2, h3⟩
    refine ⟨v, List.mem_range.2 h1, ?_⟩
    rw [Option.map_eq_some_iff]
    refine ⟨d, ?_, rfl⟩
    rw [Option.filter_eq_some_iff]
    refine ⟨h2, ?_⟩
    cases maxDist with
    | none => rfl
    | some m => simpa [within] using h3 m rfl

/-- General form: the grouping relative to what the code takes for roots. -/
theorem C51_groups {n : Nat} {B : Nat → Nat → K} {maxDist : Option Nat} :
    (distanceFromRoots n B maxDist = none ↔ ∀ r, ¬ LooksLikeRoot n B r) ∧
    ∀ dict, distanceFromRoots n B maxDist = some dict →
      (dict.map Prod.fst).Nodup ∧ (∀ d l, (d, l) ∈ dict → l ≠ [] ∧ l.Pairwise (· < ·)) ∧
      ∀ v d, (∃ l, (d, l) ∈ dict ∧ v ∈ l) ↔
        v < n ∧ IsRootDist n B (LooksLikeRoot n B) v d ∧ ∀ m, maxDist = some m → d ≤ m := by
  constructor
  · unfold distanceFromRoots
    split
    · rename_i h
      simp only [true_iff]
      intro r hr
      rw [← mem_rootIndices, h] at hr
      simp at hr
    · rename_i h
      obtain ⟨r, hr⟩ := List.exists_mem_of_ne_nil _ h
      simp only [reduceCtorEq, false_iff]
      intro hc
      exact hc r (mem_rootIndices.1 hr)
  · intro dict h
    unfold distanceFromRoots at h
    split at h
    · cases h
    · simp only [Option.some.injEq] at h
      subst h
      refine ⟨?_, ?_, ?_⟩
      · rw [List.map_map]
        have : (Prod.fst ∘ fun d => (d, ((series n B maxDist).filter (fun p => decide (p.2 = d))).map Prod.fst)) = id := rfl
        rw [this, List.map_id]
        exact nodup_unique _ _
      · intro d l hdl
        rw [List.mem_map] at hdl
        obtain ⟨e, he, heq⟩ := hdl
        simp only [Prod.mk.injEq] at heq
        obtain ⟨rfl, rfl⟩ := heq
        rw [mem_unique] at he
        constructor
        · obtain ⟨⟨v, d'⟩, hm, rfl⟩ := List.mem_map.1 he.1
          refine List.ne_nil_of_mem (a := v) ?_
          rw [List.mem_map]
          exact ⟨(v, d'), by simp [hm], rfl⟩
        · have hs : ((series n B maxDist).map Prod.fst).Pairwise (· < ·) := by
            have hsub : ((series n B maxDist).map Prod.fst).Sublist (List.range n) := by
              unfold series
              generalize List.range n = l
              induction l with
              | nil => simp
              | cons a l ih =>
                rw [List.filterMap_cons]
                split
                · exact ih.cons a
                · rename_i b hb
                  have : b.1 = a := by
                    rw [Option.map_eq_some_iff] at hb
                    obtain ⟨_, _, rfl⟩ := hb; rfl
                  rw [List.map_cons, this]
                  exact ih.cons_cons a
            exact List.pairwise_lt_range.sublist hsub
          exact hs.sublist (List.filter_sublist.map _)
      · intro v d
        rw [← rootDist_eq_some, ← mem_series]
        constructor
        · rintro ⟨l, hl, hv⟩
          rw [List.mem_map] at hl
          obtain ⟨e, _, heq⟩ := hl
          simp only [Prod.mk.injEq] at heq
          obtain ⟨rfl, rfl⟩ := heq
          rw [List.mem_map] at hv
          obtain ⟨⟨v', d'⟩, hm, rfl⟩ := hv
          rw [List.mem_filter] at hm
          simp only [decide_eq_true_eq] at hm
          rw [← hm.2]; exact hm.1
        · intro hm
          refine ⟨_, List.mem_map.2 ⟨d, (mem_unique _ _ _).2 ⟨List.mem_map.2 ⟨(v, d), hm, rfl⟩, by simp⟩, rfl⟩, ?_⟩
          rw [List.mem_map]
          exact ⟨(v, d), by simp [hm], rfl⟩

/-- C51, partial (no row of coefficients may sum to nearly zero, see `C51_cancelling_row`): for an acyclic matrix every node
appears, exactly under the length of its shortest path from a root; with `max_distance` exactly the nodes up to it. -/
theorem C51_distance_partial {n : Nat} {B : Nat → Nat → K} (hn : n ≠ 0) (hE : Acyclic (Edge n B 0))
    (hno : ∀ k, LooksLikeRoot n B k → IsRoot n B k) (maxDist : Option Nat) :
    ∃ dict, distanceFromRoots n B maxDist = some dict ∧
      (∀ v d, (∃ l, (d, l) ∈ dict ∧ v ∈ l) ↔ v < n ∧ IsRootDist n B (IsRoot n B) v d ∧ ∀ m, maxDist = some m → d ≤ m) ∧
      (maxDist = none → ∀ v, v < n → ∃ d l, (d, l) ∈ dict ∧ v ∈ l) := by
  have hiff : ∀ r, LooksLikeRoot n B r ↔ IsRoot n B r := by
    intro r
    refine ⟨hno r, fun h => ⟨h.1, ?_⟩⟩
    have : ((List.range n).map (B r)).sum = 0 := by
      refine List.sum_eq_zero ?_
      intro x hx
      obtain ⟨j, hj, rfl⟩ := List.mem_map.1 hx
      by_contra hc
      exact h.2 j ⟨List.mem_range.1 hj, h.1, abs_pos.2 hc⟩
    rw [this, abs_zero]
    positivity
  have hRR : LooksLikeRoot n B = IsRoot n B := funext fun r => propext (hiff r)
  -- every node has a root above it
  have hroot : ∀ v, v < n → ∃ r p, IsRoot n B r ∧ IsPath (Edge n B 0) r v p := by
    classical
    intro v hv
    have hne : (List.range n).filter (fun u => decide (∃ p, IsPath (Edge n B 0) u v p)) ≠ [] :=
      List.ne_nil_of_mem (a := v) (by
        rw [List.mem_filter, decide_eq_true_eq]
        exact ⟨List.mem_range.2 hv, [v], rfl, rfl, by simp⟩)
    obtain ⟨m, hm, hmin⟩ := exists_minimal hE _ hne
    rw [List.mem_filter, List.mem_range, decide_eq_true_eq] at hm
    obtain ⟨hmn, p, hp⟩ := hm
    refine ⟨m, p, ⟨hmn, ?_⟩, hp⟩
    intro j hj
    refine hmin j ?_ hj
    rw [List.mem_filter, List.mem_range, decide_eq_true_eq]
    refine ⟨hj.1, j :: p, rfl, ?_, ?_⟩
    · obtain ⟨h1, h2, h3⟩ := hp
      cases p with
      | nil => simp at h1
      | cons a p => simpa using h2
    · obtain ⟨h1, h2, h3⟩ := hp
      cases p with
      | nil => simp
      | cons a p =>
        simp only [List.head?_cons, Option.some.injEq] at h1
        subst h1
        exact List.isChain_cons_cons.2 ⟨hj, h3⟩
  obtain ⟨g1, g2⟩ := C51_groups (n := n) (B := B) (maxDist := maxDist)
  cases hd : distanceFromRoots n B maxDist with
  | none =>
    exfalso
    obtain ⟨r, p, hr, _⟩ := hroot 0 (by omega)
    exact g1.1 hd r ((hiff r).2 hr)
  | some dict =>
    obtain ⟨_, _, g3⟩ := g2 dict hd
    rw [hRR] at g3
    refine ⟨dict, rfl, g3, ?_⟩
    rintro rfl v hv
    obtain ⟨r, p, hr, hp⟩ := hroot v hv
    classical
    have hex : ∃ k, ∃ r p, IsRoot n B r ∧ IsPath (Edge n B 0) r v p ∧ p.length = k + 1 := by
      have hp0 : 0 < p.length := List.length_pos_of_ne_nil (by rintro rfl; simp [IsPath] at hp)
      exact ⟨p.length - 1, r, p, hr, hp, by omega⟩
    have hdd : IsRootDist n B (IsRoot n B) v (Nat.find hex) := by
      refine ⟨Nat.find_spec hex, ?_⟩
      intro r2 p2 hr2 hp2
      have hp0 : 0 < p2.length := List.length_pos_of_ne_nil (by rintro rfl; simp [IsPath] at hp2)
      have := Nat.find_min' hex (m := p2.length - 1) ⟨r2, p2, hr2, hp2, by omega⟩
      omega
    obtain ⟨l, hl, hvl⟩ := (g3 v _).2 ⟨hv, hdd, by simp⟩
    exact ⟨_, l, hl, hvl⟩

/-- `x1 = x0`, `x2 = x0 - x1`. -/
def cancelB : Nat → Nat → ℚ := fun i j =>
  if i = 1 ∧ j = 0 then 1 else if i = 2 ∧ j = 0 then 1 else if i = 2 ∧ j = 1 then -1 else 0

/-- C51 fails when coefficients cancel: `x2` has two parents but is listed as a root. -/
theorem C51_cancelling_row : distanceFromRoots 3 cancelB none = some [(0, [0, 2]), (1, [1])] ∧ ¬ IsRoot 3 cancelB 2 ∧
    Acyclic (Edge 3 cancelB 0) := by
  refine ⟨by decide +kernel, fun h => h.2 0 ⟨by norm_num, by norm_num, by decide +kernel⟩, ?_⟩
  refine acyclic_of_before (l := [0, 1, 2]) (by decide) ?_
  rintro a b ⟨_, _, hw⟩
  have : (b = 1 ∧ a = 0) ∨ (b = 2 ∧ a = 0) ∨ (b = 2 ∧ a = 1) := by
    by_contra hc
    push Not at hc
    unfold cancelB at hw
    rw [if_neg (by omega), if_neg (by omega), if_neg (by omega)] at hw
    simp at hw
  rcases this with ⟨rfl, rfl⟩ | ⟨rfl, rfl⟩ | ⟨rfl, rfl⟩
  · exact ⟨[], [], [2], rfl⟩
  · exact ⟨[], [1], [], rfl⟩
  · exact ⟨[0], [], [], rfl⟩

/-! ### C49: p-values of the error variables -/

/-- C49 (`_BaseLiNGAM`): symmetric, zero diagonal, and each entry is the p-value of the two residual columns. -/
theorem C49_pvalues (n m : Nat) (B : Nat → Nat → Option K) (X : Nat → Nat → K)
    (hsic : List (Option K) → List (Option K) → K) :
    (∀ i j, pValues n m B X hsic i j = pValues n m B X hsic j i) ∧ (∀ i, pValues n m B X hsic i i = some 0) ∧
    ∀ i j, i < j → j < n →
      pValues n m B X hsic i j = some (hsic (errorColumn n m B X i) (errorColumn n m B X j)) := by
  have key := fun a b => foldl_setSym
    (fun ij : Nat × Nat => some (hsic (errorColumn n m B X ij.1) (errorColumn n m B X ij.2))) a b (pairs n)
    (fun _ _ => some 0) (fun q hq => (mem_pairs.1 (show (q.1, q.2) ∈ pairs n from hq)).1)
  refine ⟨?_, ?_, ?_⟩
  · intro i j
    unfold pValues
    rw [key, key]
    by_cases h1 : (i, j) ∈ pairs n
    · have h2 : (j, i) ∉ pairs n := fun h => by rw [mem_pairs] at h h1; omega
      simp [h1, h2]
    · by_cases h2 : (j, i) ∈ pairs n <;> simp [h1, h2]
  · intro i
    unfold pValues
    rw [key]
    have h1 : (i, i) ∉ pairs n := fun h => by rw [mem_pairs] at h; omega
    simp [h1]
  · intro i j hij hj
    unfold pValues
    rw [key, if_pos (mem_pairs.2 ⟨hij, hj⟩)]

/-- Residual of variable `i` in sample `s`, for coefficients without NaN. -/
def residual (n : Nat) (B : Nat → Nat → K) (X : Nat → Nat → K) (s i : Nat) : K :=
  X s i - ((List.range n).map (fun j => B i j * X s j)).sum

theorem errorColumn_eq {n m : Nat} {B : Nat → Nat → Option K} {B' : Nat → Nat → K} {i : Nat}
    (hB : ∀ j, j < n → B i j = some (B' i j)) (X : Nat → Nat → K) :
    errorColumn n m B X i = (List.range m).map (fun s => some (residual n B' X s i)) := by
  unfold errorColumn
  refine List.map_congr_left fun s _ => ?_
  have gen : ∀ (l : List Nat) (a : K), (∀ j ∈ l, B i j = some (B' i j)) →
      (l.map (fun j => (B i j).map (fun b => b * X s j))).foldl
        (fun acc t => match acc, t with | some a, some b => some (a - b) | _, _ => none) (some a) =
      some (a - (l.map (fun j => B' i j * X s j)).sum) := by
    intro l
    induction l with
    | nil => intro a _; simp
    | cons x l ih =>
      intro a h
      rw [List.map_cons, List.foldl_cons, h x (by simp)]
      simp only [Option.map_some]
      rw [ih _ (fun j hj => h j (by simp [hj])), List.map_cons, List.sum_cons]
      rw [sub_sub]
  exact gen _ _ (fun j hj => hB j (List.mem_range.1 hj))

/-- C49 (RCD, BottomUpParceLiNGAM): symmetric, zero diagonal, NaN exactly for pairs touching a variable with a NaN in its
row or column; every other entry is the p-value of two residual columns that are free of NaN. -/
theorem C49_pvalues_nan (n m : Nat) (B : Nat → Nat → Option K) (B' : Nat → Nat → K)
    (hB' : ∀ i j b, B i j = some b → B' i j = b) (X : Nat → Nat → K)
    (hsic : List (Option K) → List (Option K) → K) :
    (∀ i j, pValuesNan n m B X hsic i j = pValuesNan n m B X hsic j i) ∧ (∀ i, pValuesNan n m B X hsic i i = some 0) ∧
    ∀ i j, i < j → j < n →
      (pValuesNan n m B X hsic i j = none ↔ ∃ k, k < n ∧ (B i k = none ∨ B k i = none ∨ B j k = none ∨ B k j = none)) ∧
      ∀ p, pValuesNan n m B X hsic i j = some p →
        p = hsic ((List.range m).map (fun s => some (residual n B' X s i)))
          ((List.range m).map (fun s => some (residual n B' X s j))) := by
  have key := fun a b => foldl_setSym
    (fun ij : Nat × Nat => if ij.1 ∈ nanCols n B ∨ ij.2 ∈ nanCols n B then none
     else some (hsic (errorColumn n m B X ij.1) (errorColumn n m B X ij.2))) a b (pairs n)
    (fun _ _ => some 0) (fun q hq => (mem_pairs.1 (show (q.1, q.2) ∈ pairs n from hq)).1)
  have hnan : ∀ i, i < n → (i ∈ nanCols n B ↔ ∃ k, k < n ∧ (B i k = none ∨ B k i = none)) := by
    intro i hi
    simp only [nanCols, List.mem_filter, List.mem_range, hi, true_and, List.any_eq_true, Bool.or_eq_true,
      Option.isNone_iff_eq_none]
  refine ⟨?_, ?_, ?_⟩
  · intro i j
    unfold pValuesNan
    rw [key, key]
    by_cases h1 : (i, j) ∈ pairs n
    · have h2 : (j, i) ∉ pairs n := fun h => by rw [mem_pairs] at h h1; omega
      simp [h1, h2]
    · by_cases h2 : (j, i) ∈ pairs n <;> simp [h1, h2]
  · intro i
    unfold pValuesNan
    rw [key]
    have h1 : (i, i) ∉ pairs n := fun h => by rw [mem_pairs] at h; omega
    simp [h1]
  · intro i j hij hj
    have hi : i < n := by omega
    unfold pValuesNan
    rw [key, if_pos (mem_pairs.2 ⟨hij, hj⟩)]
    simp only
    constructor
    · constructor
      · intro h
        by_contra hc
        rw [if_neg] at h
        · cases h
        · rw [hnan i hi, hnan j hj]
          rintro (⟨k, hk, h⟩ | ⟨k, hk, h⟩)
          · exact hc ⟨k, hk, by tauto⟩
          · exact hc ⟨k, hk, by tauto⟩
      · rintro ⟨k, hk, h⟩
        rw [if_pos]
        rw [hnan i hi, hnan j hj]
        rcases h with h | h | h | h
        · exact Or.inl ⟨k, hk, Or.inl h⟩
        · exact Or.inl ⟨k, hk, Or.inr h⟩
        · exact Or.inr ⟨k, hk, Or.inl h⟩
        · exact Or.inr ⟨k, hk, Or.inr h⟩
    · intro p hp
      split at hp
      · cases hp
      · rename_i hc
        simp only [Option.some.injEq] at hp
        rw [not_or, hnan i hi, hnan j hj] at hc
        have row : ∀ i, (¬ ∃ k, k < n ∧ (B i k = none ∨ B k i = none)) → ∀ k, k < n → B i k = some (B' i k) := by
          intro i hc k hk
          cases hb : B i k with
          | none => exact absurd ⟨k, hk, Or.inl hb⟩ hc
          | some b => rw [hB' i k b hb]
        rw [← hp, errorColumn_eq (row i hc.1), errorColumn_eq (row j hc.2)]

/-! ### Concrete cases meeting the hypotheses -/

/-- `0 → 1 → 2`, `0 → 2`, and an isolated node 3. -/
def exB : Nat → Nat → ℚ := fun i j => if (i = 1 ∧ j = 0) ∨ (i = 2 ∧ j = 1) then 2 else if i = 2 ∧ j = 0 then -1 else 0

example : getSink 4 exB = [2, 3] ∧ getExo 4 exB = [0, 3] := by decide +kernel
example : distanceFromRoots 4 exB none = some [(0, [0, 3]), (1, [1, 2])] := by decide +kernel
example : distanceFromRoots 4 exB (some 0) = some [(0, [0, 3])] := by decide +kernel

/-- The hypothesis of `C51_distance_partial` holds for `exB`. -/
example : ∀ k, LooksLikeRoot 4 exB k → IsRoot 4 exB k := by
  rintro k ⟨hk, hs⟩
  refine ⟨hk, ?_⟩
  have hk' : k = 0 ∨ k = 1 ∨ k = 2 ∨ k = 3 := by omega
  rcases hk' with rfl | rfl | rfl | rfl
  · rintro j ⟨_, _, hw⟩; simp [exB] at hw
  · exact absurd hs (by decide +kernel)
  · exact absurd hs (by decide +kernel)
  · rintro j ⟨_, _, hw⟩; simp [exB] at hw

/-- Two samples, three variables, a NaN pair (1, 2): only pairs touching 1 or 2 are NaN. -/
example : [(0, 1), (1, 2), (0, 3), (3, 0), (0, 0)].map (fun p : Nat × Nat =>
    pValuesNan 4 2 (fun i j => if (i = 1 ∧ j = 2) ∨ (i = 2 ∧ j = 1) then none else some (0 : ℚ)) (fun s i => (s : ℚ) + i)
      (fun a b => (((a ++ b).map (fun x => x.getD 100)).sum)) p.1 p.2) = [none, none, some 8, some 8, some 0] := by
  decide +kernel

end Verif.Utils
